import Verif.Generate.Spec
import Verif.Relative.Props
import Verif.Strings.Lemmas

/-! Helpers for C72: the text and the shell. -/

namespace Tup.Generate

open Tup.Relative (Table Place Proper relative)
open Tup.Strings (shWord)
open Tup.Pel (Name text)

theorem lines_cons {a : Str} (ha : '\n' ∉ a) (s : Str) : lines (a ++ '\n' :: s) = a :: lines s := by
  induction a with
  | nil => simp [lines]
  | cons c a ih =>
    rw [List.mem_cons, not_or] at ha
    rw [List.cons_append, lines, if_neg (Ne.symm ha.1), ih ha.2]

theorem pieces_name {e : Str} (h : '/' ∉ e) : pieces e = [e] := by
  induction e with
  | nil => rfl
  | cons c e ih =>
    rw [List.mem_cons, not_or] at h
    rw [pieces, if_neg (Ne.symm h.1), ih h.2]

theorem pieces_slash {e : Str} (h : '/' ∉ e) (s : Str) : pieces (e ++ '/' :: s) = e :: pieces s := by
  induction e with
  | nil => simp [pieces]
  | cons c e ih =>
    rw [List.mem_cons, not_or] at h
    rw [List.cons_append, pieces, if_neg (Ne.symm h.1), ih h.2]

theorem text_cons (x y : Str) (l : List Str) : text (x :: y :: l) = x ++ '/' :: text (y :: l) := by
  simp [text, List.intercalate, List.intersperse]

theorem comps_text {l : List Str} (h : ∀ e ∈ l, e ≠ [] ∧ '/' ∉ e) : comps (text l) = l := by
  induction l with
  | nil => simp [text, List.intercalate, comps, pieces]
  | cons x l ih =>
    have hx := h x List.mem_cons_self
    cases l with
    | nil =>
      have : text [x] = x := by simp [text, List.intercalate]
      rw [this, comps, pieces_name hx.2, List.filter_cons_of_pos (by simpa using hx.1)]
      rfl
    | cons y l =>
      have ih := ih fun e he => h e (List.mem_cons_of_mem _ he)
      rw [text_cons, comps, pieces_slash hx.2, List.filter_cons_of_pos (by simpa using hx.1)]
      unfold comps at ih
      rw [ih]

theorem comps_slashes {l : List Str} (h : ∀ e ∈ l, e ≠ [] ∧ '/' ∉ e) : comps (l.flatMap fun n => n ++ ['/']) = l := by
  induction l with
  | nil => rfl
  | cons x l ih =>
    have hx := h x List.mem_cons_self
    have ih := ih fun e he => h e (List.mem_cons_of_mem _ he)
    unfold comps at ih ⊢
    rw [List.flatMap_cons, List.append_assoc, List.singleton_append, pieces_slash hx.2, List.filter_cons_of_pos (by simpa using hx.1), ih]

theorem escaped_id {s : Str} (h : ∀ c ∈ s, c ≠ '"') : Strings.escaped '"' s = s := by
  induction s with
  | nil => rfl
  | cons c s ih =>
    have hc := h c List.mem_cons_self
    have ih := ih fun x hx => h x (List.mem_cons_of_mem _ hx)
    unfold Strings.escaped at ih ⊢
    rw [List.flatMap_cons, ih, if_neg hc]
    rfl

theorem word_quoted {s : Str} (h : ∀ c ∈ s, c ≠ '"' ∧ c ≠ '$' ∧ c ≠ '`' ∧ c ≠ '\\') : shWord .plain ('"' :: s ++ ['"']) = some s := by
  have h1 := Strings.shWord_double s (fun c hc => ⟨(h c hc).2.1, (h c hc).2.2.1, (h c hc).2.2.2⟩) []
  rw [escaped_id fun c hc => (h c hc).1] at h1
  rw [List.cons_append, shWord, if_neg (by decide), if_pos rfl, h1]
  · simp [shWord]
  · intro c' s' e _
    exact absurd e (by decide)

theorem word_bare {s : Str} (h : ∀ c ∈ s, c.isAlphanum = true ∨ c ∈ ['_', '.', '/', '-', '+', ',', ':', '@', '%']) : shWord .plain s = some s := by
  induction s with
  | nil => simp [shWord]
  | cons c s ih =>
    have hc := h c List.mem_cons_self
    have ih := ih fun x hx => h x (List.mem_cons_of_mem _ hx)
    have h1 : c ≠ '\'' := by rintro rfl; revert hc; decide
    have h2 : c ≠ '"' := by rintro rfl; revert hc; decide
    have h3 : c ≠ '\\' := by rintro rfl; revert hc; decide
    rw [shWord, if_neg h1, if_neg h2, if_pos hc, ih]
    · rfl
    · intro c' s' e _
      exact absurd e h3

/-! Going down a path. -/

theorem name_dots {e : Str} (h : Name e) : e ≠ ['.'] ∧ e ≠ ['.', '.'] := ⟨h.2.2.1, h.2.2.2⟩

theorem walk_down {isDir : List Str → Bool} {l : List Str} : ∀ {p : List Str}, (∀ n ∈ l, Name n) → (∀ a b, l = a ++ b → a ≠ [] → isDir (p ++ a) = true) → walk isDir p l = some (p ++ l) := by
  induction l with
  | nil => intro p _ _; rw [walk, List.append_nil]
  | cons e l ih =>
    intro p hn hd
    have h1 := hn e List.mem_cons_self
    rw [walk, if_neg (name_dots h1).1, if_neg (name_dots h1).2, if_pos (hd [e] l rfl (by simp))]
    rw [ih (fun n hn' => hn n (List.mem_cons_of_mem _ hn'))]
    · rw [List.append_assoc]; rfl
    · intro a b hab ha
      rw [List.append_assoc]
      exact hd (e :: a) b (by rw [hab]; rfl) (by simp)

theorem walk_up {isDir : List Str → Bool} (k b : List Str) : ∀ (a : List Str), walk isDir (k ++ a) (List.replicate a.length ['.', '.'] ++ b) = walk isDir k b := by
  suffices h : ∀ (n : Nat) (a : List Str), a.length = n → walk isDir (k ++ a) (List.replicate n ['.', '.'] ++ b) = walk isDir k b from fun a => h _ a rfl
  intro n
  induction n with
  | zero =>
    intro a ha
    rw [List.length_eq_zero_iff.1 ha, List.append_nil]
    rfl
  | succ n ih =>
    intro a ha
    have hne : a ≠ [] := by rintro rfl; cases ha
    have hne' : k ++ a ≠ [] := by simp [hne]
    rw [List.replicate_succ, List.cons_append, walk, if_neg (by decide), if_pos rfl, if_neg hne', List.dropLast_append_of_ne_nil hne]
    exact ih a.dropLast (by rw [List.length_dropLast]; omega)

/-- The path that is written leads from the one directory to the other. -/
theorem walk_relative {T : Table} (hT : Proper T) {fuel s e : Nat} {p q : List Str} (hp : Place T s p) (hq : Place T e q) {t : Str} (h : relative T fuel s e '/' = some t)
    {isDir : List Str → Bool} (hd : ∀ a b, q = a ++ b → isDir a = true) : walk isDir p (comps t) = some q := by
  obtain ⟨k, a, b, rfl, rfl, _, hn, rfl⟩ := Relative.relative_comps hT hp hq h
  split
  · rename_i hab
    obtain ⟨rfl, rfl⟩ := hab
    have : comps ".".toList = [['.']] := by decide
    rw [this]
    simp only [walk, if_true]
  · have hc : comps (text (List.replicate a.length "..".toList ++ b)) = List.replicate a.length "..".toList ++ b := by
      refine comps_text fun e he => ?_
      rcases List.mem_append.1 he with he | he
      · rw [List.eq_of_mem_replicate he]
        decide
      · exact ⟨(hn e he).1, (hn e he).2.1⟩
    rw [hc]
    have : "..".toList = ['.', '.'] := by decide
    rw [this, walk_up]
    refine walk_down hn fun x y hxy _ => hd (k ++ x) y ?_
    rw [hxy, List.append_assoc]

theorem mkdirP_ok {W : Type} (K : World W) {l : List Str} : ∀ {p : List Str} (w : W), (∀ n ∈ l, Name n) →
    ∃ w', mkdirP K w p l = some w' ∧ ∀ q, K.isDir w' q = true ↔ K.isDir w q = true ∨ ∃ a b, l = a ++ b ∧ a ≠ [] ∧ q = p ++ a := by
  induction l with
  | nil =>
    intro p w _
    refine ⟨w, by rw [mkdirP], fun q => ⟨.inl, ?_⟩⟩
    rintro (h | ⟨a, b, h1, h2, _⟩)
    · exact h
    · exact absurd (List.append_eq_nil_iff.1 h1.symm).1 h2
  | cons e l ih =>
    intro p w hn
    have h1 := hn e List.mem_cons_self
    have hn' : ∀ n ∈ l, Name n := fun n h => hn n (List.mem_cons_of_mem _ h)
    rw [mkdirP, if_neg (name_dots h1).1, if_neg (name_dots h1).2]
    have hiff : ∀ q, (q = p ++ [e] ∨ ∃ a b, l = a ++ b ∧ a ≠ [] ∧ q = (p ++ [e]) ++ a) ↔ ∃ a b, e :: l = a ++ b ∧ a ≠ [] ∧ q = p ++ a := by
      intro q
      constructor
      · rintro (rfl | ⟨a, b, rfl, ha, rfl⟩)
        · exact ⟨[e], l, rfl, by simp, rfl⟩
        · exact ⟨e :: a, b, rfl, by simp, by simp⟩
      · rintro ⟨a, b, hab, ha, rfl⟩
        cases a with
        | nil => exact absurd rfl ha
        | cons x a =>
          obtain ⟨hx, hl⟩ := List.cons.inj hab
          subst hx
          by_cases ha' : a = []
          · subst ha'
            exact .inl rfl
          · exact .inr ⟨a, b, hl, ha', by simp⟩
    by_cases hd : K.isDir w (p ++ [e]) = true
    · rw [if_pos hd]
      obtain ⟨w', g1, g2⟩ := ih (p := p ++ [e]) w hn'
      refine ⟨w', g1, fun q => ?_⟩
      rw [g2, ← hiff]
      constructor
      · rintro (h | h)
        · exact .inl h
        · exact .inr (.inr h)
      · rintro (h | rfl | h)
        · exact .inl h
        · exact .inl hd
        · exact .inr h
    · rw [if_neg hd]
      obtain ⟨w', g1, g2⟩ := ih (p := p ++ [e]) (K.make w (p ++ [e])) hn'
      refine ⟨w', g1, fun q => ?_⟩
      rw [g2, ← hiff, K.make_dir, Bool.or_eq_true, decide_eq_true_iff, or_assoc]

/-! Places. -/

theorem place_fun {T : Table} {id : Nat} {p q : List Str} (hp : Place T id p) (hq : Place T id q) : p = q := by
  induction hp generalizing q with
  | top h =>
    cases hq with
    | top _ => rfl
    | child h' _ => rw [h] at h'; cases h'
  | child h hp ih =>
    cases hq with
    | top h' => rw [h] at h'; cases h'
    | child h' hq' =>
      rw [h] at h'
      cases h'
      rw [ih hq']

theorem place_names {T : Table} (hT : Proper T) {id : Nat} {p : List Str} (hp : Place T id p) : ∀ n ∈ p, Name n := by
  induction hp with
  | top _ => intro n hn; cases hn
  | child h _ ih =>
    intro n hn
    rcases List.mem_append.1 hn with hn | hn
    · exact ih n hn
    · rw [List.mem_singleton.1 hn]
      exact hT.names h

theorem place_prefix {T : Table} {id : Nat} {p : List Str} (hp : Place T id p) : ∀ a b, p = a ++ b → ∃ j, Place T j a := by
  induction hp with
  | top h =>
    intro a b hab
    obtain ⟨rfl, rfl⟩ := List.append_eq_nil_iff.1 hab.symm
    exact ⟨_, .top h⟩
  | @child id n d p h hp ih =>
    intro a b hab
    rcases List.eq_nil_or_concat b with rfl | ⟨b', x, rfl⟩
    · rw [List.append_nil] at hab
      exact ⟨id, hab ▸ .child h hp⟩
    · rw [List.concat_eq_append, ← List.append_assoc] at hab
      exact ih a b' (List.append_inj' hab rfl).1

/-! What is printed. -/

theorem text_snoc {p : List Str} (n : Str) : text (p ++ [n]) = text p ++ (if p = [] then [] else ['/']) ++ n := by
  induction p with
  | nil => simp [text, List.intercalate]
  | cons x p ih =>
    cases p with
    | nil => simp [text, List.intercalate, List.intersperse]
    | cons y p =>
      rw [List.cons_append, List.cons_append, text_cons, text_cons]
      rw [List.cons_append] at ih
      rw [ih]
      simp

theorem printIn_eq {T : Table} (hT : Proper T) {id : Nat} {p : List Str} (hp : Place T id p) : ∀ fuel, p.length < fuel → printIn T none fuel id = some (decide (p ≠ []), text p) := by
  induction hp with
  | top h =>
    intro fuel hf
    cases fuel with
    | zero => omega
    | succ fuel => simp [printIn, h, text, List.intercalate]
  | @child id n d p h hp ih =>
    intro fuel hf
    cases fuel with
    | zero => omega
    | succ fuel =>
      rw [List.length_append] at hf
      have hn := hT.names h
      have hh : n.head? ≠ some '/' := by
        intro hx
        cases n with
        | nil => cases hx
        | cons c n =>
          cases hx
          exact hn.2.1 List.mem_cons_self
      have := ih fuel (by simp at hf; omega)
      simp only [printIn, h]
      rw [if_neg (by simp), this]
      simp only
      rw [if_neg hh, text_snoc]
      simp

theorem printEntry_eq {E : Env} (hT : Proper E.tab) {id : Nat} {p : List Str} (hp : Place E.tab id p) (h0 : p ≠ []) (hf : p.length ≤ E.fuel) (hb : E.inBuild id = false) :
    printEntry E id = some (text p) := by
  cases hp with
  | top _ => exact absurd rfl h0
  | child h hp =>
    rw [List.length_append] at hf
    unfold printEntry
    rw [h]
    simp only
    rw [hb, if_neg (by decide), printIn_eq hT hp E.fuel (by simp at hf; omega)]
    simp only
    rw [text_snoc]
    simp

theorem place_top {T : Table} (hT : Proper T) {top : Nat} {t0 : Str} (ht : T top = some ⟨t0, none⟩) {d : Nat} (hp : Place T d []) : d = top := by
  generalize hq : ([] : List Str) = q at hp
  cases hp with
  | top h => exact hT.top h ht
  | child _ _ => simp at hq

theorem writeEntry_eq {E : Env} (hT : Proper E.tab) {t0 : Str} (ht : E.tab E.top = some ⟨t0, none⟩) {id : Nat} {p : List Str} (hp : Place E.tab id p) : ∀ fuel, p.length < fuel →
    writeEntry E fuel id = some (if p = [] then ['.'] else p.flatMap fun n => n ++ ['/']) := by
  induction hp with
  | @top id m h =>
    intro fuel hf
    cases fuel with
    | zero => omega
    | succ fuel =>
      simp only [writeEntry, h]
      rw [if_pos (hT.top h ht)]
      rfl
  | @child id n d p h hp ih =>
    intro fuel hf
    cases fuel with
    | zero => omega
    | succ fuel =>
      rw [List.length_append] at hf
      have hne : id ≠ E.top := by
        rintro rfl
        rw [ht] at h
        cases h
      simp only [writeEntry, h]
      rw [if_neg hne, if_neg (by simp : p ++ [n] ≠ [])]
      by_cases hd : d = E.top
      · rw [if_pos hd]
        subst hd
        rw [place_fun hp (.top ht)]
        simp
      · rw [if_neg hd, ih fuel (by simp at hf; omega)]
        have : p ≠ [] := by
          rintro rfl
          exact hd (place_top hT ht hp)
        rw [if_neg this]
        simp

end Tup.Generate
