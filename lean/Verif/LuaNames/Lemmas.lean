import Verif.LuaNames.Spec

/-! Lemmas for C87. -/

namespace Tup.LuaNames

open Tup (Str)

/-! ### the directory -/

theorem expand_none {β : Type} {p : Char → Bool} {k : Str → Option β} : ∀ {s : Str}, (∀ a b, s = a ++ b → k b = none) → expand p k s = none
  | [], h => h [] [] rfl
  | c :: t, h => by
    unfold expand
    rw [expand_none (s := t) (fun a b e => h (c :: a) b (by rw [e]; rfl)), h [] (c :: t) rfl]
    split <;> rfl

theorem expand_some {β : Type} {p : Char → Bool} {k : Str → Option β} : ∀ {a b : Str} {r : β}, (∀ c, c ∈ a → p c = true) → (∀ c t, b = c :: t → p c = false) → k b = some r → expand p k (a ++ b) = some r
  | [], [], r, _, _, e => e
  | [], c :: t, r, _, h, e => by
    show expand p k (c :: t) = _
    unfold expand
    rw [h c t rfl]
    exact e
  | c :: a, b, r, ha, h, e => by
    show expand p k (c :: (a ++ b)) = _
    unfold expand
    rw [expand_some (fun x hx => ha x (List.mem_cons_of_mem _ hx)) h e, ha c List.mem_cons_self]
    rfl

theorem sep_iff {c : Char} : isSep c = true ↔ (c = '/' ∨ c = '\\') := by
  unfold isSep
  simp

theorem dir_hit {a t : Str} {c : Char} (ha : ∀ c, c ∈ a → isSep c = false) (hc : isSep c = true) : endOf dirPat (a ++ c :: t) = some t := by
  have : matchAt dirPat [] [] (a ++ c :: t) = some (t, []) := by
    show expand (fun c => !isSep c) (matchAt [.one isSep] [] []) (a ++ c :: t) = _
    refine expand_some (fun x hx => by rw [ha x hx]; rfl) (fun x u e => ?_) ?_
    · cases e
      rw [hc]
      rfl
    · show (if isSep c then some (t, []) else none) = _
      rw [if_pos hc]
  unfold endOf
  rw [this]
  rfl

theorem dir_miss {s : Str} (h : ∀ c, c ∈ s → isSep c = false) : endOf dirPat s = none := by
  have : matchAt dirPat [] [] s = none := by
    show expand (fun c => !isSep c) (matchAt [.one isSep] [] []) s = _
    refine expand_none (fun a b e => ?_)
    cases b with
    | nil => rfl
    | cons c t =>
      show (if isSep c then some (t, []) else none) = none
      rw [h c (by rw [e]; simp)]
      rfl
  unfold endOf
  rw [this]
  rfl

theorem gsub_miss {pat : List Item} : ∀ {s : Str} {n : Nat} {last : Option Nat}, s.length < n → (∀ a b, s = a ++ b → endOf pat b = none) → gsubLoop pat n last s = some s
  | [], n + 1, last, _, h => by
    unfold gsubLoop
    rw [h [] [] rfl]
    rfl
  | c :: t, n + 1, last, hn, h => by
    unfold gsubLoop
    rw [h [] (c :: t) rfl]
    show (gsubLoop pat n last t).map _ = _
    rw [gsub_miss (by simpa using hn) (fun a b e => h (c :: a) b (by rw [e]; rfl))]
    rfl

/-- A text has no separator, or there is a first one. -/
theorem split_sep : ∀ s : Str, (∀ c, c ∈ s → isSep c = false) ∨ ∃ a c t, s = a ++ c :: t ∧ (∀ c, c ∈ a → isSep c = false) ∧ isSep c = true
  | [] => Or.inl fun c h => by cases h
  | c :: t => by
    cases hc : isSep c with
    | true => exact Or.inr ⟨[], c, t, rfl, fun x h => (by cases h), hc⟩
    | false =>
      rcases split_sep t with h | ⟨a, d, u, rfl, h1, h2⟩
      · exact Or.inl fun x hx => by
          rcases List.mem_cons.mp hx with rfl | hx
          · exact hc
          · exact h x hx
      · exact Or.inr ⟨c :: a, d, u, rfl, fun x hx => (by
          rcases List.mem_cons.mp hx with rfl | hx
          · exact hc
          · exact h1 x hx), h2⟩

theorem isDir_tail {a t : Str} {c : Char} (h : IsDir (a ++ c :: t)) : IsDir t := by
  rcases h with h | ⟨e, x, h, hx⟩
  · cases a <;> cases h
  · cases ht : t.reverse with
    | nil => exact Or.inl (List.reverse_eq_nil_iff.mp ht)
    | cons y u =>
      have : t = u.reverse ++ [y] := by
        rw [← List.reverse_reverse t, ht]
        simp
      rw [this] at h
      have h2 : (a ++ c :: u.reverse) ++ [y] = e ++ [x] := by
        rw [← h]
        simp
      obtain ⟨_, h3⟩ := List.append_inj' h2 rfl
      cases h3
      exact Or.inr ⟨_, _, this, hx⟩

theorem file_loop {name : Str} (hn : IsName name) : ∀ (m : Nat) (d : Str) (n : Nat) (last : Option Nat), d.length ≤ m → (d ++ name).length < n → (last = none ∨ last = some (d ++ name).length) → IsDir d →
    gsubLoop dirPat n last (d ++ name) = some name := by
  have nosep : ∀ c, c ∈ name → isSep c = false := by
    intro c hc
    cases h : isSep c with
    | false => rfl
    | true =>
      rcases sep_iff.mp h with rfl | rfl
      · exact absurd rfl (hn _ hc).1
      · exact absurd rfl (hn _ hc).2
  intro m
  induction m with
  | zero =>
    intro d n last hd hl _ _
    have : d = [] := List.length_eq_zero_iff.mp (by omega)
    subst this
    exact gsub_miss hl (fun a b e => dir_miss fun c hc => nosep c (by
      show c ∈ name
      have : name = a ++ b := e
      rw [this]
      exact List.mem_append_right _ hc))
  | succ m ih =>
    intro d n last hd hl h dd
    rcases split_sep d with h1 | ⟨a, c, t, rfl, h1, h2⟩
    · have : d = [] := by
        rcases dd with rfl | ⟨e, x, rfl, hx⟩
        · rfl
        · have := sep_iff.mpr hx
          rw [h1 x (by simp)] at this
          cases this
      subst this
      exact ih [] n last (by simp) hl h dd
    · cases n with
      | zero => omega
      | succ n =>
        have len : (a ++ c :: t ++ name).length = a.length + 1 + (t ++ name).length := by simp; omega
        have e : a ++ c :: t ++ name = a ++ c :: (t ++ name) := by simp
        have ne : last ≠ some (t ++ name).length := by
          rcases h with rfl | rfl
          · simp
          · rw [len]
            intro h
            have := Option.some.inj h
            omega
        unfold gsubLoop
        rw [e, dir_hit h1 h2]
        show (match (if decide (last ≠ some (t ++ name).length) = true then some (t ++ name) else none), a ++ c :: (t ++ name) with
          | some e, _ => gsubLoop dirPat n (some e.length) e
          | none, [] => some []
          | none, c :: t => (gsubLoop dirPat n last t).map (c :: ·)) = some name
        rw [if_pos (by simpa using ne)]
        refine ih t n _ ?_ (by rw [len] at hl; omega) (Or.inr rfl) (isDir_tail dd)
        have : (a ++ c :: t).length = a.length + 1 + t.length := by simp; omega
        omega

/-! ### the extension -/

theorem word_dot : isWord '.' = false := by decide +kernel

/-- `'%.%w*$'` with or without its capture, at a position. -/
theorem dot_at (s : Str) : (∃ x, s = '.' :: x ∧ Alnum x ∧ endOf dotPat s = some [] ∧ matchAt extPat [] [] s = some ([], x))
    ∨ ((∀ x, s = '.' :: x → ¬ Alnum x) ∧ endOf dotPat s = none ∧ matchAt extPat [] [] s = none) := by
  have split : ∀ x : Str, Alnum x ∨ ∃ a c t, x = a ++ c :: t ∧ Alnum a ∧ isWord c = false := by
    intro x
    induction x with
    | nil => exact Or.inl fun c h => by cases h
    | cons c t ih =>
      cases hc : isWord c with
      | false => exact Or.inr ⟨[], c, t, rfl, fun x h => (by cases h), hc⟩
      | true =>
        rcases ih with h | ⟨a, d, u, rfl, h1, h2⟩
        · exact Or.inl fun x hx => by
            rcases List.mem_cons.mp hx with rfl | hx
            · exact hc
            · exact h x hx
        · exact Or.inr ⟨c :: a, d, u, rfl, fun x hx => (by
            rcases List.mem_cons.mp hx with rfl | hx
            · exact hc
            · exact h1 x hx), h2⟩
  have miss : ∀ {s : Str}, (∀ x, s = '.' :: x → ¬ Alnum x) → endOf dotPat s = none ∧ matchAt extPat [] [] s = none := by
    intro s h
    cases s with
    | nil => exact ⟨rfl, rfl⟩
    | cons c t =>
      by_cases hc : c = '.'
      · subst hc
        have m1 : matchAt dotPat [] [] ('.' :: t) = expand isWord (matchAt [.eos] [] []) t := rfl
        have m2 : matchAt extPat [] [] ('.' :: t) = expand isWord (matchAt [.stop, .eos] t []) t := rfl
        have key : ∀ {β : Type} (k : Str → Option β), (∀ b, b ≠ [] → k b = none) → expand isWord k t = none := by
          intro β k hk
          rcases split t with ht | ⟨a, d, u, rfl, ha, h2⟩
          · exact absurd ht (h t rfl)
          · clear m1 m2 h ha
            induction a with
            | nil =>
              show expand isWord k (d :: u) = none
              unfold expand
              rw [h2]
              exact hk _ (by simp)
            | cons x a ih =>
              show expand isWord k (x :: (a ++ d :: u)) = none
              unfold expand
              rw [ih, hk _ (by simp)]
              split <;> rfl
        refine ⟨?_, ?_⟩
        · unfold endOf
          rw [m1, key (matchAt [.eos] [] []) (fun b hb => if_neg hb)]
          rfl
        · rw [m2]
          exact key _ (fun b hb => if_neg hb)
      · have m1 : matchAt dotPat [] [] (c :: t) = none := if_neg (by simpa using hc)
        refine ⟨?_, if_neg (by simpa using hc)⟩
        unfold endOf
        rw [m1]
        rfl
  by_cases h : ∃ x, s = '.' :: x ∧ Alnum x
  · obtain ⟨x, rfl, hx⟩ := h
    refine Or.inl ⟨x, rfl, hx, ?_, ?_⟩
    · have m1 : matchAt dotPat [] [] ('.' :: x) = expand isWord (matchAt [.eos] [] []) x := rfl
      have := expand_some (p := isWord) (k := matchAt [.eos] [] []) (a := x) (b := []) (r := ([], [])) hx (fun c t e => by cases e) rfl
      rw [List.append_nil] at this
      unfold endOf
      rw [m1, this]
      rfl
    · have m2 : matchAt extPat [] [] ('.' :: x) = expand isWord (matchAt [.stop, .eos] x []) x := rfl
      have := expand_some (p := isWord) (k := matchAt [.stop, .eos] x []) (a := x) (b := []) (r := ([], x)) hx (fun c t e => by cases e) (by
        show some ([], x.take (x.length - 0)) = _
        simp)
      rw [List.append_nil] at this
      rw [m2, this]
  · have h' : ∀ x, s = '.' :: x → ¬ Alnum x := fun x e hx => h ⟨x, e, hx⟩
    exact Or.inr ⟨h', miss h'⟩

theorem alnum_no_dot {x : Str} (h : Alnum x) : '.' ∉ x := fun hd => by
  have := h _ hd
  exact absurd this (by decide)

/-- Before the last dot there is no match. -/
theorem early {c : Char} {a b : Str} : (∀ y, c :: (a ++ '.' :: b) = '.' :: y → ¬ Alnum y) := by
  intro y e hy
  have : y = a ++ '.' :: b := by
    injection e with _ e
    exact e.symm
  subst this
  exact alnum_no_dot hy (by simp)

theorem base_hit {x : Str} (hx : Alnum x) : ∀ (stem : Str) (n : Nat), stem.length + 1 < n → gsubLoop dotPat n none (stem ++ '.' :: x) = some stem
  | [], n + 2, _ => by
    show gsubLoop dotPat (n + 2) none ('.' :: x) = _
    rcases dot_at ('.' :: x) with ⟨y, e, _, h, _⟩ | ⟨h, _⟩
    · unfold gsubLoop
      rw [h]
      show gsubLoop dotPat (n + 1) (some 0) [] = some []
      rfl
    · exact absurd hx (h x rfl)
  | c :: stem, n + 1, hn => by
    show gsubLoop dotPat (n + 1) none (c :: (stem ++ '.' :: x)) = _
    rcases dot_at (c :: (stem ++ '.' :: x)) with ⟨y, e, hy, _⟩ | ⟨_, h, _⟩
    · exact absurd hy (early y e)
    · unfold gsubLoop
      rw [h]
      show (gsubLoop dotPat n none (stem ++ '.' :: x)).map _ = _
      rw [base_hit hx stem n (by simpa using hn)]
      rfl

theorem ext_hit {x : Str} (hx : Alnum x) : ∀ stem : Str, find extPat (stem ++ '.' :: x) = some x
  | [] => by
    show find extPat ('.' :: x) = _
    rcases dot_at ('.' :: x) with ⟨y, e, _, _, h⟩ | ⟨h, _⟩
    · unfold find
      rw [h]
      cases e
      rfl
    · exact absurd hx (h x rfl)
  | c :: stem => by
    show find extPat (c :: (stem ++ '.' :: x)) = _
    rcases dot_at (c :: (stem ++ '.' :: x)) with ⟨y, e, hy, _⟩ | ⟨_, _, h⟩
    · exact absurd hy (early y e)
    · unfold find
      rw [h]
      exact ext_hit hx stem

theorem ext_miss : ∀ {s : Str}, (∀ a x, s = a ++ '.' :: x → ¬ Alnum x) → find extPat s = none
  | [], _ => rfl
  | c :: t, h => by
    rcases dot_at (c :: t) with ⟨y, e, hy, _⟩ | ⟨_, _, h1⟩
    · exact absurd hy (h [] y e)
    · unfold find
      rw [h1]
      exact ext_miss (fun a x e => h (c :: a) x (by rw [e]; rfl))

theorem base_miss {s : Str} (h : ∀ a x, s = a ++ '.' :: x → ¬ Alnum x) : gsub dotPat s = some s := by
  refine gsub_miss (by omega) (fun a b e => ?_)
  rcases dot_at b with ⟨y, rfl, hy, _⟩ | ⟨_, h1, _⟩
  · exact absurd hy (h a y e)
  · exact h1

end Tup.LuaNames
