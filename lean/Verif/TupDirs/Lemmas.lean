import Verif.TupDirs.Spec
import Verif.Relative.Props
import Verif.Eval.Props

namespace Tup.TupDirs

open Tup.Relative
open Tup.Pel (Comps Leads Name leads_append comps_text normal_good text)

variable {P : Proj} {root v : List Str}

theorem common_prefix {u p q k a b : List Str} (h1 : u ++ p = k ++ a) (h2 : u ++ q = k ++ b)
    (hd : ∀ x y c d, a = x :: c → b = y :: d → x ≠ y) : ∃ k', k = u ++ k' := by
  induction u generalizing k with
  | nil => exact ⟨k, rfl⟩
  | cons x u ih =>
    cases k with
    | nil =>
      simp only [List.nil_append, List.cons_append] at h1 h2
      exact absurd rfl (hd x x _ _ h1.symm h2.symm)
    | cons y k =>
      simp only [List.cons_append, List.cons.injEq] at h1 h2
      obtain ⟨k', rfl⟩ := ih h1.2 h2.2
      exact ⟨k', by rw [h1.1]; rfl⟩

/-- The relative path leads from the one to the other, and does so as well at another place with the same things below it. -/
theorem rel_leads {T : Table} {fuel s e : Nat} {t : Str} {u p q u' : List Str} {D : List Str → Prop} (hT : Proper T) (hp : Place T s (u ++ p))
    (hq : Place T e (u ++ q)) (h : relative T fuel s e '/' = some t) (hD : ∀ c d, q = c ++ d → D (u' ++ c)) :
    ∃ l, Comps t l ∧ Leads D (u' ++ p) l (u' ++ q) := by
  obtain ⟨k, a, b, h1, h2, hne, hn, rfl⟩ := relative_comps hT hp hq h
  obtain ⟨k', rfl⟩ := common_prefix h1 h2 hne
  rw [List.append_assoc] at h1 h2
  have h1 := List.append_cancel_left h1
  have h2 := List.append_cancel_left h2
  subst h1 h2
  by_cases hab : a = [] ∧ b = []
  · rw [if_pos hab]
    obtain ⟨rfl, rfl⟩ := hab
    refine ⟨[".".toList], ?_, .dot .here⟩
    exact comps_text (l := [".".toList]) (by
      intro e he; rw [List.mem_singleton.1 he]; exact ⟨by decide, by decide⟩) (w := []) (by simp)
  · rw [if_neg hab]
    refine ⟨List.replicate a.length "..".toList ++ b, ?_, ?_⟩
    · exact comps_text (normal_good ⟨_, _, rfl, hn⟩) (w := []) (by simp)
    · rw [← List.append_assoc, ← List.append_assoc]
      refine (leads_append _ _).2 ⟨u' ++ k', leads_ups _ a, leads_downs b _ hn ?_⟩
      intro c d hc _
      rw [List.append_assoc]
      exact hD (k' ++ c) d (by rw [hc, List.append_assoc])

theorem place_prefix {T : Table} {id : Nat} {q : List Str} (hq : Place T id q) : ∀ c d, q = c ++ d → Exists T c := by
  induction hq with
  | top h =>
    intro c d hc
    obtain ⟨rfl, rfl⟩ := List.append_eq_nil_iff.1 hc.symm
    exact ⟨_, .top h⟩
  | child h hq' ih =>
    intro c d hc
    by_cases hd : d = []
    · subst hd
      rw [List.append_nil] at hc
      rw [← hc]
      exact ⟨_, .child h hq'⟩
    · apply ih c d.dropLast
      have := congrArg List.dropLast hc
      rwa [List.dropLast_concat, List.dropLast_append_of_ne_nil hd] at this

theorem inside_prefix {id : Nat} {q : List Str} (hq : Place P.T id q) : ∀ c d, q = c ++ d → Inside P root (root ++ c) := fun c d h =>
  ⟨c, rfl, place_prefix hq c d h⟩

theorem rel_goes (hS : Sound P root) {a b : Nat} {t : Str} (ha : Known P a) (hb : Known P b) (h : P.rel a b = some t) :
    Goes (Inside P root) P root a t b := by
  obtain ⟨p, hp⟩ := ha
  obtain ⟨q, hq⟩ := hb
  obtain ⟨l, h1, h2⟩ := rel_leads (u := []) (u' := root) (D := Inside P root) hS.proper hp hq h (inside_prefix hq)
  exact ⟨p, q, l, hp, hq, h1, h2⟩

theorem rel_defined (hS : Sound P root) {a b : Nat} (ha : Known P a) (hb : Known P b) : ∃ t, P.rel a b = some t := by
  obtain ⟨p, hp⟩ := ha
  obtain ⟨q, hq⟩ := hb
  exact c14_defined hp hq (hS.deep hp) (hS.deep hq) '/'

theorem known_src (hm : Mirror P v) {id : Nat} (h : Known P id) : Known P (P.src id) := by
  unfold Proj.src
  split
  · rename_i s hs
    obtain ⟨p, h1, _⟩ := hm id s hs
    exact ⟨p, h1⟩
  · exact h

/-- The same path leads from the one source directory to the other. -/
theorem rel_src (hS : Sound P root) (hm : Mirror P v) {a b : Nat} {t : Str} (ha : Known P a) (hb : Known P b)
    (hs : (P.srcid a).isSome = (P.srcid b).isSome) (h : P.rel a b = some t) : Goes (Inside P root) P root (P.src a) t (P.src b) := by
  unfold Proj.src
  cases hx : P.srcid a with
  | none =>
    cases hy : P.srcid b with
    | none => exact rel_goes hS ha hb h
    | some y => rw [hx, hy] at hs; cases hs
  | some x =>
    cases hy : P.srcid b with
    | none => rw [hx, hy] at hs; cases hs
    | some y =>
      obtain ⟨p, h1, h2⟩ := hm a x hx
      obtain ⟨q, h3, h4⟩ := hm b y hy
      obtain ⟨l, h5, h6⟩ := rel_leads (u' := root) (D := Inside P root) hS.proper h2 h4 h (inside_prefix h3)
      exact ⟨p, q, l, h1, h3, h5, h6⟩

theorem digits_eq (n : Nat) : Eval.digits n = Nat.toDigits 10 n := by
  unfold Eval.digits Nat.repr
  simp

theorem digits_digit (n : Nat) : ∀ c ∈ Eval.digits n, Eval.isDigit c = true := by
  rw [digits_eq]
  intro c hc
  have := Nat.isDigit_of_mem_toDigits (by decide) (by decide) hc
  unfold Char.isDigit at this
  unfold Eval.isDigit
  simp only [Bool.and_eq_true, decide_eq_true_eq] at this ⊢
  exact this

theorem digits_ne (n : Nat) : Eval.digits n ≠ [] := by
  rw [digits_eq]
  exact Nat.toDigits_ne_nil

theorem number_digits (n : Nat) : Eval.number (Eval.digits n) = n := by
  rw [digits_eq]
  have h := Nat.ofDigitChars_ten_toDigits (n := n)
  rw [Nat.ofDigitChars_eq_foldl] at h
  unfold Eval.number
  rw [← h]
  congr 1
  · funext a c; rw [Nat.mul_comm]
  · rw [h]

/-- Text without a percent sign has no node reference. -/
theorem nodes_plain (path : Nat → Option Str) {s t o : Str} (h : '%' ∉ s) (ht : Eval.ExpandsNodes path t o) :
    Eval.ExpandsNodes path (s ++ t) (s ++ o) := by
  induction s with
  | nil => exact ht
  | cons c s ih =>
    rw [List.mem_cons, not_or] at h
    refine .other ?_ (ih h.2)
    rintro ⟨n, t', _, _, _, e⟩
    exact h.1 (List.cons.inj e).1.symm

/-- One node reference in a text. -/
theorem nodes_one (path : Nat → Option Str) {a b t : Str} {id : Nat} (hid : id < 2 ^ 63) (ha : '%' ∉ a) (hb : '%' ∉ b) (hp : path id = some t) :
    Eval.ExpandsNodes path (a ++ nodeRef id ++ b) (a ++ t ++ b) := by
  rw [List.append_assoc, List.append_assoc]
  refine nodes_plain path ha ?_
  have hb' := nodes_plain path hb (.nil)
  rw [List.append_nil] at hb'
  have e : nodeRef id ++ b = '%' :: Eval.digits id ++ 't' :: b := by simp [nodeRef]
  rw [e]
  exact .node (digits_ne id) (digits_digit id) (by rw [number_digits]; exact hid) (by rw [number_digits]; exact hp) hb'

/-- One reference in a text. -/
theorem expands_one (env : Eval.Env) {a b name v : Str} {c : Char} {d : List Str} (hc : Eval.Sigil c) (ha : '(' ∉ a) (ha' : a.getLast? ≠ some '\\') (hb : '(' ∉ b)
    (hn : ')' ∉ name) (hv : Eval.Stands env c name v d) : Eval.Expands env (a ++ c :: '(' :: name ++ ')' :: b) (a ++ v ++ b) d := by
  have hbe := (Eval.c05_expansion env b b []).1 (Eval.c05_plain env b hb)
  have hmid : Eval.Expands env (c :: '(' :: name ++ ')' :: b) (v ++ b) d := by
    have := Eval.Expands.reference hc hn hv hbe
    rwa [List.append_nil] at this
  induction a with
  | nil => exact hmid
  | cons x t ih =>
    rw [List.mem_cons, not_or] at ha
    have hlast : t.getLast? ≠ some '\\' := by
      intro h
      apply ha'
      cases t with
      | nil => cases h
      | cons y t' => rw [List.getLast?_cons_cons]; exact h
    have hcn : c ≠ '(' := by rintro rfl; rcases hc with h | h | h <;> exact absurd h (by decide)
    refine .other ?_ ?_ (ih ha.2 hlast)
    · rintro ⟨c', t', _, he⟩
      rw [List.cons.injEq] at he
      cases t with
      | nil => exact hcn (List.cons.inj he.2).1
      | cons d t'' => exact ha.2 (by rw [(List.cons.inj he.2).1]; exact List.mem_cons_self)
    · rintro ⟨c', t', _, he⟩
      rw [List.cons.injEq] at he
      cases t with
      | nil =>
        apply ha'
        rw [he.1]
        rfl
      | cons d t'' =>
        cases t'' with
        | nil => exact hcn (List.cons.inj (List.cons.inj he.2).2).1
        | cons d' t3 =>
          exact ha.2 (by rw [(List.cons.inj (List.cons.inj he.2).2).1]; exact List.mem_cons_of_mem _ List.mem_cons_self)

theorem base_dirText {l : List Str} {n : Str} (hn : Name n) : base (Pel.dirText (l ++ [n])) = n := by
  unfold Pel.dirText
  rw [if_neg (by simp), List.flatMap_append]
  unfold base
  simp only [List.flatMap_cons, List.flatMap_nil, List.append_nil, List.reverse_append, List.reverse_cons, List.append_assoc]
  have : ∀ c ∈ n.reverse, decide (c ≠ '/') = true := fun c hc => decide_eq_true (fun e => hn.2.1 (by rw [← e]; exact List.mem_reverse.1 hc))
  rw [List.takeWhile_append_of_pos this]
  simp

end Tup.TupDirs
