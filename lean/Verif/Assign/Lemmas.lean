import Verif.Assign.Spec
import Verif.Eval.Props
import Verif.Rules.Lemmas

namespace Tup.Assign

open Tup.Eval Tup.Rules

theorem collapse_append {a : Str} (ha : ' ' ∉ a) (b : Str) :
    collapse false (a ++ b) = a ++ collapse false b := by
  induction a with
  | nil => rfl
  | cons c a ih =>
    rw [List.mem_cons, not_or] at ha
    rw [List.cons_append, collapse]
    have : decide (c = ' ') = false := decide_eq_false (Ne.symm ha.1)
    rw [this, ih ha.2]
    rfl

theorem collapse_plain {a : Str} (ha : ' ' ∉ a) : collapse false a = a := by
  have := collapse_append ha []
  rw [List.append_nil] at this
  rw [this]
  simp [collapse]

theorem collapse_skip (s : Str) : collapse true s = collapse false (skipSpaces s) := by
  induction s with
  | nil => rfl
  | cons c s ih =>
    rw [collapse]
    split
    · next h =>
      rw [ih]
      unfold skipSpaces
      rw [List.dropWhile_cons_of_pos h]
    · next h =>
      unfold skipSpaces
      rw [List.dropWhile_cons_of_neg (by simpa using h), collapse]
      have : decide (c = ' ') = false := by
        apply decide_eq_false
        rintro rfl
        exact h (by decide)
      rw [this]

theorem toWords_ne (v : Str) : toWords v ≠ [] := by
  rw [toWords]
  split <;> simp

theorem expands_one {e : Env} {c : Char} (hc : Sigil c) {n : Str} (hn : ')' ∉ n) {o : Str} {d : List Str} :
    Expands e (c :: '(' :: n ++ [')']) o d ↔ Stands e c n o d := by
  constructor
  · intro h
    have h := evalLoop_complete e h
    rw [evalLoop_ref e hc hn] at h
    rw [← refValue_iff e hc]
    cases hr : refValue e c n with
    | none => rw [hr] at h; cases h
    | some p =>
      obtain ⟨v, d'⟩ := p
      rw [hr] at h
      obtain ⟨r, e', h1, h2, h3⟩ := pre_some h
      have h0 := evalLoop_complete e (Expands.nil)
      rw [h0] at h1
      cases h1
      rw [h2, h3, List.append_nil, List.append_nil]
  · intro h
    have := Expands.reference (t := []) hc hn h .nil
    rwa [List.append_nil, List.append_nil] at this

theorem joinWords_cons {w : Str} {l : List Str} (h : l ≠ []) : joinWords (w :: l) = w ++ ' ' :: joinWords l := by
  cases l with
  | nil => exact absurd rfl h
  | cons x l => rfl

theorem joinWords_append {l m : List Str} (hl : l ≠ []) (hm : m ≠ []) :
    joinWords (l ++ m) = joinWords l ++ ' ' :: joinWords m := by
  induction l with
  | nil => exact absurd rfl hl
  | cons w l ih =>
    cases l with
    | nil => rw [List.cons_append, List.nil_append, joinWords_cons hm]; rfl
    | cons x l =>
      rw [List.cons_append, joinWords_cons (by simp), ih (by simp), joinWords_cons (w := w) (l := x :: l) (by simp)]
      simp [List.append_assoc]

theorem joinWords_toWords : ∀ (n : Nat) (v : Str), v.length ≤ n → joinWords (toWords v) = collapse false v := by
  intro n
  induction n with
  | zero =>
    intro v hv
    have : v = [] := List.eq_nil_of_length_eq_zero (by omega)
    subst this
    rw [toWords]
    rfl
  | succ n ih =>
    intro v hv
    rw [toWords]
    split
    · next h =>
      have := strchr_none.1 h
      rw [collapse_plain this]
      rfl
    · next a b h =>
      obtain ⟨rfl, ha⟩ := strchr_some h
      have hb : (skipSpaces b).length ≤ n := by
        have := (List.dropWhile_suffix (l := b) isSpace).length_le
        simp only [List.length_append, List.length_cons] at hv
        unfold skipSpaces
        omega
      rw [joinWords_cons (toWords_ne _), ih _ hb, collapse_append ha, collapse]
      rw [show decide (' ' = ' ') = true from rfl, collapse_skip]

theorem splitAssign_iff (line : Str) (op : Op) (a b : Str) :
    splitAssign line = some (op, a, b) ↔ Assigns line op a b := by
  have first : ∀ {x y : Char} {a b : Str} {line}, strstr [x, y] line = some (a, b) → ¬ Occurs [x, y] a := by
    intro x y a b line h
    obtain ⟨h1, h2⟩ := strstr_some h
    rintro ⟨p, q, rfl⟩
    have := h2 p (q ++ [x, y] ++ b) (by rw [h1]; simp [List.append_assoc])
    simp only [List.length_append, List.length_cons, List.length_nil] at this
    omega
  constructor
  · intro h
    unfold splitAssign at h
    split at h
    · next h1 =>
      simp only [Option.some.injEq, Prod.mk.injEq] at h
      obtain ⟨rfl, rfl, rfl⟩ := h
      rw [(strstr_some h1).1]
      exact .append (first h1)
    · next h0 =>
      have hp := strstr_none.1 h0
      split at h
      · next h1 =>
        simp only [Option.some.injEq, Prod.mk.injEq] at h
        obtain ⟨rfl, rfl, rfl⟩ := h
        have hn := first h1
        have he := (strstr_some h1).1
        rw [he] at hp ⊢
        exact .define hp hn
      · next h1 =>
        have hd := strstr_none.1 h1
        cases hc : strchr '=' line with
        | none => rw [hc] at h; cases h
        | some q =>
          obtain ⟨x, y⟩ := q
          rw [hc] at h
          simp only [Option.map_some, Option.some.injEq, Prod.mk.injEq] at h
          obtain ⟨rfl, rfl, rfl⟩ := h
          obtain ⟨rfl, h2⟩ := strchr_some hc
          have e : x ++ '=' :: y = x ++ "=".toList ++ y := by simp [List.append_assoc]
          rw [e] at hp hd ⊢
          exact .set hp hd h2
  · intro h
    cases h with
    | append h =>
      unfold splitAssign
      rw [show strstr "+=".toList (a ++ "+=".toList ++ b) = some (a, b) from strstr_pair (by decide) h]
    | define h1 h2 =>
      unfold splitAssign
      rw [strstr_none.2 h1]
      simp only
      rw [show strstr ":=".toList (a ++ ":=".toList ++ b) = some (a, b) from strstr_pair (by decide) h2]
    | set h1 h2 h3 =>
      unfold splitAssign
      rw [strstr_none.2 h1]
      simp only
      rw [strstr_none.2 h2]
      have e : a ++ "=".toList ++ b = a ++ '=' :: b := by simp [List.append_assoc]
      rw [e, strchr_append h3]
      rfl

theorem beforeLast_append {c : Char} (a : Str) {b : Str} (hb : c ∉ b) : beforeLast c (a ++ c :: b) = some a := by
  have hn : ∀ s : Str, c ∉ s → beforeLast c s = none := by
    intro s
    induction s with
    | nil => intro _; rfl
    | cons x s ih =>
      intro h
      rw [List.mem_cons, not_or] at h
      rw [beforeLast, ih h.2]
      simp only
      rw [if_neg (Ne.symm h.1)]
  induction a with
  | nil =>
    rw [List.nil_append, beforeLast, hn b hb]
    simp
  | cons x a ih =>
    rw [List.cons_append, beforeLast, ih]

theorem beforeLast_none {c : Char} {s : Str} : beforeLast c s = none ↔ c ∉ s := by
  induction s with
  | nil => simp [beforeLast]
  | cons x s ih =>
    rw [beforeLast, List.mem_cons, not_or]
    cases h : beforeLast c s with
    | none =>
      rw [h] at ih
      simp only [true_iff] at ih
      by_cases hx : x = c
      · simp [hx]
      · simp [hx, ih, Ne.symm hx]
    | some a =>
      rw [h] at ih
      simp only [reduceCtorEq, false_iff, Decidable.not_not] at ih
      simp [ih]

end Tup.Assign
