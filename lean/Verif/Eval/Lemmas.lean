import Verif.Eval.Spec

namespace Tup.Eval

/-- The value of a reference. -/
def refValue (env : Env) (c : Char) (name : Str) : Option (Str × List Str) :=
  if c = '$' then dollar env name else if c = '@' then at_ env name else amp env name

theorem take_drop_eq {x : Str} : (x.length > 7 ∧ x.take 7 = "CONFIG_".toList) ↔
    ∃ y, y ≠ [] ∧ x = "CONFIG_".toList ++ y := by
  constructor
  · rintro ⟨h1, h2⟩
    refine ⟨x.drop 7, ?_, ?_⟩
    · intro h
      have := congrArg List.length h
      simp only [List.length_drop, List.length_nil] at this
      omega
    · rw [← h2, List.take_append_drop]
  · rintro ⟨y, hy, rfl⟩
    have := List.length_pos_iff.2 hy
    refine ⟨?_, rfl⟩
    rw [List.length_append, show "CONFIG_".toList.length = 7 from rfl]
    omega

theorem refValue_iff (env : Env) {c : Char} (hc : Sigil c) (name v : Str) (d : List Str) :
    refValue env c name = some (v, d) ↔ Stands env c name v d := by
  constructor
  · intro h
    unfold refValue at h
    split at h
    · next h0 =>
      subst h0
      unfold dollar at h
      split at h
      · next h1 =>
        subst h1
        cases hcwd : env.cwd with
        | none => rw [hcwd] at h; cases h
        | some w =>
          rw [hcwd] at h
          simp only [Option.map_some, Option.some.injEq, Prod.mk.injEq] at h
          obtain ⟨rfl, rfl⟩ := h
          exact .cwd hcwd
      · next h1 =>
        split at h
        · next h2 =>
          subst h2
          simp only [Option.some.injEq, Prod.mk.injEq] at h
          obtain ⟨rfl, rfl⟩ := h
          exact .variantDir
        · next h2 =>
          split at h
          · next h3 =>
            subst h3
            cases hcwd : env.outputDir with
            | none => rw [hcwd] at h; cases h
            | some w =>
              rw [hcwd] at h
              simp only [Option.map_some, Option.some.injEq, Prod.mk.injEq] at h
              obtain ⟨rfl, rfl⟩ := h
              exact .outputDir hcwd
          · next h3 =>
            split at h
            · next h4 =>
              obtain ⟨y, hy, rfl⟩ := take_drop_eq.1 h4
              have e : ("CONFIG_".toList ++ y).drop 7 = y := rfl
              rw [e] at h
              cases hcf : env.config y with
              | none => rw [hcf] at h; cases h
              | some w =>
                rw [hcf] at h
                simp only [Option.map_some, Option.some.injEq, Prod.mk.injEq] at h
                obtain ⟨rfl, rfl⟩ := h
                exact .config hy hcf
            · next h4 =>
              cases hcf : env.var name with
              | none => rw [hcf] at h; cases h
              | some w =>
                rw [hcf] at h
                simp only [Option.map_some, Option.some.injEq, Prod.mk.injEq] at h
                obtain ⟨rfl, rfl⟩ := h
                exact .var h1 h2 h3 (fun y hy he => h4 (take_drop_eq.2 ⟨y, hy, he⟩)) hcf
    · split at h
      · next h0 =>
        subst h0
        unfold at_ at h
        cases hcf : env.config name with
        | none => rw [hcf] at h; cases h
        | some w =>
          rw [hcf] at h
          simp only [Option.map_some, Option.some.injEq, Prod.mk.injEq] at h
          obtain ⟨rfl, rfl⟩ := h
          exact .atConfig hcf
      · next h0 h1 =>
        have : c = '&' := by
          rcases hc with h | h | h
          · exact absurd h h0
          · exact absurd h h1
          · exact h
        subst this
        simp only [amp, Option.some.injEq, Prod.mk.injEq] at h
        obtain ⟨rfl, rfl⟩ := h
        exact .nodeVar
  · intro h
    cases h with
    | cwd h => simp [refValue, dollar, h]
    | variantDir => simp [refValue, dollar]
    | outputDir h => simp [refValue, dollar, h]
    | config hx h =>
      next x =>
      have h4 := take_drop_eq.2 ⟨x, hx, rfl⟩
      unfold refValue dollar
      rw [if_pos rfl, if_neg, if_neg, if_neg, if_pos h4]
      · have e : ("CONFIG_".toList ++ x).drop 7 = x := rfl
        rw [e, h]; rfl
      · simp
      · simp
      · simp
    | var h1 h2 h3 h4 h =>
      unfold refValue dollar
      rw [if_pos rfl, if_neg h1, if_neg h2, if_neg h3, if_neg, h]
      · rfl
      · intro hc
        obtain ⟨y, hy, he⟩ := take_drop_eq.1 hc
        exact h4 y hy he
    | atConfig h => simp [refValue, at_, h]
    | nodeVar => rfl

theorem pre_some {v d o r e} (h : pre v d o = some (r, e)) :
    ∃ r' e', o = some (r', e') ∧ r = v ++ r' ∧ e = d ++ e' := by
  cases o with
  | none => cases h
  | some p =>
    obtain ⟨a, b⟩ := p
    simp only [pre, Option.map_some, Option.some.injEq, Prod.mk.injEq] at h
    exact ⟨a, b, rfl, h.1.symm, h.2.symm⟩

theorem pre_none {v d o} : pre v d o = none ↔ o = none := by
  cases o <;> simp [pre]

theorem evalLoop_paren (env : Env) (t : Str) : evalLoop env ('(' :: t) = pre ['('] [] (evalLoop env t) := by
  rw [evalLoop, if_neg (by decide), if_neg (by decide)]

theorem evalLoop_escaped (env : Env) {c : Char} (hc : c = '$' ∨ c = '@') (t : Str) :
    evalLoop env ('\\' :: c :: '(' :: t) = pre [c, '('] [] (evalLoop env t) := by
  rw [evalLoop, if_pos rfl]
  split
  · next d t' h =>
    obtain ⟨h1, _⟩ := escaped_eq h
    simp only [List.cons.injEq, true_and] at h1
    obtain ⟨rfl, rfl⟩ := h1
    rw [evalLoop_paren]
    cases evalLoop env t <;> rfl
  · next h =>
    rw [escaped, if_pos hc] at h
    cases h

theorem evalLoop_unclosed (env : Env) {c : Char} (hc : Sigil c) {t : Str} (ht : ')' ∉ t) :
    evalLoop env (c :: '(' :: t) = none := by
  have h0 : c ≠ '\\' := by rcases hc with rfl | rfl | rfl <;> decide
  rw [evalLoop, if_neg h0, if_pos (show c = '$' ∨ c = '@' ∨ c = '&' from hc)]
  split
  · next t' h =>
    simp only [opened, Option.some.injEq] at h
    subst h
    split
    · rfl
    · next h' => rw [strchr_none.2 ht] at h'; cases h'
  · next h => cases h

theorem evalLoop_ref (env : Env) {c : Char} (hc : Sigil c) {name t : Str} (hn : ')' ∉ name) :
    evalLoop env (c :: '(' :: name ++ ')' :: t) =
      match refValue env c name with
      | none => none
      | some (v, d) => pre v d (evalLoop env t) := by
  have h0 : c ≠ '\\' := by rcases hc with rfl | rfl | rfl <;> decide
  rw [List.cons_append, List.cons_append, evalLoop, if_neg h0, if_pos (show c = '$' ∨ c = '@' ∨ c = '&' from hc)]
  split
  · next t' h =>
    simp only [opened, Option.some.injEq] at h
    subst h
    split
    · next h' => rw [strchr_append hn] at h'; cases h'
    · next a b h' =>
      rw [strchr_append hn] at h'
      simp only [Option.some.injEq, Prod.mk.injEq] at h'
      obtain ⟨rfl, rfl⟩ := h'
      rfl
  · next h => cases h

theorem evalLoop_other (env : Env) {c : Char} {t : Str} (h1 : ¬ Opens (c :: t)) (h2 : ¬ Escaped (c :: t)) :
    evalLoop env (c :: t) = pre [c] [] (evalLoop env t) := by
  rw [evalLoop]
  split
  · next h =>
    split
    · next d t' h' =>
      obtain ⟨rfl, h3⟩ := escaped_eq h'
      exact absurd ⟨d, t', h3, by rw [h]⟩ h2
    · rfl
  · split
    · next h =>
      split
      · next t' h' =>
        have := opened_eq h'
        subst this
        exact absurd ⟨c, t', h, rfl⟩ h1
      · rfl
    · rfl

/-- Every text begins in exactly one of these ways. -/
theorem beginning (s : Str) : s = [] ∨ (∃ c t, (c = '$' ∨ c = '@') ∧ s = '\\' :: c :: '(' :: t) ∨
    (∃ c t, Sigil c ∧ ')' ∉ t ∧ s = c :: '(' :: t) ∨
    (∃ c name t, Sigil c ∧ ')' ∉ name ∧ s = c :: '(' :: name ++ ')' :: t) ∨
    (∃ c t, ¬ Opens (c :: t) ∧ ¬ Escaped (c :: t) ∧ s = c :: t) := by
  cases s with
  | nil => exact .inl rfl
  | cons c t =>
    by_cases h1 : Escaped (c :: t)
    · obtain ⟨d, t', h, h'⟩ := h1
      exact .inr (.inl ⟨d, t', h, h'⟩)
    · by_cases h2 : Opens (c :: t)
      · obtain ⟨d, t', h, h'⟩ := h2
        rw [h']
        cases hc : strchr ')' t' with
        | none => exact .inr (.inr (.inl ⟨d, t', h, strchr_none.1 hc, rfl⟩))
        | some p =>
          obtain ⟨name, after⟩ := p
          obtain ⟨h3, h4⟩ := strchr_some hc
          exact .inr (.inr (.inr (.inl ⟨d, name, after, h, h4, by rw [h3]; rfl⟩)))
      · exact .inr (.inr (.inr (.inr ⟨c, t, h2, h1, rfl⟩)))

theorem evalLoop_sound (env : Env) : ∀ (n : Nat) (s : Str), s.length ≤ n →
    (∀ o d, evalLoop env s = some (o, d) → Expands env s o d) ∧ (evalLoop env s = none → Fails env s) := by
  intro n
  induction n with
  | zero =>
    intro s hs
    have : s = [] := List.eq_nil_of_length_eq_zero (by omega)
    subst this
    rw [evalLoop]
    refine ⟨?_, fun h => by cases h⟩
    intro o d h
    simp only [Option.some.injEq, Prod.mk.injEq] at h
    obtain ⟨rfl, rfl⟩ := h
    exact .nil
  | succ n ih =>
    intro s hs
    rcases beginning s with rfl | ⟨c, t, hc, rfl⟩ | ⟨c, t, hc, ht, rfl⟩ | ⟨c, name, t, hc, hn, rfl⟩ |
      ⟨c, t, h1, h2, rfl⟩
    · rw [evalLoop]
      refine ⟨?_, fun h => by cases h⟩
      intro o d h
      simp only [Option.some.injEq, Prod.mk.injEq] at h
      obtain ⟨rfl, rfl⟩ := h
      exact .nil
    · simp only [List.length_cons] at hs
      obtain ⟨i1, i2⟩ := ih t (by omega)
      rw [evalLoop_escaped env hc]
      constructor
      · intro o d h
        obtain ⟨r, e, h3, rfl, rfl⟩ := pre_some h
        exact .escaped hc (i1 r _ h3)
      · intro h
        exact .afterEscaped hc (i2 (pre_none.1 h))
    · rw [evalLoop_unclosed env hc ht]
      exact ⟨(fun o d h => by cases h), fun _ => .unclosed hc ht⟩
    · simp only [List.length_cons, List.length_append] at hs
      obtain ⟨i1, i2⟩ := ih t (by omega)
      rw [evalLoop_ref env hc hn]
      cases hv : refValue env c name with
      | none =>
        refine ⟨(fun o d h => by cases h), fun _ => .lookup hc hn ?_⟩
        rintro ⟨v, d, h⟩
        rw [(refValue_iff env hc name v d).2 h] at hv
        cases hv
      | some p =>
        obtain ⟨v, d⟩ := p
        have hs := (refValue_iff env hc name v d).1 hv
        constructor
        · intro o e h
          obtain ⟨r, e', h3, rfl, rfl⟩ := pre_some h
          exact .reference hc hn hs (i1 r e' h3)
        · intro h
          exact .afterReference hc hn hs (i2 (pre_none.1 h))
    · simp only [List.length_cons] at hs
      obtain ⟨i1, i2⟩ := ih t (by omega)
      rw [evalLoop_other env h1 h2]
      constructor
      · intro o d h
        obtain ⟨r, e, h3, rfl, rfl⟩ := pre_some h
        exact .other h1 h2 (i1 r _ h3)
      · intro h
        exact .afterOther h1 h2 (i2 (pre_none.1 h))

theorem evalLoop_complete (env : Env) {s o d} (h : Expands env s o d) : evalLoop env s = some (o, d) := by
  induction h with
  | nil => rw [evalLoop]
  | escaped hc _ ih => rw [evalLoop_escaped env hc, ih]; rfl
  | reference hc hn hs _ ih =>
    rw [evalLoop_ref env hc hn, (refValue_iff env hc _ _ _).2 hs, ih]; rfl
  | other h1 h2 _ ih => rw [evalLoop_other env h1 h2, ih]; rfl

theorem evalLoop_fails (env : Env) {s} (h : Fails env s) : evalLoop env s = none := by
  induction h with
  | unclosed hc ht => exact evalLoop_unclosed env hc ht
  | lookup hc hn hv =>
    rw [evalLoop_ref env hc hn]
    next c name t =>
    cases hr : refValue env c name with
    | none => rfl
    | some p => exact absurd ⟨p.1, p.2, (refValue_iff env hc _ _ _).1 hr⟩ hv
  | afterEscaped hc _ ih => rw [evalLoop_escaped env hc, ih]; rfl
  | afterReference hc hn hs _ ih =>
    rw [evalLoop_ref env hc hn, (refValue_iff env hc _ _ _).2 hs, ih]; rfl
  | afterOther h1 h2 _ ih => rw [evalLoop_other env h1 h2, ih]; rfl

/-! ### Node references -/

theorem takeWhile_digits {n t : Str} (hn : ∀ c ∈ n, isDigit c = true) :
    (n ++ 't' :: t).takeWhile isDigit = n ∧ (n ++ 't' :: t).dropWhile isDigit = 't' :: t := by
  induction n with
  | nil => exact ⟨rfl, rfl⟩
  | cons c n ih =>
    obtain ⟨h1, h2⟩ := ih fun d hd => hn d (List.mem_cons_of_mem _ hd)
    have := hn c List.mem_cons_self
    simp [this, h1, h2]

theorem expandNodes_node (path : Nat → Option Str) {n t : Str} (h0 : n ≠ []) (hn : ∀ c ∈ n, isDigit c = true)
    (hb : number n < 2 ^ 63) :
    expandNodes path ('%' :: n ++ 't' :: t) =
      match path (number n) with
      | none => none
      | some p => (expandNodes path t).map (p ++ ·) := by
  obtain ⟨h1, h2⟩ := takeWhile_digits (t := t) hn
  rw [List.cons_append, expandNodes, h1, if_pos ⟨rfl, h0⟩]
  split
  · next after h =>
    rw [h2] at h
    simp only [List.cons.injEq, true_and] at h
    subst h
    rw [if_pos hb]
    split <;> simp_all
  · next h => exact absurd h2 (h t)

theorem expandNodes_other (path : Nat → Option Str) {c : Char} {t : Str} (h : ¬ NodeRef (c :: t)) :
    expandNodes path (c :: t) = (expandNodes path t).map (c :: ·) := by
  rw [expandNodes]
  split
  · next h1 =>
    split
    · next after h2 =>
      split
      · next h3 =>
        refine absurd ⟨_, after, h1.2, fun d hd => ?_, h3, ?_⟩ h
        · exact List.all_eq_true.1 List.all_takeWhile d hd
        · rw [h1.1, List.cons_append, ← h2, List.takeWhile_append_dropWhile]
      · rfl
    · rfl
  · rfl

theorem expandNodes_iff (path : Nat → Option Str) (s o : Str) :
    expandNodes path s = some o ↔ ExpandsNodes path s o := by
  constructor
  · suffices ∀ n (s : Str), s.length ≤ n → ∀ o, expandNodes path s = some o → ExpandsNodes path s o from
      this s.length s (Nat.le_refl _) o
    intro n
    induction n with
    | zero =>
      intro s hs o h
      have : s = [] := List.eq_nil_of_length_eq_zero (by omega)
      subst this
      rw [expandNodes] at h
      simp only [Option.some.injEq] at h
      subst h
      exact .nil
    | succ n ih =>
      intro s hs o h
      cases s with
      | nil =>
        rw [expandNodes] at h
        simp only [Option.some.injEq] at h
        subst h
        exact .nil
      | cons c t =>
        by_cases hr : NodeRef (c :: t)
        · obtain ⟨m, t', h0, hm, hb, he⟩ := hr
          rw [he] at h ⊢ hs
          rw [expandNodes_node path h0 hm hb] at h
          simp only [List.length_cons, List.length_append] at hs
          cases hp : path (number m) with
          | none => rw [hp] at h; cases h
          | some p =>
            rw [hp] at h
            simp only [Option.map_eq_some_iff] at h
            obtain ⟨o', h1, rfl⟩ := h
            exact .node h0 hm hb hp (ih t' (by omega) o' h1)
        · rw [expandNodes_other path hr, Option.map_eq_some_iff] at h
          obtain ⟨o', h1, rfl⟩ := h
          simp only [List.length_cons] at hs
          exact .other hr (ih t (by omega) o' h1)
  · intro h
    induction h with
    | nil => rw [expandNodes]
    | node h0 hm hb hp _ ih => rw [expandNodes_node path h0 hm hb, hp, ih]; rfl
    | other hr _ ih => rw [expandNodes_other path hr, ih]; rfl

end Tup.Eval
