import Verif.Eval.Lemmas

/-! C05: expansion of references in Tupfile text. -/

namespace Tup.Eval

/-- C05: where node references are kept, the result is the text with every reference replaced, in one pass from
left to right, and the tup.config variables that became inputs are those that were referred to. -/
theorem c05_expansion (env : Env) (s o : Str) (d : List Str) :
    eval env none s = some (o, d) ↔ Expands env s o d := by
  have h : eval env none s = evalLoop env s := by
    unfold eval
    cases evalLoop env s <;> rfl
  rw [h]
  exact ⟨(evalLoop_sound env _ s (Nat.le_refl _)).1 o d, evalLoop_complete env⟩

/-- C05: the expansion fails exactly if a reference is not closed or cannot be looked up. -/
theorem c05_errors (env : Env) (s : Str) : eval env none s = none ↔ Fails env s := by
  have h : eval env none s = evalLoop env s := by
    unfold eval
    cases evalLoop env s <;> rfl
  rw [h]
  exact ⟨(evalLoop_sound env _ s (Nat.le_refl _)).2, evalLoop_fails env⟩

/-- C05: where node references are expanded, that is a second pass over the result of the first. -/
theorem c05_with_nodes (env : Env) (path : Nat → Option Str) (s o : Str) (d : List Str) :
    eval env (some path) s = some (o, d) ↔ ∃ o', Expands env s o' d ∧ ExpandsNodes path o' o := by
  unfold eval
  constructor
  · intro h
    cases he : evalLoop env s with
    | none => rw [he] at h; cases h
    | some p =>
      obtain ⟨o', d'⟩ := p
      rw [he] at h
      simp only [Option.map_eq_some_iff, Prod.mk.injEq] at h
      obtain ⟨w, h1, rfl, rfl⟩ := h
      exact ⟨o', (evalLoop_sound env _ s (Nat.le_refl _)).1 _ _ he, (expandNodes_iff path o' _).1 h1⟩
  · rintro ⟨o', h1, h2⟩
    rw [evalLoop_complete env h1]
    simp only [(expandNodes_iff path o' o).2 h2, Option.map_some]

/-- Text without an opening parenthesis is left as it is. -/
theorem c05_plain (env : Env) (s : Str) (h : '(' ∉ s) : eval env none s = some (s, []) := by
  rw [c05_expansion]
  induction s with
  | nil => exact .nil
  | cons c t ih =>
    rw [List.mem_cons, not_or] at h
    refine .other ?_ ?_ (ih h.2)
    · rintro ⟨c', t', _, he⟩
      simp only [List.cons.injEq] at he
      rw [he.2] at h
      exact h.2 List.mem_cons_self
    · rintro ⟨c', t', _, he⟩
      simp only [List.cons.injEq] at he
      rw [he.2] at h
      exact h.2 (List.mem_cons_of_mem _ List.mem_cons_self)

/-- What a variable is replaced by is not looked at again, whatever it is: a text with a variable in it becomes
the text with the value in it. -/
theorem c05_value_verbatim (env : Env) (a b name v : Str) (ha : '(' ∉ a) (ha' : a.getLast? ≠ some '\\')
    (hb : '(' ∉ b) (hn : ')' ∉ name)
    (hv : Stands env '$' name v []) : eval env none (a ++ '$' :: '(' :: name ++ ')' :: b) = some (a ++ v ++ b, []) := by
  rw [c05_expansion]
  have hbe := (c05_expansion env b b []).1 (c05_plain env b hb)
  have hmid : Expands env ('$' :: '(' :: name ++ ')' :: b) (v ++ b) [] :=
    .reference (.inl rfl) hn hv hbe
  induction a with
  | nil => exact hmid
  | cons c t ih =>
    rw [List.mem_cons, not_or] at ha
    have hlast : t.getLast? ≠ some '\\' := by
      intro h
      apply ha'
      cases t with
      | nil => cases h
      | cons d t' => rw [List.getLast?_cons_cons]; exact h
    refine .other ?_ ?_ (ih ha.2 hlast)
    · rintro ⟨c', t', _, he⟩
      rw [List.cons.injEq] at he
      cases t with
      | nil =>
        exact absurd (List.cons.inj he.2).1 (by decide)
      | cons d t'' =>
        exact ha.2 (by rw [(List.cons.inj he.2).1]; exact List.mem_cons_self)
    · rintro ⟨c', t', _, he⟩
      rw [List.cons.injEq] at he
      cases t with
      | nil =>
        apply ha'
        rw [he.1]
        rfl
      | cons d t'' =>
        cases t'' with
        | nil =>
          exact absurd (List.cons.inj (List.cons.inj he.2).2).1 (by decide)
        | cons d' t3 =>
          exact ha.2 (by rw [(List.cons.inj (List.cons.inj he.2).2).1]; exact List.mem_cons_of_mem _ List.mem_cons_self)

/-- An environment for the examples. -/
def exEnv : Env where
  cwd := some "..".toList
  outputDir := some ".".toList
  dirId := 5
  config x := some (if x = "FOO".toList then "y".toList else [])
  var x := some (if x = "X".toList then "$(X) %7t".toList else [])
  nodeVar _ := []

example : Expands exEnv "a\\$(b) $(X)@(FOO)$(CONFIG_FOO)$".toList "a$(b) $(X) %7tyy$".toList
    ["FOO".toList, "FOO".toList] := by
  rw [← c05_expansion]
  decide +kernel

example : Fails exEnv "a$(b".toList := by
  rw [← c05_errors]
  decide +kernel

/-- Where node references are expanded, text that comes from a variable can be taken for a node reference, so
that the expansion is not one pass there. -/
theorem c05_false_with_nodes :
    eval exEnv (some fun n => if n = 7 then some "dir".toList else none) "$(X)".toList =
      some ("$(X) dir".toList, []) := by
  decide +kernel

end Tup.Eval
