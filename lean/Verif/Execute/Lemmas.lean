import Verif.Execute.Spec
import Verif.Names.Lemmas

/-! Lemmas for C51 and C57. -/

namespace Tup.Execute

open Tup.Names Tup.Rules

theorem kept_snoc (l : List Entry) (e : Entry) :
    kept [] (l ++ [e]) = kept [] l ++ (if e.tent = none ∨ ∀ x ∈ l, x.tent ≠ e.tent then [e] else []) := by
  rw [kept_append]
  congr 1
  rw [kept]
  cases ht : e.tent with
  | none => simp [kept]
  | some t =>
    simp only [reduceCtorEq, false_or, kept]
    by_cases h : t ∈ tents l ++ []
    · rw [if_pos h, if_neg]
      simp only [List.append_nil, tents, List.mem_filterMap] at h
      obtain ⟨x, hx, hxt⟩ := h
      exact fun hall => hall x hx hxt
    · rw [if_neg h, if_pos]
      intro x hx hxt
      apply h
      simp only [List.append_nil, tents, List.mem_filterMap]
      exact ⟨x, hx, hxt⟩

theorem distinct_iff (l r : List Entry) : Distinct l r ↔ r = kept [] l := by
  constructor
  · intro h
    induction h with
    | nil => rfl
    | new _ hn ih => rw [kept_snoc, if_pos hn, ih]
    | @old l r e x _ he hx hxe ih =>
      rw [kept_snoc, if_neg, List.append_nil, ih]
      rintro (h | h)
      · exact he h
      · exact h x hx hxe
  · rintro rfl
    generalize hn : l.reverse = m
    obtain rfl : l = m.reverse := by rw [← hn, List.reverse_reverse]
    clear hn
    induction m with
    | nil => exact .nil
    | cons e m ih =>
      rw [List.reverse_cons, kept_snoc]
      split
      · next h => exact .new ih h
      · next h =>
        rw [List.append_nil]
        by_cases he : e.tent = none
        · exact absurd (.inl he) h
        · have : ∃ x ∈ m.reverse, x.tent = e.tent := by
            apply Classical.byContradiction
            intro hc
            exact h (.inr fun x hx hxe => hc ⟨x, hx, hxe⟩)
          obtain ⟨x, hx, hxe⟩ := this
          exact .old ih he hx hxe

theorem distinct_unique (nl : NameList) : Distinct nl.entries (unique nl).entries := by
  rw [distinct_iff]
  exact unique_eq _ _ _

theorem addAll_entries (nl : NameList) (l : List Entry) : (addAll nl l).entries = nl.entries ++ l := by
  unfold addAll
  induction l generalizing nl with
  | nil => simp
  | cons e l ih =>
    rw [List.foldl_cons, ih]
    simp [NameList.add]

theorem clear_entries (nl : NameList) : nl.clear.entries = [] := by
  unfold NameList.clear
  generalize nl.tot = t
  induction nl.entries generalizing t with
  | nil => rfl
  | cons e l ih => rw [deleteLoop]; exact ih _

theorem isMacro_iff (c : Str) : IsMacro c ↔ c.head? = some '!' := by
  cases c with
  | nil => simp [IsMacro]
  | cons x t =>
    simp only [IsMacro, List.head?_cons, Option.some.injEq]
    constructor
    · rintro ⟨t', h⟩
      simp at h
      exact h.1
    · rintro rfl; exact ⟨t, rfl⟩

theorem chosen_iff (T : Table) (c : Str) (ext : Option Str) (m : Macro) :
    findMacro T c ext = some m ↔ Chosen T c ext m := by
  cases ext with
  | none =>
    simp only [findMacro]
    exact ⟨.plain, fun h => by cases h; assumption⟩
  | some x =>
    unfold findMacro
    simp only
    cases h : T (c ++ ".".toList ++ x) with
    | none =>
      constructor
      · intro h'; exact .general h h'
      · intro h'
        cases h' with
        | special h1 => rw [h] at h1; cases h1
        | general _ h1 => exact h1
    | some m' =>
      constructor
      · rintro h'; cases h'; exact .special h
      · intro h'
        cases h' with
        | special h1 => rw [h] at h1; exact h1
        | general h1 _ => rw [h] at h1; cases h1

variable {σ : Type}

/-- What the macro does to the rule. -/
theorem useMacro_iff (W : World σ) (s : σ) (r : Rule) (m : Macro) (nl : Option NameList) (s' : σ) (r' : Rule) :
    useMacro W s r m nl = some (s', r') ↔ ∃ l, MacroInputs W nl s m.input l s' ∧
      r' = { r with bangOo := addAll r.bangOo l, command := m.command,
                    outputs := if r.outputs = [] then r.outputs ++ m.outputs else r.outputs,
                    bangExtra := r.bangExtra ++ m.extra } := by
  unfold useMacro
  cases hi : m.input with
  | none =>
    simp only [Option.some.injEq, Prod.mk.injEq]
    constructor
    · rintro ⟨rfl, rfl⟩; exact ⟨[], .none, rfl⟩
    · rintro ⟨l, h, rfl⟩; cases h; exact ⟨rfl, rfl⟩
  | some i =>
    simp only
    cases hp : W.paths i with
    | none =>
      simp only [reduceCtorEq, false_iff]
      rintro ⟨l, h, _⟩
      cases h with
      | some h1 _ => rw [hp] at h1; cases h1
    | some ps =>
      simp only
      cases hr : W.resolve s ps nl with
      | none =>
        simp only [reduceCtorEq, false_iff]
        rintro ⟨l, h, _⟩
        cases h with
        | some h1 h2 => rw [hp] at h1; cases h1; rw [hr] at h2; cases h2
      | some q =>
        obtain ⟨s1, l1⟩ := q
        simp only [Option.some.injEq, Prod.mk.injEq]
        constructor
        · rintro ⟨rfl, rfl⟩; exact ⟨l1, .some hp hr, rfl⟩
        · rintro ⟨l, h, rfl⟩
          cases h with
          | some h1 h2 =>
            rw [hp] at h1; cases h1
            rw [hr] at h2; cases h2
            exact ⟨rfl, rfl⟩

theorem bangRule_iff (W : World σ) (T : Table) (s : σ) (r : Rule) (nl : Option NameList) (ext : Option Str) (s' : σ)
    (r' : Rule) :
    bangRule W T s r nl ext = some (s', r') ↔ ∃ m l, Chosen T r.command ext m ∧ MacroInputs W nl s m.input l s' ∧
      r' = { r with bangOo := addAll r.bangOo l, command := m.command,
                    outputs := if r.outputs = [] then r.outputs ++ m.outputs else r.outputs,
                    bangExtra := r.bangExtra ++ m.extra } := by
  unfold bangRule
  cases hm : findMacro T r.command ext with
  | none =>
    simp only [reduceCtorEq, false_iff]
    rintro ⟨m, l, h, _⟩
    rw [(chosen_iff ..).2 h] at hm; cases hm
  | some m =>
    simp only [useMacro_iff]
    constructor
    · rintro ⟨l, h1, h2⟩; exact ⟨m, l, (chosen_iff ..).1 hm, h1, h2⟩
    · rintro ⟨m', l, h, h1, h2⟩
      rw [(chosen_iff ..).2 h] at hm
      cases hm
      exact ⟨l, h1, h2⟩

/-- The rule between two rounds of the loop. -/
structure Same (r0 r : Rule) : Prop where
  command : r.command = r0.command
  extraCommand : r.extraCommand = r0.extraCommand
  ooPaths : r.ooPaths = r0.ooPaths
  outputs : r.outputs = r0.outputs
  extraOutputs : r.extraOutputs = r0.extraOutputs
  bangExtra : r.bangExtra = []
  oo : r.oo.entries = []
  bangOo : r.bangOo.entries = []

theorem loop_iff (W : World σ) (T : Table) (r0 : Rule) (l : List Entry) : ∀ (s : σ) (r : Rule) (js : List Job) (s' : σ)
    (js' : List Job), Same r0 r →
    ((∃ r', loop W T (decide (r0.command.head? = some '!')) (decide (r0.outputs = [])) l s r js = some (s', r', js')) ↔
      ∃ new, Each W T r0 s l new s' ∧ js' = js ++ new) := by
  induction l with
  | nil =>
    intro s r js s' js' h
    simp only [loop, Option.some.injEq, Prod.mk.injEq]
    constructor
    · rintro ⟨r', rfl, _, rfl⟩; exact ⟨[], .nil, by simp⟩
    · rintro ⟨new, h, rfl⟩; cases h; exact ⟨r, rfl, rfl, by simp⟩
  | cons e l ih =>
    intro s r js s' js' h
    rw [loop]
    by_cases hb : r0.command.head? = some '!'
    · simp only [hb, decide_true, if_true]
      cases hm : bangRule W T s r (some (NameList.empty.add e)) (extension e) with
      | none =>
        simp only [reduceCtorEq, exists_false, false_iff]
        rintro ⟨new, hE, _⟩
        cases hE with
        | cons h1 _ =>
          cases h1 with
          | plain h2 => exact h2 ((isMacro_iff _).2 hb)
          | bang _ h2 h3 _ _ =>
            have := (bangRule_iff W T s r _ _ _ _).2 ⟨_, _, by rw [h.command]; exact h2, h3, rfl⟩
            rw [hm] at this; cases this
      | some q =>
        obtain ⟨s1, r1⟩ := q
        obtain ⟨m, bo, hc, hmi, hr1⟩ := (bangRule_iff ..).1 hm
        rw [h.command] at hc
        have hoo : r1.ooPaths = r0.ooPaths := by rw [hr1]; exact h.ooPaths
        simp only [hoo]
        -- the macro and what it resolves to are determined
        have det : ∀ {j s2}, One W T r0 s e j s2 → ∃ oo s3, W.resolve s1 r0.ooPaths (some (NameList.empty.add e)) =
            some (s3, oo) ∧ j = macroJob r0 m (.add .empty e) (extension e) oo bo ∧ W.run s3 j = some s2 := by
          intro j s2 h1
          cases h1 with
          | plain h2 => exact absurd ((isMacro_iff _).2 hb) h2
          | bang _ h2 h3 h4 h5 =>
            have e1 := (chosen_iff ..).2 h2
            rw [(chosen_iff ..).2 hc] at e1
            cases e1
            have e2 := (bangRule_iff W T s r _ _ _ _).2 ⟨_, _, by rw [h.command]; exact h2, h3, rfl⟩
            rw [hm, hr1] at e2
            simp only [Option.some.injEq, Prod.mk.injEq, Rule.mk.injEq] at e2
            obtain ⟨rfl, e2⟩ := e2
            have e3 := congrArg NameList.entries e2.2.2.2.2.2.1
            simp only [addAll_entries, h.bangOo, List.nil_append] at e3
            subst e3
            exact ⟨_, _, h4, rfl, h5⟩
        cases hres : W.resolve s1 r0.ooPaths (some (NameList.empty.add e)) with
        | none =>
          simp only [reduceCtorEq, exists_false, false_iff]
          rintro ⟨new, hE, _⟩
          cases hE with
          | cons h1 _ =>
            obtain ⟨oo, s3, h2, _⟩ := det h1
            rw [hres] at h2; cases h2
        | some q =>
          obtain ⟨s2, oo⟩ := q
          have hj : job { r1 with oo := addAll r1.oo oo, ooPaths := r0.ooPaths } (NameList.empty.add e) (extension e) =
              macroJob r0 m (.add .empty e) (extension e) oo bo := by
            rw [hr1]
            simp only [job, macroJob, addAll_entries, h.oo, h.bangOo, h.bangExtra, h.outputs, h.extraCommand,
              h.extraOutputs, List.nil_append, Job.mk.injEq, true_and, and_true]
            split
            · next hn => rw [hn]; rfl
            · rfl
          simp only [hj]
          cases hrun : W.run s2 (macroJob r0 m (.add .empty e) (extension e) oo bo) with
          | none =>
            simp only [reduceCtorEq, exists_false, false_iff]
            rintro ⟨new, hE, _⟩
            cases hE with
            | cons h1 _ =>
              obtain ⟨oo', s3, h2, rfl, h3⟩ := det h1
              rw [hres] at h2; cases h2
              rw [hrun] at h3; cases h3
          | some s3 =>
            simp only
            have hsame := ih s3
              { r1 with
                oo := (addAll r1.oo oo).clear
                command := r.command
                outputs := if decide (r0.outputs = []) = true then [] else r1.outputs
                bangExtra := []
                bangOo := r1.bangOo.clear
                ooPaths := r0.ooPaths
                inputs := r1.inputs.delete 0 }
              (js ++ [macroJob r0 m (.add .empty e) (extension e) oo bo]) s' js'
              ⟨h.command, by rw [hr1]; exact h.extraCommand, rfl, by
                rw [hr1]
                simp only [decide_eq_true_eq, h.outputs]
                by_cases ho : r0.outputs = []
                · simp [ho]
                · simp [ho], by rw [hr1]; exact h.extraOutputs, rfl, clear_entries _, clear_entries _⟩
            simp only [hb, decide_true] at hsame
            refine Iff.trans hsame ?_
            constructor
            · rintro ⟨new, hE, rfl⟩
              exact ⟨_ :: new, .cons (.bang ((isMacro_iff _).2 hb) hc hmi hres hrun) hE, by simp⟩
            · rintro ⟨new, hE, rfl⟩
              cases hE with
              | cons h1 h2 =>
                obtain ⟨oo', s4, h3, rfl, h4⟩ := det h1
                rw [hres] at h3; cases h3
                rw [hrun] at h4; cases h4
                exact ⟨_, h2, by simp⟩
    · simp only [hb, decide_false, Bool.false_eq_true, if_false]
      simp only [h.ooPaths]
      have det : ∀ {j s2}, One W T r0 s e j s2 → ∃ oo s3, W.resolve s r0.ooPaths (some (NameList.empty.add e)) =
          some (s3, oo) ∧ j = plainJob r0 (.add .empty e) (extension e) oo ∧ W.run s3 j = some s2 := by
        intro j s2 h1
        cases h1 with
        | bang h2 => exact absurd ((isMacro_iff _).1 h2) hb
        | plain _ h2 h3 => exact ⟨_, _, h2, rfl, h3⟩
      cases hres : W.resolve s r0.ooPaths (some (NameList.empty.add e)) with
      | none =>
        simp only [reduceCtorEq, exists_false, false_iff]
        rintro ⟨new, hE, _⟩
        cases hE with
        | cons h1 _ =>
          obtain ⟨oo, s3, h2, _⟩ := det h1
          rw [hres] at h2; cases h2
      | some q =>
        obtain ⟨s2, oo⟩ := q
        have hj : job { r with oo := addAll r.oo oo, ooPaths := r0.ooPaths } (NameList.empty.add e) (extension e) =
            plainJob r0 (.add .empty e) (extension e) oo := by
          simp only [job, plainJob, addAll_entries, h.oo, h.bangOo, h.bangExtra, h.outputs, h.extraCommand,
            h.extraOutputs, h.command, List.nil_append]
        simp only [hj]
        cases hrun : W.run s2 (plainJob r0 (.add .empty e) (extension e) oo) with
        | none =>
          simp only [reduceCtorEq, exists_false, false_iff]
          rintro ⟨new, hE, _⟩
          cases hE with
          | cons h1 _ =>
            obtain ⟨oo', s3, h2, rfl, h3⟩ := det h1
            rw [hres] at h2; cases h2
            rw [hrun] at h3; cases h3
        | some s3 =>
          simp only
          have hsame := ih s3 { r with oo := (addAll r.oo oo).clear, ooPaths := r0.ooPaths, inputs := r.inputs.delete 0 }
            (js ++ [plainJob r0 (.add .empty e) (extension e) oo]) s' js'
            ⟨h.command, h.extraCommand, rfl, h.outputs, h.extraOutputs, h.bangExtra, clear_entries _, h.bangOo⟩
          simp only [hb, decide_false] at hsame
          refine Iff.trans hsame ?_
          have hnm : ¬ IsMacro r0.command := fun hc => hb ((isMacro_iff _).1 hc)
          constructor
          · rintro ⟨new, hE, rfl⟩
            exact ⟨_ :: new, .cons (.plain hnm hres hrun) hE, by simp⟩
          · rintro ⟨new, hE, rfl⟩
            cases hE with
            | cons h1 h2 =>
              obtain ⟨oo', s4, h3, rfl, h4⟩ := det h1
              rw [hres] at h3; cases h3
              rw [hrun] at h4; cases h4
              exact ⟨_, h2, by simp⟩

/-- A rule that has got its macro. -/
def applied (r : Rule) (m : Macro) (oo : List Entry) (l : List Entry) : Rule :=
  ⟨r.foreach_, r.emptyInput, unique r.inputs, r.ooPaths, addAll r.oo oo, addAll r.bangOo l, m.command, r.extraCommand,
    if r.outputs = [] then r.outputs ++ m.outputs else r.outputs, r.extraOutputs, r.bangExtra ++ m.extra⟩

theorem job_applied {r : Rule} (h1 : r.oo = .empty) (h2 : r.bangOo = .empty) (h3 : r.bangExtra = []) (m : Macro)
    (oo l : List Entry) :
    job (applied r m oo l) (unique r.inputs) none = macroJob r m (unique r.inputs) none oo l := by
  simp only [job, macroJob, applied, addAll_entries, h1, h2, h3, NameList.empty, List.nil_append, Job.mk.injEq,
    true_and, and_true]
  split
  · next hn => rw [hn]; rfl
  · rfl

end Tup.Execute
