import Verif.IfStmt.Lemmas

/-!
# C01, C02: conditionals in Tupfiles
-/

namespace Tup.IfStmt

/-- **C01.** For every sequence of if/else/endif directives: the two-byte state machine accepts it
exactly when the stack specification does (at most eight open conditionals, no stray else/endif), it
says "selected" exactly when every enclosing branch is selected, and it accepts end-of-file exactly when
nothing is open. -/
theorem c01_conditionals_nest (ds : List Dir) :
    ((run init ds).isSome = (specRun [] ds).isSome) ∧
    ∀ s, run init ds = some s → ∃ st, specRun [] ds = some st ∧
      isTrue s = st.all id ∧ check s = st.isEmpty := by
  have h := enc_run ds [] (by simp)
  have hi : init = enc [] := by decide
  rw [hi, h.1]
  refine ⟨by cases specRun [] ds <;> rfl, ?_⟩
  intro s hs
  cases hsp : specRun [] ds with
  | none => rw [hsp] at hs; cases hs
  | some st =>
    rw [hsp] at hs
    simp only [Option.map_some, Option.some.injEq] at hs
    have hl := h.2 st hsp
    exact ⟨st, rfl, by rw [← hs, isTrue_enc st hl], by rw [← hs, check_enc st hl]⟩

/-- eight levels are accepted, nine are not; a false branch hides a nested true one -/
example : (run init (List.replicate 8 (.add true))).isSome = true ∧
    (run init (List.replicate 9 (.add true))).isSome = false ∧
    (run init [.add false, .add true]).map isTrue = some false ∧
    (run init [.add false, .add true, .endif, .els]).map isTrue = some true := by decide

theorem enc_specStep (st : List Bool) (hl : st.length ≤ 8) (d : Dir) :
    step (enc st) d = (specStep st d).map enc ∧ ∀ st', specStep st d = some st' → st'.length ≤ 8 :=
  enc_step st hl d

theorem runLines_spec {σ : Type} (h : Handlers σ) : ∀ (ls : List Str) (st : List Bool), st.length ≤ 8 → ∀ t,
    (match runLines h ls (enc st) t with
      | some (s, t') => if check s then some t' else none
      | none => none) = specLines h ls st t := by
  intro ls
  induction ls with
  | nil =>
    intro st hl t
    simp only [runLines, specLines, check_enc st hl, List.isEmpty_iff]
  | cons l ls ih =>
    intro st hl t
    have hall : st.all id = !decide (false ∈ st) := by
      rw [Bool.eq_iff_iff]
      simp only [List.all_eq_true, id, Bool.not_eq_true', decide_eq_false_iff_not]
      constructor
      · intro h hm; cases h _ hm
      · intro h x hx; cases x
        · exact absurd hx h
        · rfl
    have key : ∀ d t, (match (step (enc st) d).map (·, t) with
        | none => none
        | some (s', t') => match runLines h ls s' t' with
          | some (s, t') => if check s then some t' else none
          | none => none) = (specStep st d).bind fun st => specLines h ls st t := by
      intro d t
      obtain ⟨e1, e2⟩ := enc_specStep st hl d
      rw [e1]
      cases hs : specStep st d with
      | none => rfl
      | some st' => exact ih st' (e2 st' hs) t
    rw [runLines_cons, specLines, stepLine]
    cases hc : classify l with
    | els =>
      have := key .els t
      simp only [step] at this
      rw [← this]
      cases els (enc st) <;> rfl
    | endif =>
      have := key .endif t
      simp only [step] at this
      rw [← this]
      cases endif (enc st) <;> rfl
    | cond c =>
      simp only [isTrue_enc st hl, hall]
      by_cases hm : false ∈ st
      · simp only [hm, if_true]
        have := key (.add c.neg) t
        simp only [step] at this
        rw [← this]
        simp only [decide_true, Bool.not_true, Bool.false_eq_true, if_false]
        cases add (enc st) c.neg <;> rfl
      · simp only [hm, decide_false, Bool.not_false, if_true, if_false]
        by_cases hr : (h.cond t c.eq c.arg).2 < 0
        · rw [if_neg (by omega), if_pos hr]; rfl
        · rw [if_pos (by omega), if_neg hr]
          have hb : (if c.neg = true then decide ((h.cond t c.eq c.arg).2 = 0) else decide ((h.cond t c.eq c.arg).2 ≠ 0))
              = (decide ((h.cond t c.eq c.arg).2 ≠ 0) != c.neg) := by
            cases c.neg <;> simp
          rw [hb]
          have := key (.add (decide ((h.cond t c.eq c.arg).2 ≠ 0) != c.neg)) (h.cond t c.eq c.arg).1
          simp only [step] at this
          rw [← this]
          cases add (enc st) _ <;> rfl
    | other =>
      simp only [isTrue_enc st hl, hall]
      by_cases hm : false ∈ st
      · simp only [hm, decide_true, Bool.not_true, Bool.not_false, if_true]
        exact ih st hl t
      · simp only [hm, decide_false, Bool.not_false, Bool.not_true, Bool.false_eq_true, if_false]
        by_cases hr : (h.exec t l).2 < 0
        · simp only [hr, if_true]; rfl
        · simp only [hr, if_false]
          exact ih st hl _

/-- **C01 on files.**  Any sequence of lines, well nested or not: the file is accepted, and what is executed is,
exactly as with the stack of open conditionals; a file in which a conditional is still open at its end is
an error. -/
theorem c01_any_file {σ : Type} (h : Handlers σ) (ls : List Str) (t : σ) :
    parseLines h ls t = specLines h ls [] t :=
  runLines_spec h ls [] (by simp) t

/-- **C02 (and C01 on files).** A block-structured Tupfile is executed exactly as its block structure
says, for every meaning `h` of conditions and other lines: lines and nested conditions in unselected
branches are never passed to their handlers and leave the state alone; nesting deeper than eight is an
error (even inside an unselected branch). -/
theorem c02_block_structure {σ : Type} (h : Handlers σ) (b : Block) (hwf : b.wf) (t : σ) :
    parseLines h b.render t = if b.depth ≤ 8 then b.exec h t else none := by
  have hi : init = enc [] := by decide
  unfold parseLines
  rw [hi]
  by_cases hd : b.depth ≤ 8
  · rw [run_sel h b hwf [] (by simpa using hd) rfl, if_pos hd]
    cases b.exec h t with
    | none => rfl
    | some t' => simp [check_enc]
  · rcases run_stack h b hwf [] (by simp) t with h1 | h1
    · simp at h1; omega
    · rw [h1.2, if_neg hd]

/-- Every line of an unselected then-part could be replaced by any other ordinary lines without any
observable difference: a direct reading of "has no effect". -/
theorem c02_unselected_irrelevant {σ : Type} (h : Handlers σ) (c : Cond) (b b' e rest : Block)
    (hwf : b.wf) (hwf' : b'.wf) (he : e.wf) (hr : rest.wf) (t : σ)
    (hfalse : 0 ≤ (h.cond t c.eq c.arg).2 ∧ ((h.cond t c.eq c.arg).2 ≠ 0 ↔ c.neg = true))
    (hd : (Block.ifb c b true e rest).depth ≤ 8) (hd' : (Block.ifb c b' true e rest).depth ≤ 8) :
    parseLines h (Block.ifb c b true e rest).render t =
      parseLines h (Block.ifb c b' true e rest).render t := by
  rw [c02_block_structure h _ (by simp only [Block.wf]; exact ⟨hwf, he, hr⟩),
    c02_block_structure h _ (by simp only [Block.wf]; exact ⟨hwf', he, hr⟩), if_pos hd, if_pos hd']
  have hn : ¬ (h.cond t c.eq c.arg).2 < 0 := by omega
  have hs : (if c.neg = true then !(decide ((h.cond t c.eq c.arg).2 ≠ 0))
      else decide ((h.cond t c.eq c.arg).2 ≠ 0)) = false := by
    have h2 := hfalse.2
    cases hc : c.neg
    · rw [hc] at h2
      simpa using h2
    · rw [hc] at h2
      simpa using h2
  simp only [Block.exec, hn, if_false, hs]
  rfl

section Examples
/-- a toy meaning: `ifdef X` is true iff X is in the state; any other line appends itself -/
def toy : Handlers (List Str) where
  cond t _ a := (t, if t.contains a then 1 else 0)
  exec t l := if l = "error".toList then (t, -1) else (t ++ [l], 0)

def demo : Block :=
  .line "A".toList <| .ifb ⟨false, false, "A".toList⟩
    (.ifb ⟨false, true, "B".toList⟩ (.line "x".toList .nil) true (.line "error".toList .nil) .nil)
    true (.line "error".toList .nil) (.line "z".toList .nil)

example : demo.depth = 2 ∧ parseLines toy demo.render [] =
    some ["A".toList, "x".toList, "z".toList] := by decide
/-- an open conditional, a stray `else`, and a second `else` -/
example : parseLines toy ["A".toList, "ifdef A".toList, "x".toList] [] = none ∧
    parseLines toy ["A".toList, "else".toList, "x".toList] [] = none ∧
    parseLines toy ["A".toList, "ifdef A".toList, "x".toList, "else".toList, "y".toList, "else".toList, "z".toList,
      "endif".toList] [] = some ["A".toList, "x".toList, "z".toList] := by decide
example : demo.wf := by simp [demo, Block.wf]; decide
end Examples

end Tup.IfStmt
