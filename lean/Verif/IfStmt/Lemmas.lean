import Verif.IfStmt.Spec

namespace Tup.IfStmt

/-! ### Representation -/

/-- The bit pattern standing for a stack. -/
def encF : List Bool → BitVec 8
  | [] => 0
  | b :: st => encF st ||| (if b then 0#8 else 1#8 <<< st.length)

def encL (st : List Bool) : BitVec 8 :=
  match st with
  | [] => 0
  | _ :: st => 1#8 <<< st.length

def enc (st : List Bool) : St := ⟨encF st, encL st⟩

theorem encF_bit (st : List Bool) (hl : st.length ≤ 8) (i : Nat) (hi : st.length ≤ i) :
    (encF st).getLsbD i = false := by
  induction st generalizing i with
  | nil => simp [encF]
  | cons b st ih =>
    simp only [List.length_cons] at hl hi
    simp only [encF, BitVec.getLsbD_or, ih (by omega) i (by omega), Bool.false_or]
    split
    · simp
    · simp only [BitVec.getLsbD_shiftLeft, BitVec.getLsbD_one]
      simp; omega

theorem encF_small (st : List Bool) (hl : st.length < 8) : (encF st).getLsbD st.length = false :=
  encF_bit st (by omega) _ (Nat.le_refl _)

theorem shl_one_ne_zero : ∀ k < 8, (1#8 <<< k) ≠ 0#8 := by decide
theorem shl_one_ge : ∀ k < 8, ((1#8 <<< k) ≥ 0x80#8 ↔ k = 7) := by decide

theorem encF_eq_zero (st : List Bool) (hl : st.length ≤ 8) : encF st = 0#8 ↔ st.all id = true := by
  induction st with
  | nil => simp [encF]
  | cons b st ih =>
    simp only [List.length_cons] at hl
    have ih := ih (by omega)
    cases b with
    | true => simp [encF, ih]
    | false =>
      simp only [encF, List.all_cons, id, Bool.false_and]
      constructor
      · intro h
        have := congrArg (fun v : BitVec 8 => v.getLsbD st.length) h
        simp at this
        omega
      · simp

theorem bits_aux (v : BitVec 8) (k : Nat) (hk : k < 8) (h : v.getLsbD k = false) :
    v ^^^ (1#8 <<< k) = v ||| (1#8 <<< k) ∧ (v ||| (1#8 <<< k)) ^^^ (1#8 <<< k) = v ∧
    v &&& ~~~ (1#8 <<< k) = v ∧ (v ||| (1#8 <<< k)) &&& ~~~ (1#8 <<< k) = v := by
  have key : ∀ i, i < 8 → (1#8 <<< k).getLsbD i = decide (i = k) := by
    intro i hi
    rw [BitVec.getLsbD_shiftLeft, BitVec.getLsbD_one]
    rw [Bool.eq_iff_iff]
    simp
    omega
  refine ⟨?_, ?_, ?_, ?_⟩ <;>
  · apply BitVec.eq_of_getLsbD_eq
    intro i hi
    have := key i hi
    by_cases hik : i = k
    · subst hik
      simp only [BitVec.getLsbD_xor, BitVec.getLsbD_or, BitVec.getLsbD_and, BitVec.getLsbD_not, this,
        h, hi]
      simp
    · simp only [BitVec.getLsbD_xor, BitVec.getLsbD_or, BitVec.getLsbD_and, BitVec.getLsbD_not, this,
        hik, hi]
      simp

theorem enc_step (st : List Bool) (hl : st.length ≤ 8) (d : Dir) :
    step (enc st) d = (specStep st d).map enc ∧
      ∀ st', specStep st d = some st' → st'.length ≤ 8 := by
  cases d with
  | add b =>
    refine ⟨?_, ?_⟩
    · simp only [step, add, specStep, enc]
      cases st with
      | nil => cases b <;> decide
      | cons x st =>
        simp only [List.length_cons] at hl
        have hne := shl_one_ne_zero st.length (by omega)
        have hge := shl_one_ge st.length (by omega)
        have h7 : (1#8 <<< st.length) <<< 1 = 1#8 <<< (st.length + 1) := by
          rw [BitVec.shiftLeft_add]
        simp only [encL, hge, List.length_cons, hne, if_false, h7]
        by_cases h : st.length = 7
        · simp [h]
        · have : st.length + 1 < 8 := by omega
          cases b <;> simp [h, this, encF, enc, encL]
    · intro st' h
      simp only [specStep] at h
      split at h
      · cases h; simp; omega
      · cases h
  | els =>
    cases st with
    | nil => exact ⟨by decide, by simp [specStep]⟩
    | cons b st =>
      simp only [List.length_cons] at hl
      refine ⟨?_, by simp [specStep]; omega⟩
      have hne := shl_one_ne_zero st.length (by omega)
      have hbit := encF_small st (by omega)
      simp only [step, els, enc, encL, hne, if_false, specStep, Option.map_some, Option.some.injEq,
        St.mk.injEq, and_true]
      have hb := bits_aux (encF st) st.length (by omega) hbit
      cases b <;> simp [encF, hb.1, hb.2.1]
  | endif =>
    cases st with
    | nil => exact ⟨by decide, by simp [specStep]⟩
    | cons b st =>
      simp only [List.length_cons] at hl
      refine ⟨?_, by simp [specStep]; omega⟩
      have hne := shl_one_ne_zero st.length (by omega)
      have hbit := encF_small st (by omega)
      simp only [step, endif, enc, encL, hne, if_false, specStep, Option.map_some, Option.some.injEq,
        St.mk.injEq]
      constructor
      · have hb := bits_aux (encF st) st.length (by omega) hbit
        cases b <;> simp [encF, hb.2.2.1, hb.2.2.2]
      · cases st with
        | nil => decide
        | cons y st =>
          simp only [List.length_cons] at hl ⊢
          have : ∀ k < 7, (1#8 <<< (k+1)) >>> 1 = 1#8 <<< k := by decide
          exact this _ (by omega)

theorem enc_run (ds : List Dir) (st : List Bool) (hl : st.length ≤ 8) :
    run (enc st) ds = (specRun st ds).map enc ∧
      ∀ st', specRun st ds = some st' → st'.length ≤ 8 := by
  induction ds generalizing st with
  | nil => simpa [run, specRun] using hl
  | cons d ds ih =>
    have h := enc_step st hl d
    simp only [run, specRun, h.1]
    cases hs : specStep st d with
    | none => simp
    | some st' =>
      simpa using ih st' (h.2 st' hs)

theorem isTrue_enc (st : List Bool) (hl : st.length ≤ 8) : isTrue (enc st) = st.all id := by
  rw [Bool.eq_iff_iff]
  simp only [isTrue, enc]
  exact decide_eq_true_iff.trans (encF_eq_zero st hl)

theorem check_enc (st : List Bool) (hl : st.length ≤ 8) : check (enc st) = st.isEmpty := by
  cases st with
  | nil => decide
  | cons b st =>
    have := shl_one_ne_zero st.length (by simp at hl; omega)
    simp [check, enc, encL, this]

theorem classify_cond (c : Cond) : classify (Block.condLine c) = .cond c := by
  obtain ⟨e, n, arg⟩ := c
  cases e <;> cases n <;> simp [classify, Block.condLine, List.isPrefixOf]

theorem classify_else : classify "else".toList = .els := by decide
theorem classify_endif : classify "endif".toList = .endif := by decide

variable {σ : Type}

theorem stepLine_cond_false (h : Handlers σ) (st : List Bool) (hl : st.length ≤ 8)
    (hf : st.all id = false) (t : σ) (c : Cond) :
    stepLine h (enc st) t (Block.condLine c) =
      if st.length < 8 then some (enc (c.neg :: st), t) else none := by
  simp only [stepLine, classify_cond, isTrue_enc st hl, hf]
  have := (enc_step st hl (.add c.neg)).1
  simp only [step, specStep] at this
  rw [if_neg (by simp)]
  rw [this]
  split <;> simp

theorem stepLine_cond_true (h : Handlers σ) (st : List Bool) (hl : st.length ≤ 8)
    (hf : st.all id = true) (t : σ) (c : Cond) :
    stepLine h (enc st) t (Block.condLine c) =
      if (h.cond t c.eq c.arg).2 < 0 then none
      else if st.length < 8 then
        some (enc ((if c.neg then !(decide ((h.cond t c.eq c.arg).2 ≠ 0))
          else decide ((h.cond t c.eq c.arg).2 ≠ 0)) :: st), (h.cond t c.eq c.arg).1)
      else none := by
  simp only [stepLine, classify_cond, isTrue_enc st hl, hf]
  rw [if_pos trivial]
  have key : ∀ b, add (enc st) b = if st.length < 8 then some (enc (b :: st)) else none := by
    intro b
    have := (enc_step st hl (.add b)).1
    simp only [step, specStep] at this
    rw [this]; split <;> simp
  by_cases hr : (h.cond t c.eq c.arg).2 < 0
  · rw [if_neg (by omega), if_pos hr]
  · rw [if_pos (by omega), if_neg hr, key]
    split
    · cases c.neg <;> simp
    · simp

theorem stepLine_else (h : Handlers σ) (b : Bool) (st : List Bool) (hl : (b :: st).length ≤ 8) (t : σ) :
    stepLine h (enc (b :: st)) t "else".toList = some (enc ((!b) :: st), t) := by
  simp only [stepLine, classify_else]
  have := (enc_step (b :: st) hl .els).1
  simp only [step, specStep] at this
  simp [this]

theorem stepLine_endif (h : Handlers σ) (b : Bool) (st : List Bool) (hl : (b :: st).length ≤ 8) (t : σ) :
    stepLine h (enc (b :: st)) t "endif".toList = some (enc st, t) := by
  simp only [stepLine, classify_endif]
  have := (enc_step (b :: st) hl .endif).1
  simp only [step, specStep] at this
  simp [this]

theorem runLines_cons (h : Handlers σ) (l : Str) (ls : List Str) (s : St) (t : σ) :
    runLines h (l :: ls) s t = (stepLine h s t l).bind (fun p => runLines h ls p.1 p.2) := by
  simp only [runLines]
  cases stepLine h s t l <;> rfl

theorem runLines_append (h : Handlers σ) (ls ls' : List Str) (s : St) (t : σ) :
    runLines h (ls ++ ls') s t = (runLines h ls s t).bind (fun p => runLines h ls' p.1 p.2) := by
  induction ls generalizing s t with
  | nil => simp [runLines]
  | cons l ls ih =>
    rw [List.cons_append, runLines_cons, runLines_cons]
    cases stepLine h s t l with
    | none => rfl
    | some p => simp [ih]

/-- Skipping a block inside an unselected branch. -/
theorem run_skip (h : Handlers σ) (b : Block) (hwf : b.wf) (st : List Bool)
    (hd : st.length + b.depth ≤ 8) (hf : st.all id = false) (t : σ) :
    runLines h b.render (enc st) t = some (enc st, t) := by
  induction b generalizing st with
  | nil => rfl
  | line l rest ih =>
    simp only [Block.wf, Block.depth] at hwf hd
    rw [Block.render, runLines_cons]
    have : stepLine h (enc st) t l = some (enc st, t) := by
      simp [stepLine, hwf.1, isTrue_enc st (by omega), hf]
    rw [this]
    exact ih hwf.2 st hd hf
  | ifb c thn he e rest iht ihe ihr =>
    simp only [Block.wf, Block.depth] at hwf hd
    have hlt : st.length < 8 := by omega
    rw [Block.render, List.append_assoc, List.cons_append, runLines_cons,
      stepLine_cond_false h st (by omega) hf, if_pos hlt, Option.bind_some, runLines_append,
      iht hwf.1 (c.neg :: st) (by simp; omega) (by simp [hf]), Option.bind_some]
    cases he with
    | false =>
      rw [if_neg (by decide), List.nil_append, runLines_cons, stepLine_endif h _ _ (by simp; omega)]
      exact ihr hwf.2.2 st (by omega) hf
    | true =>
      rw [if_pos rfl, List.cons_append, runLines_cons, stepLine_else h _ _ (by simp; omega),
        Option.bind_some, runLines_append,
        ihe hwf.2.1 ((!c.neg) :: st) (by simp at hd ⊢; omega) (by simp [hf]), Option.bind_some,
        runLines_cons, stepLine_endif h _ _ (by simp; omega)]
      exact ihr hwf.2.2 st (by omega) hf

/-- Running a block inside selected branches. -/
theorem run_sel (h : Handlers σ) (b : Block) (hwf : b.wf) (st : List Bool)
    (hd : st.length + b.depth ≤ 8) (hf : st.all id = true) (t : σ) :
    runLines h b.render (enc st) t = (b.exec h t).map (enc st, ·) := by
  induction b generalizing st t with
  | nil => rfl
  | line l rest ih =>
    simp only [Block.wf, Block.depth] at hwf hd
    rw [Block.render, runLines_cons, Block.exec]
    have : stepLine h (enc st) t l =
        if (h.exec t l).2 < 0 then none else some (enc st, (h.exec t l).1) := by
      simp [stepLine, hwf.1, isTrue_enc st (by omega), hf]
    rw [this]
    by_cases hr : (h.exec t l).2 < 0
    · simp [hr]
    · simpa [hr] using ih hwf.2 st hd hf _
  | ifb c thn he e rest iht ihe ihr =>
    simp only [Block.wf, Block.depth] at hwf hd
    have hlt : st.length < 8 := by omega
    rw [Block.render, List.append_assoc, List.cons_append, runLines_cons,
      stepLine_cond_true h st (by omega) hf, Block.exec]
    simp only [if_pos hlt]
    by_cases hr : (h.cond t c.eq c.arg).2 < 0
    · simp [hr]
    · simp only [hr, if_false, Option.bind_some]
      generalize (h.cond t c.eq c.arg).1 = t1
      generalize hsel : (if c.neg = true then !(decide ((h.cond t c.eq c.arg).2 ≠ 0))
          else decide ((h.cond t c.eq c.arg).2 ≠ 0)) = sel
      rw [runLines_append]
      cases sel with
      | true =>
        rw [iht hwf.1 (true :: st) (by simp; omega) (by simp [hf])]
        simp only [if_true]
        cases hm : thn.exec h t1 with
        | none => rfl
        | some t2 =>
          simp only [Option.map_some, Option.bind_some]
          cases he with
          | false =>
            rw [if_neg (by decide), List.nil_append, runLines_cons, stepLine_endif h _ _ (by simp; omega)]
            exact ihr hwf.2.2 st (by omega) hf _
          | true =>
            rw [if_pos rfl, List.cons_append, runLines_cons, stepLine_else h _ _ (by simp; omega),
              Option.bind_some, runLines_append,
              run_skip h e hwf.2.1 ((!true) :: st) (by simp at hd ⊢; omega) (by simp), Option.bind_some,
              runLines_cons, stepLine_endif h _ _ (by simp; omega)]
            exact ihr hwf.2.2 st (by omega) hf _
      | false =>
        rw [run_skip h thn hwf.1 (false :: st) (by simp; omega) (by simp), Option.bind_some]
        cases he with
        | false =>
          rw [if_neg (by decide), List.nil_append, runLines_cons, stepLine_endif h _ _ (by simp; omega)]
          simpa using ihr hwf.2.2 st (by omega) hf _
        | true =>
          rw [if_pos rfl, List.cons_append, runLines_cons, stepLine_else h _ _ (by simp; omega),
            Option.bind_some, runLines_append,
            ihe hwf.2.1 ((!false) :: st) (by simp at hd ⊢; omega) (by simp [hf])]
          simp only [Bool.false_eq_true, if_false, if_true]
          cases e.exec h t1 with
          | none => rfl
          | some t2 =>
            simp only [Option.map_some, Option.bind_some]
            rw [runLines_cons, stepLine_endif h _ _ (by simp; omega)]
            exact ihr hwf.2.2 st (by omega) hf _

/-- Whatever happens in a block, the conditional state afterwards is the one before. -/
theorem run_stack (h : Handlers σ) (b : Block) (hwf : b.wf) (st : List Bool)
    (hl : st.length ≤ 8) (t : σ) :
    (st.length + b.depth ≤ 8 ∧ ∀ p, runLines h b.render (enc st) t = some p → p.1 = enc st) ∨
    (8 < st.length + b.depth ∧ runLines h b.render (enc st) t = none) := by
  by_cases hd : st.length + b.depth ≤ 8
  · left
    refine ⟨hd, fun p hp => ?_⟩
    cases hf : st.all id with
    | true =>
      rw [run_sel h b hwf st hd hf] at hp
      cases hx : b.exec h t <;> rw [hx] at hp <;> simp at hp
      rw [← hp]
    | false =>
      rw [run_skip h b hwf st hd hf] at hp
      simp at hp; rw [← hp]
  · right
    refine ⟨by omega, ?_⟩
    induction b generalizing st t with
    | nil => simp [Block.depth] at hd; omega
    | line l rest ih =>
      simp only [Block.wf, Block.depth] at hwf hd
      rw [Block.render, runLines_cons]
      simp only [stepLine, hwf.1]
      split
      · exact ih hwf.2 st hl _ hd
      · split
        · rfl
        · exact ih hwf.2 st hl _ hd
    | ifb c thn he e rest iht ihe ihr =>
      simp only [Block.wf, Block.depth] at hwf hd
      rw [Block.render, List.append_assoc, List.cons_append, runLines_cons]
      have hstep : stepLine h (enc st) t (Block.condLine c) = none ∨
          ∃ x t1, st.length < 8 ∧ stepLine h (enc st) t (Block.condLine c) = some (enc (x :: st), t1) := by
        cases hf : st.all id with
        | true =>
          rw [stepLine_cond_true h st hl hf]
          split
          · exact .inl rfl
          · split
            · exact .inr ⟨_, _, ‹_›, rfl⟩
            · exact .inl rfl
        | false =>
          rw [stepLine_cond_false h st hl hf]
          split
          · exact .inr ⟨_, _, ‹_›, rfl⟩
          · exact .inl rfl
      rcases hstep with hs | ⟨x, t1, hlt, hs⟩
      · rw [hs]; rfl
      · rw [hs, Option.bind_some, runLines_append]
        have hl' : (x :: st).length ≤ 8 := by simp; omega
        by_cases hdt : (x :: st).length + thn.depth ≤ 8
        · -- then-part fits
          cases hr : runLines h thn.render (enc (x :: st)) t1 with
          | none => rfl
          | some p =>
            have hp : p.1 = enc (x :: st) := by
              cases hf : (x :: st).all id with
              | true =>
                rw [run_sel h thn hwf.1 _ hdt hf] at hr
                cases hx : thn.exec h t1 <;> rw [hx] at hr <;> simp at hr
                rw [← hr]
              | false =>
                rw [run_skip h thn hwf.1 _ hdt hf] at hr
                simp at hr; rw [← hr]
            rw [Option.bind_some, hp]
            cases he with
            | false =>
              rw [if_neg (by decide), List.nil_append, runLines_cons, stepLine_endif h _ _ hl']
              refine ihr hwf.2.2 st hl _ ?_
              simp at hd hdt; omega
            | true =>
              rw [if_pos rfl, List.cons_append, runLines_cons, stepLine_else h _ _ hl',
                Option.bind_some, runLines_append]
              by_cases hde : ((!x) :: st).length + e.depth ≤ 8
              · cases hr2 : runLines h e.render (enc ((!x) :: st)) p.2 with
                | none => rfl
                | some q =>
                  have hq : q.1 = enc ((!x) :: st) := by
                    cases hf : ((!x) :: st).all id with
                    | true =>
                      rw [run_sel h e hwf.2.1 _ hde hf] at hr2
                      cases hx : e.exec h p.2 <;> rw [hx] at hr2 <;> simp at hr2
                      rw [← hr2]
                    | false =>
                      rw [run_skip h e hwf.2.1 _ hde hf] at hr2
                      simp at hr2; rw [← hr2]
                  rw [Option.bind_some, hq, runLines_cons, stepLine_endif h _ _ (by simpa using hl')]
                  refine ihr hwf.2.2 st hl _ ?_
                  simp at hd hdt hde; omega
              · rw [ihe hwf.2.1 ((!x) :: st) (by simpa using hl') _ hde]; rfl
        · rw [iht hwf.1 (x :: st) hl' _ hdt]; rfl

end Tup.IfStmt
