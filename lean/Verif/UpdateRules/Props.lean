import Verif.UpdateRules.Lemmas

/-! C97: updates after changes of the rules. -/

namespace Tup.Update

open Tup.Exec (S Cfg)

variable {π π' : Proj} {clean : Bool} {c : Cfg} {T : Nat → Bool} {w w' : W} {e : S D} {changed ghost : Nat → Bool}

/-- After any history of edits, scans, failed, killed and successful updates, and of changes of the rules, a
successful update leaves every output of the present rules with exactly the content its command would write
now. -/
theorem c97_rules_change (h : Hist true NoNewO π w) (u : Updating π true c T w e) (hd : e.pc = .done true) :
    UpToDate π e.db.content :=
  (done_all h.ok (h.J fun _ _ _ h => h) u hd).1

/-- The same if no rule ever has the ^o flag, without further assumptions. -/
theorem c97_without_o (ho : NoO π) (h : Hist false (fun π π' _ => NoO π ∧ NoO π') π w)
    (u : Updating π false c T w e) (hd : e.pc = .done true) : UpToDate π e.db.content := by
  have key : ∀ {π w}, Hist false (fun π π' _ => NoO π ∧ NoO π') π w → NoO π → Hist true NoNewO π w := by
    intro π w h
    induction h with
    | init ok h => exact fun _ => .init ok h
    | step _ hs ih => exact fun ho => .step (ih ho) (step_clean ho hs)
    | parse _ ok hc hg hp ih =>
      exact fun _ => .parse (ih hg.1) ok hc (fun _ _ d' _ _ _ _ => Or.inl (hg.2 d')) hp
  refine c97_rules_change (key h ho) (c := c) (T := T) ?_ hd
  unfold Updating at u ⊢
  rw [← work_clean ho]; exact u

theorem src_same (ok : π.Ok) (j : J π w.db) (u : Updating π true c T w e) {p : Nat} (hg : π.gen p = false) :
    e.db.content p = w.content p := by
  obtain ⟨g0, rest, _, ge, _, _, _, k⟩ := updating_K ok u (fun _ => j)
  rcases k.same p with h | ⟨d, h, _⟩
  · exact h
  · rw [h.gen] at hg; cases hg

/-- Two successful updates with the same rules and the same source files give the same files, whatever the two
histories were, also if the rules were changed in one and not in the other. -/
theorem c97_history_does_not_matter (hr : Ranked π) {c' : Cfg} {T' : Nat → Bool} {e' : S D}
    (h1 : Hist true NoNewO π w) (u1 : Updating π true c T w e) (d1 : e.pc = .done true)
    (h2 : Hist true NoNewO π w') (u2 : Updating π true c' T' w' e') (d2 : e'.pc = .done true)
    (hsrc : ∀ p, π.gen p = false → w.content p = w'.content p) : ∀ p, e.db.content p = e'.db.content p := by
  have j1 := h1.J fun _ _ _ h => h
  have j2 := h2.J fun _ _ _ h => h
  obtain ⟨a1, a2⟩ := done_all h1.ok j1 u1 d1
  obtain ⟨b1, _⟩ := done_all h1.ok j2 u2 d2
  refine same_files h1.ok hr a1 b1 a2 fun p hg => ?_
  rw [src_same h1.ok j1 u1 hg, src_same h1.ok j2 u2 hg, hsrc p hg]

/-- Changing the rules and updating gives what a new project with the new rules gives, that has the source files
only: those that no old rule wrote, and the old outputs that the user has changed and no rule writes any
more. -/
theorem c97_as_if_new (hr : Ranked π') {c' : Cfg} {T' : Nat → Bool} {w0 : W} {e' : S D}
    (h : Hist true NoNewO π w) (ok : π'.Ok) (hc : TellsChanges π π' changed) (hn : NoNewO π π' w)
    (hp : parse π π' changed ghost w = some w')
    (u : Updating π' true c T w' e) (d : e.pc = .done true)
    (hi : Init π' w0) (hs : ∀ p, π'.gen p = false → w0.content p =
      if π.gen p = false ∨ w.db.modify p = true then w.content p else none)
    (u' : Updating π' true c' T' w0 e') (d' : e'.pc = .done true) : ∀ p, e.db.content p = e'.db.content p := by
  refine c97_history_does_not_matter hr (.parse h ok hc hn hp) u d (.init ok hi) u' d' fun p hg => ?_
  rw [hs p hg, (parse_some hp).1 p]
  simp only [lost, hg, Bool.not_false, Bool.and_true, Bool.and_eq_true, Bool.not_eq_true']
  cases π.gen p <;> cases w.db.modify p <;> simp

/-- A change of the rules schedules no command that was there before and is the same in string, flags and outputs,
if it still lists all inputs it used, and none of these became or ceased to be an output of a rule. -/
theorem c97_not_scheduled (hp : parse π π' changed ghost w = some w') {x : Nat}
    (h1 : x ∈ π.nodes ∧ π.isCmd x = true) (h2 : x ∈ π'.nodes ∧ π'.isCmd x = true) (hm : w.db.modify x = false)
    (hc : changed x = false) (ho : ∀ p, p ∈ π.outs x ↔ p ∈ π'.outs x)
    (hin : ∀ p ∈ π.nodes, w.db.link p x = true → (p ∈ π.sticky x → p ∈ π'.sticky x) ∧ π.gen p = π'.gen p) :
    w'.db.modify x = false := by
  rw [(parse_some hp).2.2.2 x, if_pos h2.2]
  simp only [Bool.or_eq_false_iff, Bool.not_eq_false', List.any_eq_false, Bool.and_eq_true, not_and,
    Bool.not_eq_true]
  refine ⟨⟨⟨⟨kept_iff.2 ⟨h1, h2⟩, hm⟩, hc⟩, outsDiffer_false.2 ho⟩, fun p hpn hl => ?_⟩
  obtain ⟨q1, q2⟩ := hin p hpn hl
  simp only [inputDropped, q2, Bool.or_eq_false_iff, Bool.and_eq_false_iff, List.contains_eq_mem,
    decide_eq_false_iff_not, Bool.not_eq_false', decide_eq_true_eq, bne_self_eq_false, and_true]
  by_cases hs : p ∈ π.sticky x
  · exact Or.inr (q1 hs)
  · exact Or.inl hs

/-- A change of the rules never touches a source file, and never makes one into an output. -/
theorem c97_sources (ok' : π'.Ok) (hp : parse π π' changed ghost w = some w') {p : Nat} (hg : π.gen p = false) :
    w'.content p = w.content p ∧ (w.db.known p ≠ none → π'.gen p = false) := by
  refine ⟨?_, fun hk => ?_⟩
  · rw [(parse_some hp).1 p]
    simp [lost, hg]
  · refine bool_ne fun hg' => ?_
    obtain ⟨d, hd⟩ := gen_prod hg'
    have hpn := (ok'.outsIn d hd.2.1 p hd.2.2).1
    unfold parse at hp
    rw [if_pos] at hp
    · cases hp
    · rw [List.any_eq_true]
      refine ⟨p, hpn, ?_⟩
      rw [hg', hg]
      cases hk' : w.db.known p with
      | none => exact absurd hk' hk
      | some _ => rfl

/-! ### Concrete cases

The rules of `exP`: command 2 (^o) makes 3 from 1, command 4 makes 5 from 3.  New rules: command 2 stays, 4 is gone,
the new command 6 makes 7 from 1 and 3. -/

def exR : Proj where
  nodes := [1, 2, 3, 6, 7]
  root := 0
  isCmd n := n == 2 || n == 6
  outs n := if n = 2 then [3] else if n = 6 then [7] else []
  optO n := n == 2
  sticky n := if n = 2 then [1] else if n = 6 then [1, 3] else []
  beh n v :=
    if n = 2 then
      { ok := v 1 != some 3, reads := [1], out := fun p => if p = 3 then (v 1).map (· / 2) else none }
    else if n = 6 then
      { ok := true, reads := [1, 3],
        out := fun p => if p = 7 then some ((v 1).getD 0 + (v 3).getD 0) else none }
    else { ok := true, reads := [], out := fun _ => none }

theorem exR_ok : exR.Ok where
  root := by decide
  nodup := by decide
  rootNoCmd := rfl
  outsIn c h := by
    have hc : c = 2 ∨ c = 6 := by simpa [exR] using h
    rcases hc with rfl | rfl <;> decide
  unique := by decide
  stickyIn c := by
    simp only [exR]
    split
    · decide
    · split <;> decide
  stickyFile c h := by
    have hc : c = 2 ∨ c = 6 := by simpa [exR] using h
    rcases hc with rfl | rfl <;> decide
  readsIn c v p hp := by
    simp only [exR] at hp
    split at hp
    · simp at hp; subst hp; decide
    · split at hp
      · simp at hp; rcases hp with rfl | rfl <;> decide
      · cases hp
  det c v v' h := by
    simp only [exR] at h ⊢
    split
    · rename_i hc
      simp only [hc, if_true, List.mem_singleton, forall_eq] at h
      rw [h]
    · split
      · rename_i hc1 hc
        subst hc
        have h1 : v 1 = v' 1 := h 1 (by simp)
        have h3 : v 3 = v' 3 := h 3 (by simp)
        rw [h1, h3]
      · rfl

theorem exR_ranked : Ranked exR := ⟨id, by decide⟩

theorem hist_of {good : Proj → Proj → W → Prop} (ok : π.Ok) (h : History π clean w) : Hist clean good π w := by
  induction h with
  | init h => exact .init ok h
  | step _ hs ih => exact .step ih hs

theorem exPR_tells : TellsChanges exP exR (fun _ => false) := by
  intro x hk _
  have hx : x = 2 := by
    have := (kept_iff.1 hk)
    simp [exP, exR] at this
    omega
  subst hx
  exact ⟨rfl, rfl⟩

theorem exPR_noNewO (w : W) : NoNewO exP exR w := by
  intro p d d' h1 h2 _ ho
  obtain ⟨a1, a2, a3⟩ := h1
  obtain ⟨b1, b2, b3⟩ := h2
  have ha : d = 2 ∨ d = 4 := by simpa [exP] using a2
  have hb : d' = 2 ∨ d' = 6 := by simpa [exR] using b2
  rcases ha with rfl | rfl
  · cases ho
  · rcases hb with rfl | rfl
    · exfalso; revert a3 b3; simp [exP, exR]; omega
    · exact Or.inl rfl

/-- The new rules are parsed after the update `exE1`. -/
def exRW : W := (parse exP exR (fun _ => false) (fun _ => false) (commitOf exE1)).get (by decide)

theorem exRW_parse : parse exP exR (fun _ => false) (fun _ => false) (commitOf exE1) = some exRW :=
  (Option.some_get _).symm

theorem exRW_hist : Hist true NoNewO exR exRW :=
  .parse (hist_of exP_ok exW1_history) exR_ok exPR_tells (exPR_noNewO _) exRW_parse

/-- Only the new command is scheduled, and the output of the dropped rule is deleted. -/
example : exRW.db.modify 6 = true ∧ exRW.db.modify 2 = false ∧ (commitOf exE1).content 5 = some 10 ∧
    exRW.content 5 = none ∧ exRW.content 3 = some 0 := by decide

example : exRW.db.modify 2 = false :=
  c97_not_scheduled exRW_parse (by decide) (by decide) (by decide) rfl (by simp [exP, exR]) (by decide)

example : exRW.content 1 = (commitOf exE1).content 1 := (c97_sources exR_ok exRW_parse (by decide)).1

def exRM : List Move := oneByOne [(6, .ok), (7, .ok)]

def exRE : S D := (updateRun exR true exC (allBut [1, 3, 5, 7]) exRW exRM).get (by decide)

theorem exRE_updating : Updating exR true exC (allBut [1, 3, 5, 7]) exRW exRE :=
  updateRun_updating exR true (by decide) (fun _ => rfl) (sees_allBut (by decide)) (Option.some_get _).symm

example : exRE.pc = .done true ∧ exRE.db.ran = [6] ∧ UpToDate exR exRE.db.content :=
  ⟨by decide, by decide, c97_rules_change exRW_hist exRE_updating (by decide)⟩

/-- A new project with the new rules and the source file only. -/
def exRN : W := ⟨files [(1, 0)], { known := fun _ => none, link := fun _ _ => false, modify := fun n => n == 2 || n == 6 }⟩

def exRNE : S D :=
  (updateRun exR true exC (allBut []) exRN (oneByOne [(1, .ok), (2, .ok), (3, .ok), (6, .ok), (7, .ok)])).get (by decide)

example : ∀ p, exRE.db.content p = exRNE.db.content p := by
  refine c97_as_if_new exR_ranked (hist_of exP_ok exW1_history) exR_ok exPR_tells (exPR_noNewO _) exRW_parse
    exRE_updating (by decide) (w0 := exRN) (by unfold Init; decide) ?_
    (updateRun_updating exR true (c := exC) (T := allBut []) (by decide) (fun _ => rfl) (sees_allBut (by simp)) (Option.some_get _).symm)
    (by decide)
  intro p hp
  have j : J exP exW0.db := exW0_init.J exP_ok
  by_cases hg : exP.gen p = true
  · have h5 : p = 5 := by
      have : p = 3 ∨ p = 5 := by simpa [Proj.gen, exP] using hg
      rcases this with rfl | rfl
      · revert hp; decide
      · rfl
    subst h5
    decide
  · rw [if_pos (Or.inl (bool_ne hg))]
    show exW0.content p = exE1.db.content p
    exact (src_same exP_ok j exE1_updating (bool_ne hg)).symm

/-! #### What goes wrong when ^o is added

The rules `exQ` are those of `exP` without ^o.  File 1 changes to 3, command 2 writes 1 into file 3 and fails.  Then the
user sets file 1 to 2 and adds the ^o flag to the rule.  Command 2 now writes 1 again; nothing has changed, so 4 is not
run, although it has seen nothing but 0. -/

def exO1 : W := { commitOf ((updateRun exQ true exC (allBut []) exW0 exM0).get (by decide)) with content := files [(1, 3), (3, 0), (5, 10)] }

def exOE1 : S D :=
  (updateRun exQ true exC (allBut [3, 5]) exO1 (oneByOne [(1, .ok), (2, .fail (files [(3, 1)]))])).get (by decide)

def exO2 : W := { commitOf exOE1 with content := files [(1, 2), (3, 1), (5, 10)] }

def exO3 : W := (parse exQ exP (fun n => n == 2) (fun _ => false) exO2).get (by decide)

def exOE2 : S D := (updateRun exP true exC (allBut [3, 5]) exO3 exM0).get (by decide)

/-- Without the restriction on the changes of rules the property is false. -/
theorem c97_false_o_added : ∃ (π : Proj) (c : Cfg) (T : Nat → Bool) (w : W) (e : S D),
    Hist true (fun _ _ _ => True) π w ∧ Updating π true c T w e ∧ e.pc = .done true ∧ ¬ UpToDate π e.db.content := by
  refine ⟨exP, exC, allBut [3, 5], exO3, exOE2, ?_, ?_, by decide, ?_⟩
  · refine .parse (π := exQ) (changed := fun n => n == 2) (ghost := fun _ => false) (.step (.step (.step (.step (.init exQ_ok (w := exW0) (by unfold Init; decide))
      (.update (c := exC) (T := allBut []) (ok := true) (e := (updateRun exQ true exC (allBut []) exW0 exM0).get (by decide)) ?_ (by decide) (by decide)))
      (.edit (files [(1, 3), (3, 0), (5, 10)]))) (.update (w := exO1) (e := exOE1) (c := exC) (T := allBut [3, 5]) (ok := false) ?_ (by decide) (by decide)))
      (.edit (files [(1, 2), (3, 1), (5, 10)]))) exP_ok ?_ trivial (Option.some_get _).symm
    · exact updateRun_updating exQ true (by decide) (fun _ => rfl) (sees_allBut (by simp)) (Option.some_get _).symm
    · exact updateRun_updating exQ true (by decide) (fun _ => rfl) (sees_allBut (by decide)) (Option.some_get _).symm
    · intro x _ hx
      refine ⟨rfl, ?_⟩
      show (x == 2) = false
      exact hx
  · exact updateRun_updating exP true (by decide) (fun _ => rfl) (sees_allBut (by decide)) (Option.some_get _).symm
  · intro h
    have := ((h 4 (by decide) rfl).2 5 (by decide)).2
    revert this
    decide

/-- Without ^o: the rules `exQ`, an update, then the rules `exR` without ^o. -/
def exS : Proj := { exR with optO := fun _ => false }

theorem exS_ok : exS.Ok :=
  ⟨exR_ok.root, exR_ok.nodup, exR_ok.rootNoCmd, exR_ok.outsIn, exR_ok.unique, exR_ok.stickyIn,
    exR_ok.stickyFile, exR_ok.readsIn, exR_ok.det⟩

def exSE1 : S D := (updateRun exQ false exC (allBut []) exW0 exM0).get (by decide)

def exSW : W := (parse exQ exS (fun _ => false) (fun _ => false) (commitOf exSE1)).get (by decide)

def exSE2 : S D := (updateRun exS false exC (allBut [1, 3, 5, 7]) exSW exRM).get (by decide)

example : exSE2.db.ran = [6] ∧ UpToDate exS exSE2.db.content := by
  refine ⟨by decide, c97_without_o (c := exC) (T := allBut [1, 3, 5, 7]) (w := exSW) (fun _ => rfl) ?_ ?_ (by decide)⟩
  · refine .parse (π := exQ) (changed := fun _ => false) (ghost := fun _ => false)
      (.step (.init exQ_ok (w := exW0) (by unfold Init; decide)) (.update (w := exW0) (c := exC) (T := allBut []) (ok := true) (e := exSE1) ?_ (by decide) (by decide)))
      exS_ok ?_ ⟨fun _ => rfl, fun _ => rfl⟩ (Option.some_get _).symm
    · exact updateRun_updating exQ false (by decide) (fun _ => rfl) (sees_allBut (by simp)) (Option.some_get _).symm
    · intro x hk _
      have hx : x = 2 := by
        have := (kept_iff.1 hk)
        simp [exQ, exS, exP, exR] at this
        omega
      subst hx
      exact ⟨rfl, rfl⟩
  · exact updateRun_updating exS false (by decide) (fun _ => rfl) (sees_allBut (by decide)) (Option.some_get _).symm

end Tup.Update
