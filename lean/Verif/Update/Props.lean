import Verif.Update.Reason
import Verif.Update.Example

/-!
Properties C34, C35 and C37: what an update leaves scheduled, what the files are after a successful update,
and which commands are run.
-/

namespace Tup.Update

open Tup.Exec (Graph S Cfg Running Reach)

variable {π : Proj} {clean : Bool} {c : Cfg} {T : Nat → Bool} {w : W} {e : S D}

/-! ### C34 -/

/-- C34, within an update: whenever a node is scheduled in some state of an update, then in every later
state of that update it is finished or still scheduled. -/
theorem c34_unfinished_stays_scheduled (ok : π.Ok) (h : Updating π clean c T w e) {e' : S D}
    (hr : Reach c (work π clean (normal π (scan π T w).db)) e e') {x : Nat}
    (hx : e.db.db.modify x = true) : Done e' x ∨ e'.db.db.modify x = true := by
  obtain ⟨h1, h2, h3, g0, hg, s0, hs0, hreach⟩ := h
  have htr : Reach c (work π clean (normal π (scan π T w).db)) s0 e' := by
    clear hx
    induction hr with
    | refl => exact hreach
    | tail _ hst ih => exact .tail ih hst
  obtain ⟨rest, hwf, _⟩ := graph_ge ok hg
  have hna := (Tup.Exec.running_inv h1 hwf ⟨s0, hs0, htr⟩).1.noAbort
  exact reach_keeps h2 hr hna (Or.inr hx)

/-- C34: nothing that happens to a project (edits, scans, failed, successful or killed updates) unschedules a
command, except finishing it in an update that is committed. -/
theorem c34_scheduled_until_finished (ok : π.Ok) {w' : W} (hs : Step π clean w w') {x : Nat}
    (hx : π.isCmd x = true) (hm : w.db.modify x = true) :
    w'.db.modify x = true ∨
      ∃ c T e, Updating π clean c T w e ∧ w' = ⟨e.db.content, e.db.db⟩ ∧ Done e x := by
  cases hs with
  | edit _ => exact Or.inl hm
  | scan T h => exact Or.inl (scan_modify hx hm)
  | crash h hc => exact Or.inl (scan_modify hx hm)
  | @update c T e b h hd hr =>
    by_cases hdn : Done e x
    · exact Or.inr ⟨c, T, e, h, rfl, hdn⟩
    · left
      obtain ⟨h1, h2, h3, g0, hg, s0, hs0, hreach⟩ := h
      obtain ⟨rest, hwf, _⟩ := graph_ge ok hg
      have hna := (Tup.Exec.running_inv h1 hwf ⟨s0, hs0, hreach⟩).1.noAbort
      have hdb : s0.db = startD π (scan π T w) := by
        obtain ⟨s1, q1, _, _, _, _, _, q2⟩ := Tup.Exec.start_inv (D := D) h1 hwf (startD π (scan π T w))
        rw [hs0] at q1; injection q1 with q1; rw [q1]; exact q2
      refine (reach_keeps h2 hreach hna (Or.inr ?_)).resolve_left hdn
      rw [hdb]
      exact scan_modify hx hm

/-- C34: a finished command is not scheduled any more. -/
theorem c34_finished_not_repeated (ok : π.Ok) (h : Updating π clean c T w e) {x : Nat} (hx : x ∈ π.nodes)
    (hd : Done e x) : e.db.db.modify x = false := by
  obtain ⟨h1, h2, h3, g0, hg, hr⟩ := h
  have hr' : Running c (work π false (normal π (scan π T w).db)) g0 (startD π (scan π T w)) e := by
    cases clean
    · exact hr
    · exact hr.weaken (fun d g n d' b hw => work_weaken hw)
  obtain ⟨rest, hwf, _, hi, _, ht, k⟩ :=
    running_K (clean := false) ok (by simp) (scan_known h3) h1 h2 hg hr'
  have hxr : x ∈ rest := by
    have hxr : x ∈ π.root :: rest := by
      rcases hd with hd | hd
      · exact hi.poppedSub x hd
      · exact hi.gi.sub x (List.mem_append_right _ (mem_fin_held hd))
    rcases List.mem_cons.1 hxr with rfl | h
    · exact absurd hx ok.root
    · exact h
  exact k.doneClear x hxr hd

/-! ### C35 -/

theorem done_all (ok : π.Ok) (hJ : J π w.db) (h : Updating π true c T w e) (hd : e.pc = .done true) :
    UpToDate π e.db.content ∧ Declares π e.db.content := by
  obtain ⟨g0, rest, hwf, ge, hi, hroot, ht, k⟩ := updating_K ok h (fun _ => hJ)
  obtain ⟨hf, hnl, hpl, ha⟩ := hi.doneTrue hd
  have hfl : e.failedL = [] := List.length_eq_zero_iff.1 (by rw [← hi.failCount]; exact hf)
  have hrun : e.running = [] ∧ e.fin = [] := by
    simp only [S.active] at ha
    exact ⟨List.length_eq_zero_iff.1 (by omega), List.length_eq_zero_iff.1 (by omega)⟩
  have hdone : ∀ x ∈ rest, Done e x := by
    intro x hx
    rcases hi.gi.cover x (List.mem_cons_of_mem _ hx) with h1 | h1
    · simp [hnl, hpl, hrun.1, hrun.2] at h1
    · exact Or.inl h1
  have hnofail : ∀ x, ¬ Failed e x := by
    rintro x (h | h)
    · rw [hfl] at h; cases h
    · rw [hrun.2] at h; cases h
  have hclear : ∀ x ∈ π.nodes, e.db.db.modify x = false := by
    intro x hx
    refine bool_ne fun hm => ?_
    have hxr := k.inRest x hx hm
    rw [k.doneClear x hxr (hdone x hxr)] at hm; cases hm
  have hfresh : ∀ p, e.db.db.known p = e.db.content p := by
    intro p
    rcases k.fresh p with h | ⟨d, _, h⟩
    · exact h
    · exact absurd h (hnofail d)
  have key : ∀ x ∈ π.nodes, π.isCmd x = true → ∃ v, Matches π e.db.db x v ∧
      π.beh x (mask π x e.db.content) = π.beh x (mask π x v) := by
    intro x hx hxc
    rcases k.main rfl x hx hxc with hm | ⟨v, hm, hv⟩
    · rw [hclear x hx] at hm; cases hm
    · refine ⟨v, hm, ok.det x (mask π x v) (mask π x e.db.content) fun p hp => ?_⟩
      by_cases hpo : p ∈ π.outs x
      · simp [mask, hpo]
      · simp only [mask, hpo, if_false]
        have hpn := (ok.readsIn x _ p hp).1
        have hvk : v p = e.db.db.known p := by
          rcases hv p hp hpo with h | ⟨_, _, h | h | ⟨d, h1, h2, _⟩⟩
          · exact h.1
          · exact h
          · rw [hclear p hpn] at h; cases h
          · rw [hclear d h1.1] at h2; cases h2
        rw [hvk, hfresh]
  constructor
  · intro x hx hxc
    obtain ⟨v, ⟨a1, a2, a3⟩, hb⟩ := key x hx hxc
    rw [hb]
    refine ⟨a1.1, fun o ho => ?_⟩
    rw [← hfresh o, a2 o ho]
    exact ⟨a1.2.1 o ho, rfl⟩
  · intro x hx hxc
    obtain ⟨v, ⟨a1, _, _⟩, hb⟩ := key x hx hxc
    rw [hb]
    exact a1.2.2

/-- C35: after any history of edits, scans, failed, killed and successful updates, a successful update leaves
every generated file with exactly the content its command would write now.  The history may not contain a
failing ^o command that leaves an output where there was none before (`History π true`); see
`c35_without_o` for projects that do not use ^o, and `c35_false_with_leftovers` for why this is needed. -/
theorem c35_update_brings_up_to_date (ok : π.Ok) (hJ : History π true w) (h : Updating π true c T w e)
    (hd : e.pc = .done true) : UpToDate π e.db.content :=
  (done_all ok (hJ.J ok) h hd).1

/-- C35 for projects that do not use ^o: any history at all. -/
theorem c35_without_o (ok : π.Ok) (ho : ∀ x, π.optO x = false) (hJ : History π false w)
    (h : Updating π false c T w e) (hd : e.pc = .done true) : UpToDate π e.db.content := by
  refine c35_update_brings_up_to_date ok (history_clean ho hJ) (c := c) (T := T) ?_ hd
  unfold Updating at h ⊢
  rw [← work_clean ho]; exact h

theorem same_files (ok : π.Ok) (hr : Ranked π) {a b : Content} (ha : UpToDate π a) (hb : UpToDate π b)
    (hda : Declares π a) (hab : ∀ p, π.gen p = false → a p = b p) : ∀ p, a p = b p := by
  obtain ⟨r, hr⟩ := hr
  have key : ∀ k, ∀ x ∈ π.nodes, π.isCmd x = true → r x < k → ∀ o ∈ π.outs x, a o = b o := by
    intro k
    induction k with
    | zero => intro x _ _ h; omega
    | succ k ih =>
      intro x hx hxc hk o ho
      have hbeh : π.beh x (mask π x b) = π.beh x (mask π x a) := by
        refine ok.det x _ _ fun p hp => ?_
        by_cases hpo : p ∈ π.outs x
        · simp [mask, hpo]
        · simp only [mask, hpo, if_false]
          by_cases hg : π.gen p = true
          · obtain ⟨d, hd1, hd2, hd3⟩ := gen_iff.1 hg
            have hst := hda x hx hxc p hp hpo hg
            have hdx : d ≠ x := fun h => hpo (h ▸ hd3)
            have := hr x hx d hd1 hxc hd2 p hst hd3 hdx
            exact ih d hd1 hd2 (by omega) p hd3
          · exact hab p (bool_ne hg)
      rw [((ha x hx hxc).2 o ho).2, ((hb x hx hxc).2 o ho).2, hbeh]
  intro p
  by_cases hg : π.gen p = true
  · obtain ⟨d, hd1, hd2, hd3⟩ := gen_iff.1 hg
    exact key (r d + 1) d hd1 hd2 (by omega) p hd3
  · exact hab p (bool_ne hg)

/-- C35: two successful updates from the same source files give the same generated files, whatever the two
histories were.  In particular an incremental update gives the result of a full build in a new project
(take `w'` with `Init π w'`). -/
theorem c35_incremental_is_full_build (ok : π.Ok) (hr : Ranked π) {c' : Cfg} {T' : Nat → Bool} {w' : W} {e' : S D}
    (h1 : History π true w) (u1 : Updating π true c T w e) (d1 : e.pc = .done true)
    (h2 : History π true w') (u2 : Updating π true c' T' w' e') (d2 : e'.pc = .done true)
    (hsrc : ∀ p, π.gen p = false → w.content p = w'.content p) :
    ∀ p, e.db.content p = e'.db.content p := by
  obtain ⟨a1, a2⟩ := done_all ok (h1.J ok) u1 d1
  obtain ⟨b1, _⟩ := done_all ok (h2.J ok) u2 d2
  have hsame : ∀ {c T w} {e : S D}, History π true w → Updating π true c T w e → ∀ p, π.gen p = false →
      e.db.content p = w.content p := by
    intro c T w e h u p hg
    obtain ⟨g0, rest, _, ge, _, _, _, k⟩ := updating_K ok u (fun _ => h.J ok)
    rcases k.same p with h | ⟨d, h, _⟩
    · exact h
    · rw [h.gen] at hg; cases hg
  refine same_files ok hr a1 b1 a2 fun p hg => ?_
  rw [hsame h1 u1 p hg, hsame h2 u2 p hg, hsrc p hg]

/-! ### C37 -/

theorem running_false (h : Updating π clean c T w e) : Updating π false c T w e := by
  obtain ⟨h1, h2, h3, g0, hg, hr⟩ := h
  refine ⟨h1, h2, h3, g0, hg, ?_⟩
  cases clean
  · exact hr
  · exact hr.weaken (fun d g n d' b hw => work_weaken hw)

theorem done_rest (ok : π.Ok) {g0 : Graph} {rest : List Nat} (hi : Tup.Exec.Inv c g0 π.root rest e) {x : Nat}
    (hx : x ∈ π.nodes) (hd : Done e x) : x ∈ rest := by
  have hxr : x ∈ π.root :: rest := by
    rcases hd with hd | hd
    · exact hi.poppedSub x hd
    · exact hi.gi.sub x (List.mem_append_right _ (mem_fin_held hd))
  rcases List.mem_cons.1 hxr with rfl | h
  · exact absurd hx ok.root
  · exact h

/-- C37: a command that the update passed over without running it was not scheduled itself, and none of the
files it used at its last run was scheduled or has changed. -/
theorem c37_skipped_only_if_unchanged (ok : π.Ok) (h : Updating π clean c T w e) {x : Nat}
    (hx : x ∈ π.nodes) (hxc : π.isCmd x = true) (hd : Done e x) (hnr : x ∉ e.db.ran) :
    (scan π T w).db.modify x = false ∧ ∀ p ∈ π.nodes, π.isCmd p = false → (scan π T w).db.link p x = true →
      (scan π T w).db.modify p = false ∧ e.db.content p = w.content p := by
  obtain ⟨h1, h2, h3, g0, hg, hr⟩ := running_false h
  obtain ⟨rest, _, ge, hi, _, _, k⟩ := running_K (clean := false) ok (by simp) (scan_known h3) h1 h2 hg hr
  rcases k.ranIff x (done_rest ok hi hx hd) hxc hd with h | ⟨q1, q2⟩
  · exact absurd h hnr
  · refine ⟨q1, fun p hp hpc hl => q2 p ?_ hp⟩
    simp [normal, hpc, hxc, hl]

/-- C37: in a successful update every command is run that used a file which has changed since. -/
theorem c37_changed_input_runs (ok : π.Ok) (h : Updating π clean c T w e) (hdone : e.pc = .done true)
    {x p : Nat} (hx : x ∈ π.nodes) (hxc : π.isCmd x = true) (hpc : π.isCmd p = false)
    (hl : (scan π T w).db.link p x = true)
    (hch : e.db.content p ≠ w.content p ∨ (p ∈ π.nodes ∧ (scan π T w).db.modify p = true)) :
    x ∈ e.db.ran := by
  obtain ⟨h1, h2, h3, g0, hg, hr⟩ := running_false h
  obtain ⟨rest, _, ge, hi, _, _, k⟩ := running_K (clean := false) ok (by simp) (scan_known h3) h1 h2 hg hr
  have hpr : p ∈ rest := by
    rcases hch with h | h
    · exact (k.changed_rest ok ge h).choose_spec.2.2.2
    · exact ge.sched p h.1 h.2
  have hno : normal π (scan π T w).db p x = true := by simp [normal, hpc, hxc, hl]
  have hxr : x ∈ rest := ge.closed p x hpr hx hno
  obtain ⟨hf, hnl, hpl, ha⟩ := hi.doneTrue hdone
  have hdn : Done e x := by
    simp only [S.active] at ha
    have hr1 : e.running = [] := List.length_eq_zero_iff.1 (by omega)
    have hr2 : e.fin = [] := List.length_eq_zero_iff.1 (by omega)
    rcases hi.gi.cover x (List.mem_cons_of_mem _ hxr) with h1 | h1
    · simp [hnl, hpl, hr1, hr2] at h1
    · exact Or.inl h1
  refine Classical.byContradiction fun hnr => ?_
  obtain ⟨_, q⟩ := c37_skipped_only_if_unchanged ok h hx hxc hdn hnr
  obtain ⟨q1, q2⟩ := q p (ge.nodes p hpr) hpc hl
  rcases hch with hch | hch
  · exact hch q2
  · rw [q1] at hch; cases hch.2

/-- C37: a command is run only for a reason: it was scheduled, or a file it used at its last run was
scheduled or comes from a command that was run and that either has no ^o flag, or changed the file, or no
longer uses some generated file it used before.  So commands behind unchanged outputs of ^o commands are
not run. -/
theorem c37_runs_only_for_a_reason (ok : π.Ok) (h : Updating π clean c T w e) {x : Nat}
    (hxc : π.isCmd x = true) (hr : x ∈ e.db.ran) :
    (scan π T w).db.modify x = true ∨ ∃ p ∈ π.nodes, (scan π T w).db.link p x = true ∧
      ((scan π T w).db.modify p = true ∨ ∃ d ∈ e.db.ran, p ∈ π.outs d ∧
        (π.optO d = false ∨ e.db.content p ≠ w.content p ∨
          ∃ q, π.gen q = true ∧ (scan π T w).db.link q d = true ∧ e.db.db.link q d = false)) := by
  obtain ⟨h1, h2, h3, g0, hg, hrun⟩ := running_false h
  obtain ⟨rest, ge, hi, ht, k, r⟩ := running_R ok (scan_known h3) h1 h2 hg hrun
  have hxr := (k.ranRest x hr).1
  rcases r.cmd x hxr hxc (r.ranSkip x hr) with h | ⟨p, p1, p2, p3, p4, p5⟩
  · exact Or.inl h
  · refine Or.inr ⟨p, ge.nodes p p1, ?_, ?_⟩
    · simp [normal, p2] at p3; exact p3.1
    · rcases r.file p p1 p2 p4 with h | ⟨d, d1, d2, d3⟩
      · exact Or.inl h
      · refine Or.inr ⟨d, d2, d1.2.2, ?_⟩
        rcases d3 with hf | d3
        · exfalso
          rcases p5 d d1 with h | h
          · exact h (k.ranRest d d2).1
          · exact done_not_failed hi ht h hf
        · exact d3

/-! ### Concrete cases

Node 1 is a source file.  Command 2 has the ^o flag, reads 1 and writes 3: half of the number in 1, and it
fails if that number is 3.  Command 4 reads 3 and writes 5: the number plus 10. -/

def exP : Proj where
  nodes := [1, 2, 3, 4, 5]
  root := 0
  isCmd n := n == 2 || n == 4
  outs n := if n = 2 then [3] else if n = 4 then [5] else []
  optO n := n == 2
  sticky n := if n = 2 then [1] else if n = 4 then [3] else []
  beh n v :=
    if n = 2 then
      { ok := v 1 != some 3, reads := [1], out := fun p => if p = 3 then (v 1).map (· / 2) else none }
    else if n = 4 then
      { ok := (v 3).isSome, reads := [3], out := fun p => if p = 5 then (v 3).map (· + 10) else none }
    else { ok := true, reads := [], out := fun _ => none }

theorem exP_ok : exP.Ok where
  root := by decide
  nodup := by decide
  rootNoCmd := rfl
  outsIn c h := by
    have hc : c = 2 ∨ c = 4 := by simpa [exP] using h
    rcases hc with rfl | rfl <;> decide
  unique := by decide
  stickyIn c := by
    simp only [exP]
    split
    · decide
    · split <;> decide
  stickyFile c h := by
    have hc : c = 2 ∨ c = 4 := by simpa [exP] using h
    rcases hc with rfl | rfl <;> decide
  readsIn c v p hp := by
    simp only [exP] at hp
    split at hp
    · simp at hp; subst hp; decide
    · split at hp
      · simp at hp; subst hp; decide
      · cases hp
  det c v v' h := by
    simp only [exP] at h ⊢
    split
    · rename_i hc
      simp only [hc, if_true, List.mem_singleton, forall_eq] at h
      rw [h]
    · split
      · rename_i hc1 hc
        subst hc
        have h3 : v 3 = v' 3 := h 3 (by simp)
        rw [h3]
      · rfl

def exC : Cfg := { keepGoing := false, jobs := 1, expanded := fun _ => true }

/-- Contents from a list of (file, number). -/
def files (l : List (Nat × Nat)) : Content := fun p => l.lookup p

/-- With one job: start a job, let it end, collect it. -/
def oneByOne (ends : List (Nat × End)) : List Move :=
  ends.flatMap (fun (n, e) => [.main, .fin n e, .main, .main]) ++ [.main]

/-- A new project with 0 in file 1; both commands are scheduled. -/
def exW0 : W := ⟨files [(1, 0)], { known := fun _ => none, link := fun _ _ => false, modify := fun n => n == 2 || n == 4 }⟩

/-- The moves of a first, full update. -/
def exM0 : List Move := oneByOne [(1, .ok), (2, .ok), (3, .ok), (4, .ok), (5, .ok)]

/-- The scanner finds every file changed except the listed ones. -/
def allBut (l : List Nat) (p : Nat) : Bool := !(l.contains p)

theorem sees_allBut {l : List Nat} {w : W} (h : ∀ p ∈ l, w.content p = w.db.known p) : Sees (allBut l) w := by
  intro p hp
  simp only [allBut, Bool.not_eq_true', List.contains_eq_mem, decide_eq_false_iff_not]
  exact fun hl => hp (h p hl)

/-- The project after a committed update. -/
def commitOf (e : S D) : W := ⟨e.db.content, e.db.db⟩

/-- The first update runs both commands. -/
def exU1 : Option (S D) := updateRun exP true exC (allBut []) exW0 exM0

theorem exU1_some : exU1.isSome = true := by decide

def exE1 : S D := exU1.get exU1_some

theorem exE1_updating : Updating exP true exC (allBut []) exW0 exE1 :=
  updateRun_updating exP true (by decide) (fun _ => rfl) (sees_allBut (by simp))
    (Option.some_get exU1_some).symm

theorem exW0_init : History exP true exW0 := .init (by unfold Init; decide)

example : exE1.pc = .done true ∧ exE1.db.ran = [4, 2] ∧ exE1.db.content 3 = some 0 ∧
    exE1.db.content 5 = some 10 := by decide

/-- C35 applies to it. -/
example : UpToDate exP exE1.db.content :=
  c35_update_brings_up_to_date exP_ok exW0_init exE1_updating (by decide)

/-- and so do C34 and C37: command 4 is scheduled at the start and finished at the end -/
example : exE1.db.db.modify 4 = false :=
  c34_finished_not_repeated exP_ok exE1_updating (by decide) (Or.inl (by decide))

theorem exW1_history : History exP true (commitOf exE1) :=
  .step exW0_init (.update exE1_updating (ok := true) (by decide) (by decide))

/-- Then file 1 changes from 0 to 1: command 2 is run and writes the same as before, so 4 is not run. -/
def exW2 : W := { commitOf exE1 with content := files [(1, 1), (3, 0), (5, 10)] }

theorem exW2_history : History exP true exW2 := .step exW1_history (.edit _)

def exU2 : Option (S D) := updateRun exP true exC (allBut [3, 5]) exW2 exM0

theorem exU2_some : exU2.isSome = true := by decide

def exE2 : S D := exU2.get exU2_some

theorem exE2_updating : Updating exP true exC (allBut [3, 5]) exW2 exE2 :=
  updateRun_updating exP true (by decide) (fun _ => rfl) (sees_allBut (by decide))
    (Option.some_get exU2_some).symm

example : exE2.pc = .done true ∧ exE2.db.ran = [2] ∧ UpToDate exP exE2.db.content :=
  ⟨by decide, by decide, c35_update_brings_up_to_date exP_ok exW2_history exE2_updating (by decide)⟩

/-- C37 for the command that was passed over. -/
example : exE2.db.content 3 = exW2.content 3 :=
  ((c37_skipped_only_if_unchanged exP_ok exE2_updating (x := 4) (by decide) rfl (Or.inl (by decide))
    (by decide)).2 3 (by decide) rfl (by decide)).2

/-- If file 1 changes to 4 instead, 3 changes and 4 has to run. -/
def exW3 : W := { commitOf exE1 with content := files [(1, 4), (3, 0), (5, 10)] }

def exU3 : Option (S D) := updateRun exP true exC (allBut [3, 5]) exW3 exM0

theorem exU3_some : exU3.isSome = true := by decide

def exE3 : S D := exU3.get exU3_some

theorem exE3_updating : Updating exP true exC (allBut [3, 5]) exW3 exE3 :=
  updateRun_updating exP true (by decide) (fun _ => rfl) (sees_allBut (by decide))
    (Option.some_get exU3_some).symm

example : 4 ∈ exE3.db.ran :=
  c37_changed_input_runs exP_ok exE3_updating (by decide) (x := 4) (p := 3) (by decide) rfl rfl (by decide)
    (Or.inl (by decide))

/-- and the reason for running it is that command 2 was run and changed file 3 -/
example : (scan exP (allBut [3, 5]) exW3).db.modify 4 = false ∧ 2 ∈ exE3.db.ran := by decide

/-- A project that declares its dependencies: `c35_incremental_is_full_build` says that the incremental update
in `exE3` and a full build in a new project with the same source give the same files. -/
theorem exP_ranked : Ranked exP := ⟨id, by decide⟩

def exW4 : W := { exW0 with content := files [(1, 4)] }

def exE4 : S D := (updateRun exP true exC (allBut []) exW4 exM0).get (by decide)

example : ∀ p, exE3.db.content p = exE4.db.content p := by
  refine c35_incremental_is_full_build exP_ok exP_ranked (.step exW1_history (.edit _)) exE3_updating (by decide)
    (w' := exW4) (.init (by unfold Init; decide))
    (updateRun_updating exP true (by decide) (fun _ => rfl) (sees_allBut (by simp)) (Option.some_get _).symm)
    (by decide) ?_
  intro p hp
  have h3 : p ≠ 3 := by rintro rfl; revert hp; decide
  have h5 : p ≠ 5 := by rintro rfl; revert hp; decide
  simp only [exW4, files, List.lookup_cons, beq_false_of_ne h3, beq_false_of_ne h5]

/-! #### What goes wrong with ^o

The output 3 is deleted and file 1 changes to 3.  The update runs command 2, which writes 1 into file 3 and
then fails; the file stays.  Then file 1 changes to 2: command 2 succeeds and writes 1 as well, so 4 is not
run, although it has never seen anything but 0. -/

def exL1 : W := { commitOf exE1 with content := files [(1, 3), (5, 10)] }

def exLU1 : Option (S D) :=
  updateRun exP false exC (allBut [5]) exL1 (oneByOne [(1, .ok), (2, .fail (files [(3, 1)]))])

theorem exLU1_some : exLU1.isSome = true := by decide

def exLE1 : S D := exLU1.get exLU1_some

def exL2 : W := { commitOf exLE1 with content := files [(1, 2), (3, 1), (5, 10)] }

def exLU2 : Option (S D) := updateRun exP false exC (allBut [3, 5]) exL2 exM0

theorem exLU2_some : exLU2.isSome = true := by decide

def exLE2 : S D := exLU2.get exLU2_some

theorem history_weaken {w : W} (h : History π true w) : History π false w := by
  induction h with
  | init h => exact .init h
  | step _ hs ih =>
    refine .step ih ?_
    cases hs with
    | edit c => exact .edit c
    | scan T h => exact .scan T h
    | update h hd hr => exact .update (running_false h) hd hr
    | crash h hc => exact .crash (running_false h) hc

/-- C35 is false if a failing ^o command may leave an output where there was none: a history of edits and
updates after which a successful update leaves file 5 with an outdated content. -/
theorem c35_false_with_leftovers : ∃ (π : Proj) (c : Cfg) (T : Nat → Bool) (w : W) (e : S D), π.Ok ∧
    History π false w ∧ Updating π false c T w e ∧ e.pc = .done true ∧ ¬ UpToDate π e.db.content := by
  refine ⟨exP, exC, allBut [3, 5], exL2, exLE2, exP_ok, ?_, ?_, by decide, ?_⟩
  · refine .step (.step (.step (history_weaken exW1_history) (.edit _)) (.update (w := exL1) (e := exLE1)
      (c := exC) (T := allBut [5]) (ok := false) ?_ (by decide) (by decide))) (.edit _)
    exact updateRun_updating exP false (by decide) (fun _ => rfl) (sees_allBut (by decide))
      (Option.some_get exLU1_some).symm
  · exact updateRun_updating exP false (by decide) (fun _ => rfl) (sees_allBut (by decide))
      (Option.some_get exLU2_some).symm
  · intro h
    have := ((h 4 (by decide) rfl).2 5 (by decide)).2
    revert this
    decide

/-- After the failed update the command is still scheduled (C34). -/
example : exLE1.pc = .done false ∧ exLE1.db.db.modify 2 = true := by decide

/-- C35 without ^o: the same project with the flag taken away. -/
def exQ : Proj := { exP with optO := fun _ => false }

theorem exQ_ok : exQ.Ok :=
  ⟨exP_ok.root, exP_ok.nodup, exP_ok.rootNoCmd, exP_ok.outsIn, exP_ok.unique, exP_ok.stickyIn,
    exP_ok.stickyFile, exP_ok.readsIn, exP_ok.det⟩

example : UpToDate exQ ((updateRun exQ false exC (allBut []) exW0 exM0).get (by decide)).db.content :=
  c35_without_o exQ_ok (fun _ => rfl) (.init (w := exW0) (by unfold Init; decide))
    (updateRun_updating exQ false (c := exC) (T := allBut []) (by decide) (fun _ => rfl) (sees_allBut (by simp))
      (Option.some_get _).symm) (by decide)

end Tup.Update
