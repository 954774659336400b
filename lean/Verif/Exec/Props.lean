import Verif.Exec.Lemmas

/-! Properties of the parallel executor: C29 (second half), C30, C31, C32, C33. -/

namespace Tup.Exec

variable {D : Type} {c : Cfg} {w : Work D} {g0 : Graph} {root : Nat} {rest : List Nat} {db0 : D}

/-! ### Concrete executions used to show that the hypotheses are met

`exG`: 0 is the root; 1 and 2 are ready at once, 3 needs both, 4 needs 3; 2 is a transient file. -/

def exG : Graph :=
  { nodeList := [0, 1, 2, 3, 4], plist := [], edges := [(0, 1), (0, 2), (1, 3), (2, 3), (3, 4)],
    proc := fun _ => false, trans := fun n => if n = 2 then .processing else .none }

def exC : Cfg := { keepGoing := true, jobs := 2, expanded := fun _ => true }

theorem exG_wf : WF exG 0 [1, 2, 3, 4] where
  nodes := rfl
  nodup := by decide
  plist := rfl
  noproc := by intro _ _; rfl
  src := by intro a b h; simp only [exG, List.mem_cons, Prod.mk.injEq, List.not_mem_nil] at h ⊢; grind
  dst := by intro a b h; simp only [exG, List.mem_cons, Prod.mk.injEq, List.not_mem_nil] at h ⊢; grind
  reach := by
    intro b h
    simp only [List.mem_cons, List.not_mem_nil, or_false] at h
    rcases h with rfl | rfl | rfl | rfl
    · exact ⟨0, by decide⟩
    · exact ⟨0, by decide⟩
    · exact ⟨1, by decide⟩
    · exact ⟨3, by decide⟩
  rootTrans := rfl
  notDelete := by intro n; simp only [exG]; split <;> simp
  transEdge := by
    intro a b h
    simp only [exG, List.mem_cons, Prod.mk.injEq, List.not_mem_nil, or_false] at h ⊢
    rcases h with ⟨rfl, rfl⟩ | ⟨rfl, rfl⟩ | ⟨rfl, rfl⟩ | ⟨rfl, rfl⟩ | ⟨rfl, rfl⟩ <;> simp

theorem exG_acyclic : Acyclic exG := by
  have h : ∀ a b, Downstream exG a b → a < b := by
    intro a b h
    have hd : ∀ a b, Dep exG a b → a < b := by
      intro a b h
      simp only [Dep, exG, List.mem_cons, Prod.mk.injEq, List.not_mem_nil, or_false] at h
      omega
    induction h with
    | one h => exact hd _ _ h
    | tail _ h ih => have := hd _ _ h; omega
  intro n hn
  have := h n n hn
  omega

/-- A run on two workers: 1 and 2 run at the same time, then 3, then 4 and the deletion of 2. -/
def exActs : List Act :=
  [.main, .main, .main, .finish 2 true, .finish 1 true, .main, .main, .main, .main, .main, .main,
   .finish 3 true, .main, .main, .main, .main, .main, .finish 4 true, .finish 2 true, .main, .main, .main,
   .main]

/-- The example run gets through, with the jobs started in this order (latest first). -/
theorem exRun_ok : ∃ s, Running exC anyWork exG () s ∧ s.pc = .done true ∧ s.started = [4, 3, 1, 2] ∧
    s.cleaned = [2] ∧ s.dead = false ∧ s.failed = 0 :=
  ⟨_, runFrom_running exActs rfl, rfl, rfl, rfl, rfl, rfl⟩

/-- A run where job 1 fails under keep-going: 3 and 4 are never started, 2 is. -/
theorem exRun_fail : ∃ s, Running exC anyWork exG () s ∧ s.pc = .done false ∧ s.started = [1, 2] ∧
    s.failedL = [1] ∧ s.dead = false :=
  ⟨_, runFrom_running [.main, .main, .main, .finish 2 true, .finish 1 false, .main, .main, .main, .main,
    .main, .main] rfl, rfl, rfl, rfl, rfl⟩

/-! ### C30: order, and at most once -/

/-- C30. At the moment a job is started, every job it depends on has run, succeeded and been collected. -/
theorem c30_dependencies_done_first (hj : 0 < c.jobs) (hwf : WF g0 root rest) {s s' : S D}
    (hs : Running c w g0 db0 s) (hst : Step c w s s') {a b : Nat}
    (hb : b ∉ s.started) (hb' : b ∈ s'.started) (hd : Dep g0 a b) (ha : HasJob c rest a) :
    JobDone s a := by
  obtain ⟨hi, hr⟩ := running_inv hj hwf hs
  have hi' := step_inv hwf hi hr hst
  -- the step must be the main thread starting `b`
  have hpop : s'.popped = s.popped ∧ b ∉ s.popped := by
    cases hst with
    | finish _ _ => exact absurd hb' hb
    | die _ => exact absurd hb' hb
    | main hm =>
      unfold mainStep at hm
      repeat' split at hm
      all_goals first
        | (cases hm; done)
        | (injection hm with hm; subst hm; exact absurd hb' hb)
        | skip
      rename_i n ps hpl _ _ _ _ ht
      injection hm with hm; subst hm
      refine ⟨rfl, ?_⟩
      rcases List.mem_cons.1 hb' with rfl | h1
      · intro hc
        exact ht (hi.gi.popLive b hc (by simp [hpl]))
      · exact absurd h1 hb
  have hap : a ∈ s.popped := by
    rw [← hpop.1]; exact hi'.startedOrder b hb' a hd
  have hacl : a ∉ s.cleaned := fun hc => hpop.2 (hi.cleanedOrder a hc b hd)
  have hast : a ∈ s.started := by
    rcases hi.poppedHow a hap with h1 | h1 | h1
    · have : root ∉ rest := (List.nodup_cons.1 hwf.nodup).1
      exact absurd (h1 ▸ ha.1) this
    · exact h1
    · rw [ha.2] at h1; cases h1
  refine ⟨hast, ?_, ?_, ?_⟩
  · intro hc
    have h1 := hi.gi.popLive a hap (by simp [hc])
    exact hacl ((hi.heldStart a (by simp [hc])).2 h1)
  · intro ok hc
    have hm : a ∈ s.running ++ s.fin.map (·.1) := by
      rw [List.mem_append]; right; exact List.mem_map.2 ⟨(a, ok), hc, rfl⟩
    have h1 := hi.gi.popLive a hap (by
      rw [List.mem_append]; right; exact hm)
    exact hacl ((hi.heldStart a hm).2 h1)
  · intro hc
    have h1 := hi.gi.popLive a hap (by simp [(hi.gi.fail a hc).1])
    exact hacl ((hi.failHow a hc).2 h1)

/-- C30. No job is started twice, and only nodes of the graph are started. -/
theorem c30_at_most_once (hj : 0 < c.jobs) (hwf : WF g0 root rest) {s : S D}
    (hs : Running c w g0 db0 s) :
    s.started.Nodup ∧ ∀ n ∈ s.started, HasJob c rest n := by
  obtain ⟨hi, _⟩ := running_inv hj hwf hs
  exact ⟨hi.startedNodup, fun n hn => ⟨hi.startedSub n hn, hi.startedExp n hn⟩⟩

/-- C30, for transient files: such a file is deleted at most once, and only when every job that uses it
has run, succeeded and been collected. -/
theorem c30_transient_deleted_last (hj : 0 < c.jobs) (hwf : WF g0 root rest) {s : S D}
    (hs : Running c w g0 db0 s) :
    s.cleaned.Nodup ∧
    ∀ n ∈ s.cleaned, g0.trans n = .processing ∧ ∀ d, Dep g0 n d → HasJob c rest d → JobDone s d := by
  obtain ⟨hi, _⟩ := running_inv hj hwf hs
  refine ⟨hi.cleanedNodup, fun n hn => ?_⟩
  have htn := hi.cleanedTr n hn
  have hproc : g0.trans n = .processing := by
    rcases hi.gi.tr n with h1 | h1
    · rw [htn] at h1; exact absurd h1.symm (hwf.notDelete n)
    · exact h1.1
  refine ⟨hproc, fun d hd hjob => ?_⟩
  have hdp := hi.cleanedOrder n hn d hd
  have hdt : s.g.trans d ≠ .delete := by
    intro hc
    have h1 := hi.gi.tr d
    rw [hc, hwf.transEdge n d hd hproc] at h1
    rcases h1 with h1 | h1
    · cases h1
    · cases h1.1
  have hnl : d ∉ s.g.nodeList ++ s.g.plist ++ (s.running ++ s.fin.map (·.1)) := fun hc =>
    hdt (hi.gi.popLive d hdp hc)
  refine ⟨?_, ?_, ?_, ?_⟩
  · rcases hi.poppedHow d hdp with h1 | h1 | h1
    · have : root ∉ rest := (List.nodup_cons.1 hwf.nodup).1
      exact absurd (h1 ▸ hjob.1) this
    · exact h1
    · rw [hjob.2] at h1; cases h1
  · intro hc; exact hnl (by simp [hc])
  · intro ok hc
    apply hnl
    rw [List.mem_append]; right
    rw [List.mem_append]; right
    exact List.mem_map.2 ⟨(d, ok), hc, rfl⟩
  · intro hc; exact hnl (by simp [(hi.gi.fail d hc).1])

/-- the hypotheses hold: in the example run job 3 is started while 1 and 2 are done -/
example : ∃ s s', Running exC anyWork exG () s ∧ Step exC anyWork s s' ∧ 3 ∉ s.started ∧
    3 ∈ s'.started ∧ Dep exG 2 3 ∧ HasJob exC [1, 2, 3, 4] 2 :=
  ⟨_, _, runFrom_running (exActs.take 10) rfl, .main (s' := (runFrom exC exG (exActs.take 11)).get rfl) rfl,
    by decide, by decide, by decide, by decide, rfl⟩

/-! ### C31: job limit -/

/-- C31. There are never more jobs handed out than workers, and the main thread never needs a worker when
there is none (nor hits an internal list error). -/
theorem c31_job_limit (hj : 0 < c.jobs) (hwf : WF g0 root rest) {s : S D}
    (hs : Running c w g0 db0 s) :
    s.running.length + s.fin.length ≤ c.jobs ∧ s.pc ≠ .abort := by
  obtain ⟨hi, _⟩ := running_inv hj hwf hs
  exact ⟨hi.le, hi.noAbort⟩

/-- C31. Whatever number of jobs is asked for, the number used is between 1 and 65535, and it is the
number asked for when that is already in the range. -/
theorem c31_jobs_clamped (n : Int) :
    0 < clampJobs n ∧ clampJobs n ≤ 65535 ∧ (1 ≤ n → n ≤ 65535 → (clampJobs n : Int) = n) ∧
      (n < 1 → clampJobs n = 1) ∧ (65535 < n → clampJobs n = 65535) := by
  unfold clampJobs
  simp only
  split <;> split <;> omega

/-- the limit is reached: two jobs at once in the example run -/
example : ∃ s, Running exC anyWork exG () s ∧ s.running.length + s.fin.length = exC.jobs :=
  ⟨_, runFrom_running (exActs.take 3) rfl, rfl⟩

/-! ### C32: completion -/

/-- C32. No execution is longer than a bound fixed by the graph it starts with. -/
theorem c32_terminates (hj : 0 < c.jobs) (hwf : WF g0 root rest) {s0 : S D}
    (h0 : start g0 db0 = some s0) :
    ∃ bound, ∀ k s, ReachN c w s0 k s → k ≤ bound := by
  obtain ⟨s1, h1, hi, hp, _⟩ := start_inv (D := D) hj hwf db0
  rw [h0] at h1; injection h1 with h1; subst h1
  refine ⟨measure (root :: rest) s0, ?_⟩
  have key : ∀ k s, ReachN c w s0 k s →
      Inv c g0 root rest s ∧ root ∈ s.popped ∧
        k + measure (root :: rest) s ≤ measure (root :: rest) s0 := by
    intro k s h
    induction h with
    | refl => exact ⟨hi, by rw [hp]; simp, by omega⟩
    | tail _ hst ih =>
      obtain ⟨ih1, ih2, ih3⟩ := ih
      have := step_measure ih1 hst
      exact ⟨step_inv hwf ih1 ih2 hst, (step_mono hst).1 ih2, by omega⟩
  intro k s h
  have := (key k s h).2.2
  omega

/-- C32. The executor never gets stuck: until it returns, the main thread can go on, or it waits for a
job that is still running (and any job can finish). -/
theorem c32_no_deadlock (hj : 0 < c.jobs) (hwf : WF g0 root rest)
    (hw : ∀ db g n, ∃ db' ok, w db g n db' ok) {s : S D}
    (hs : Running c w g0 db0 s) :
    (∃ ok, s.pc = .done ok) ∨ (∃ s', mainStep c s = some s') ∨
      ((∃ n, n ∈ s.running) ∧ ∃ s', Step c w s s' ∧ s'.fin ≠ []) := by
  obtain ⟨hi, _⟩ := running_inv hj hwf hs
  cases hpc : s.pc with
  | done ok => exact Or.inl ⟨ok, rfl⟩
  | abort => exact absurd hpc hi.noAbort
  | loop =>
    right; left
    unfold mainStep
    rw [hpc]
    simp only
    repeat' split
    all_goals exact ⟨_, rfl⟩
  | check =>
    right
    by_cases hcond : (s.active ≥ c.jobs ||
        ((s.g.plist = [] || s.dead || (s.failed > 0 && !c.keepGoing)) && s.active > 0)) = true
    · by_cases hfin : s.fin = []
      · right
        have hact : 0 < s.active := by
          simp only [Bool.or_eq_true, Bool.and_eq_true, decide_eq_true_eq] at hcond
          omega
        have hrun : s.running ≠ [] := by
          intro hc
          simp [S.active, hfin, hc] at hact
        obtain ⟨n, hn⟩ := List.exists_mem_of_ne_nil _ hrun
        obtain ⟨db', ok, hwk⟩ := hw s.db s.g n
        exact ⟨⟨n, hn⟩, _, .finish hn hwk, by simp⟩
      · left
        unfold mainStep
        rw [hpc]
        simp only
        rw [if_pos hcond]
        split
        · rename_i h1; exact absurd h1 hfin
        · repeat' split
          all_goals exact ⟨_, rfl⟩
    · left
      unfold mainStep
      rw [hpc]
      simp only
      rw [if_neg hcond]
      exact ⟨_, rfl⟩

/-- C32. When the executor returns on an acyclic graph and no job failed and no signal arrived, it
returns success and every job has been done. -/
theorem c32_failure_free_completes (hj : 0 < c.jobs) (hwf : WF g0 root rest) (hac : Acyclic g0)
    {s : S D} (hs : Running c w g0 db0 s) {ok : Bool} (hd : s.pc = .done ok)
    (hsig : s.dead = false) (hf : s.failed = 0) :
    ok = true ∧ ∀ n, HasJob c rest n → JobDone s n := by
  obtain ⟨hi, _⟩ := running_inv hj hwf hs
  obtain ⟨ha, hpl, hok⟩ := hi.doneIdle ok hd hsig
  have hpl : s.g.plist = [] := by
    rcases hpl with h1 | h1
    · exact h1
    · omega
  have hfl : s.failedL = [] := List.length_eq_zero_iff.1 (by rw [← hi.failCount]; exact hf)
  have hrun : s.running = [] ∧ s.fin = [] := by
    simp only [S.active] at ha
    exact ⟨List.length_eq_zero_iff.1 (by omega), List.length_eq_zero_iff.1 (by omega)⟩
  have hnp : ∀ n ∈ s.g.nodeList, n ∈ s.popped := by
    intro n hn
    by_cases h1 : n ∈ s.popped
    · exact h1
    · obtain ⟨f, h2, _⟩ := stuck_failed hac hi ha hpl n hn h1
      rw [hfl] at h2; simp at h2
  have hnl : s.g.nodeList = [] := by
    cases hl : s.g.nodeList with
    | nil => rfl
    | cons n ns =>
      exfalso
      have hn : n ∈ s.g.nodeList := by rw [hl]; simp
      rcases hi.gi.wait n hn with h1 | ⟨a, h1⟩
      · rw [hfl] at h1; simp at h1
      · have hal : a ∈ s.g.nodeList := by
          have := hi.gi.src a n h1
          simpa [hpl, hrun.1, hrun.2] using this
        have h2 := hi.gi.popLive a (hnp a hal) (by simp [hal])
        exact (hi.gi.delPop a h2).2 n h1
  refine ⟨hok hf hnl hpl, fun n hn => ?_⟩
  have hp : n ∈ s.popped := by
    rcases hi.gi.cover n (List.mem_cons_of_mem _ hn.1) with h1 | h1
    · simp [hnl, hpl, hrun.1, hrun.2] at h1
    · exact h1
  refine ⟨?_, by rw [hrun.1]; simp, by rw [hrun.2]; simp, by rw [hfl]; simp⟩
  rcases hi.poppedHow n hp with h1 | h1 | h1
  · have : root ∉ rest := (List.nodup_cons.1 hwf.nodup).1
    exact absurd (h1 ▸ hn.1) this
  · exact h1
  · rw [hn.2] at h1; cases h1

example : ∃ s, Running exC anyWork exG () s ∧ s.pc = .done true ∧ s.dead = false ∧ s.failed = 0 ∧
    HasJob exC [1, 2, 3, 4] 3 := by
  obtain ⟨s, h1, h2, _, _, h3, h4⟩ := exRun_ok
  exact ⟨s, h1, h2, h3, h4, by decide, rfl⟩

/-! ### C33: failures -/

/-- C33. Success is only reported when every job has been done and none failed. -/
theorem c33_success_means_all_done (hj : 0 < c.jobs) (hwf : WF g0 root rest)
    {s : S D} (hs : Running c w g0 db0 s) (hd : s.pc = .done true) :
    s.failed = 0 ∧ ∀ n, HasJob c rest n → JobDone s n := by
  obtain ⟨hi, _⟩ := running_inv hj hwf hs
  obtain ⟨hf, hnl, hpl, ha⟩ := hi.doneTrue hd
  have hfl : s.failedL = [] := List.length_eq_zero_iff.1 (by rw [← hi.failCount]; exact hf)
  have hrun : s.running = [] ∧ s.fin = [] := by
    simp only [S.active] at ha
    exact ⟨List.length_eq_zero_iff.1 (by omega), List.length_eq_zero_iff.1 (by omega)⟩
  refine ⟨hf, fun n hn => ?_⟩
  have hp : n ∈ s.popped := by
    rcases hi.gi.cover n (List.mem_cons_of_mem _ hn.1) with h1 | h1
    · simp [hnl, hpl, hrun.1, hrun.2] at h1
    · exact h1
  refine ⟨?_, by rw [hrun.1]; simp, by rw [hrun.2]; simp, by rw [hfl]; simp⟩
  rcases hi.poppedHow n hp with h1 | h1 | h1
  · have : root ∉ rest := (List.nodup_cons.1 hwf.nodup).1
    exact absurd (h1 ▸ hn.1) this
  · exact h1
  · rw [hn.2] at h1; cases h1

/-- C33. Nothing downstream of a job that failed is ever started.  (`f ∉ s.cleaned`: it was the job that
failed, not the later deletion of a transient file.) -/
theorem c33_downstream_of_failure_not_started (hj : 0 < c.jobs) (hwf : WF g0 root rest)
    {s : S D} (hs : Running c w g0 db0 s) {f n : Nat} (hf : f ∈ s.failedL) (hc : f ∉ s.cleaned)
    (hd : Downstream g0 f n) : n ∉ s.started := by
  obtain ⟨hi, _⟩ := running_inv hj hwf hs
  have hfp : f ∉ s.popped := by
    intro hp
    have h1 := hi.gi.popLive f hp (by simp [(hi.gi.fail f hf).1])
    exact hc ((hi.failHow f hf).2 h1)
  have key : ∀ m, Downstream g0 f m → m ∉ s.started ∧ m ∉ s.popped := by
    intro m hm
    induction hm with
    | one h =>
      exact ⟨fun h1 => hfp (hi.startedOrder _ h1 _ h), fun h1 => hfp (hi.gi.popOrder _ h1 _ h)⟩
    | tail _ h ih =>
      exact ⟨fun h1 => ih.2 (hi.startedOrder _ h1 _ h), fun h1 => ih.2 (hi.gi.popOrder _ h1 _ h)⟩
  exact (key n hd).1

/-- C33. With keep-going, when the executor returns (no signal), every job has been done, has failed, or
is downstream of one that failed. -/
theorem c33_keep_going_does_the_rest (hj : 0 < c.jobs) (hwf : WF g0 root rest) (hac : Acyclic g0)
    (hk : c.keepGoing = true) {s : S D} (hs : Running c w g0 db0 s) {ok : Bool}
    (hd : s.pc = .done ok) (hsig : s.dead = false) {n : Nat} (hn : HasJob c rest n) :
    JobDone s n ∨ n ∈ s.failedL ∨ ∃ f ∈ s.failedL, Downstream g0 f n := by
  obtain ⟨hi, _⟩ := running_inv hj hwf hs
  obtain ⟨ha, hpl, _⟩ := hi.doneIdle ok hd hsig
  have hpl : s.g.plist = [] := by
    rcases hpl with h1 | h1
    · exact h1
    · rw [hk] at h1; cases h1.2
  have hrun : s.running = [] ∧ s.fin = [] := by
    simp only [S.active] at ha
    exact ⟨List.length_eq_zero_iff.1 (by omega), List.length_eq_zero_iff.1 (by omega)⟩
  by_cases hp : n ∈ s.popped
  · by_cases hfn : n ∈ s.failedL
    · exact Or.inr (Or.inl hfn)
    · left
      refine ⟨?_, by rw [hrun.1]; simp, by rw [hrun.2]; simp, hfn⟩
      rcases hi.poppedHow n hp with h1 | h1 | h1
      · have : root ∉ rest := (List.nodup_cons.1 hwf.nodup).1
        exact absurd (h1 ▸ hn.1) this
      · exact h1
      · rw [hn.2] at h1; cases h1
  · right
    have hnl : n ∈ s.g.nodeList := by
      rcases hi.gi.cover n (List.mem_cons_of_mem _ hn.1) with h1 | h1
      · simpa [hpl, hrun.1, hrun.2] using h1
      · exact absurd h1 hp
    obtain ⟨f, h1, _, h2⟩ := stuck_failed hac hi ha hpl n hnl hp
    rcases h2 with rfl | h2
    · exact Or.inl h1
    · exact Or.inr ⟨f, h1, h2⟩

example : ∃ s, Running exC anyWork exG () s ∧ s.pc = .done false ∧ s.dead = false ∧ 1 ∈ s.failedL ∧
    Downstream exG 1 4 := by
  obtain ⟨s, h1, h2, _, h3, h4⟩ := exRun_fail
  exact ⟨s, h1, h2, h4, by simp [h3], .tail (.one (b := 3) (by decide)) (by decide)⟩

/-- C33. Once a failure has been seen without keep-going, or a signal has arrived, no further job is
started. -/
theorem c33_no_start_after_stop {s s' : S D}
    (hstop : s.dead = true ∨ (0 < s.failed ∧ c.keepGoing = false)) (hr : Reach c w s s') :
    s'.started = s.started ∧ s'.cleaned = s.cleaned := by
  have key : (s'.dead = true ∨ (0 < s'.failed ∧ c.keepGoing = false)) ∧
      s'.started = s.started ∧ s'.cleaned = s.cleaned := by
    induction hr with
    | refl => exact ⟨hstop, rfl, rfl⟩
    | @tail s1 s2 _ hst ih =>
      obtain ⟨h1, h2, h3⟩ := ih
      cases hst with
      | finish _ _ => exact ⟨h1, h2, h3⟩
      | die _ => exact ⟨Or.inl rfl, h2, h3⟩
      | main hm =>
        have hmono := main_mono hm
        have hstop' : s2.dead = true ∨ (0 < s2.failed ∧ c.keepGoing = false) := by
          rcases h1 with h1 | h1
          · left; rw [hmono.2.2.2.2.2.1]; exact h1
          · right; exact ⟨Nat.lt_of_lt_of_le h1.1 hmono.2.2.2.2.1, h1.2⟩
        refine ⟨hstop', ?_⟩
        have hb : (s1.dead || (decide (s1.failed > 0) && !c.keepGoing)) = true := by
          rcases h1 with h1 | h1
          · simp [h1]
          · simp [h1.1, h1.2]
        unfold mainStep at hm
        repeat' split at hm
        all_goals first
          | (cases hm; done)
          | (injection hm with hm; subst hm; exact ⟨h2, h3⟩)
          | (exfalso; simp_all; done)
  exact key.2

/-- a state where a failure has been seen without keep-going is reachable with work left over -/
example : ∃ s, Running { exC with keepGoing := false } anyWork exG () s ∧ 0 < s.failed ∧
    s.running = [2] ∧ s.g.nodeList = [3, 4, 1] :=
  ⟨_, runFrom_running [.main, .main, .main, .finish 1 false, .main] rfl, by decide, rfl, rfl⟩

/-! ### C29: a cycle that was not seen while the graph was built -/

/-- C29. If the dependencies contain a cycle, no job on it or downstream of it is ever started, and the
executor never reports success. -/
theorem c29_cycle_reported (hj : 0 < c.jobs) (hwf : WF g0 root rest) {x : Nat}
    (hx : Downstream g0 x x) {s : S D} (hs : Running c w g0 db0 s) :
    x ∉ s.started ∧ (∀ n, Downstream g0 x n → n ∉ s.started) ∧ s.pc ≠ .done true := by
  obtain ⟨s0, h0, hr⟩ := hs
  obtain ⟨s1, h1, hi1, hp1, _, _, hpc1, _⟩ := start_inv (D := D) hj hwf db0
  have hs : Running c w g0 db0 s := ⟨s0, h0, hr⟩
  rw [h0] at h1; injection h1 with h1; subst h1
  have hxr : ∀ n, Downstream g0 x n → n ≠ root := by
    intro n hn e
    have hroot : root ∉ rest := (List.nodup_cons.1 hwf.nodup).1
    cases hn with
    | one h => exact hroot (e ▸ hwf.dst _ _ h)
    | tail _ h => exact hroot (e ▸ hwf.dst _ _ h)
  -- nothing downstream of x is ever popped
  have key : ∀ s, Reach c w s0 s → ∀ n, Downstream g0 x n → n ∉ s.popped := by
    intro s hr
    induction hr with
    | refl => intro n hn hc; rw [hp1] at hc; simp at hc; exact hxr n hn hc
    | @tail s1 s2 hr1 hst ih =>
      obtain ⟨hi, hrt⟩ := reach_inv hwf hi1 (by rw [hp1]; simp) hr1
      -- every node downstream of x has a predecessor downstream of x
      have hpred : ∀ n, Downstream g0 x n → ∃ a, Dep g0 a n ∧ Downstream g0 x a := by
        intro n hn
        cases hn with
        | one h => exact ⟨x, h, hx⟩
        | tail h1 h => exact ⟨_, h, h1⟩
      intro n hn hc
      cases hst with
      | finish _ _ => exact ih n hn hc
      | die _ => exact ih n hn hc
      | main hm =>
        have hi2 := main_inv hwf hi hrt hm
        -- the first such node popped has an unpopped predecessor
        obtain ⟨a, ha, hxa⟩ := hpred n hn
        have h3 : ∀ m, m ∈ s2.popped → m ∈ s1.popped ∨ (s2.popped = m :: s1.popped) := by
          intro m hmem
          unfold mainStep at hm
          repeat' split at hm
          all_goals first
            | (cases hm; done)
            | (injection hm with hm; subst hm; left; exact hmem)
            | (injection hm with hm; subst hm
               rcases List.mem_cons.1 hmem with rfl | h4
               · right; rfl
               · left; exact h4)
        have han : a ∈ s2.popped := hi2.gi.popOrder n hc a ha
        rcases h3 n hc with h4 | h4
        · exact ih n hn h4
        · rcases h3 a han with h5 | h5
          · exact ih a hxa h5
          · -- a = n: a self loop, n would still have an incoming edge when popped
            rw [h4] at h5
            injection h5 with h5 _
            subst h5
            -- n is not popped before, so (n, n) is still an edge of s1
            have h6 : (n, n) ∈ s1.g.edges := by
              rcases hi.gi.hist n n ha with h7 | h7
              · exact h7
              · exact absurd h7 (ih n hn)
            have hnl := hi.gi.dst n n h6
            have hne : s2.popped ≠ s1.popped := by rw [h4]; simp
            unfold mainStep at hm
            repeat' split at hm
            all_goals first
              | (cases hm; done)
              | (injection hm with hm; subst hm; exact hne rfl)
              | skip
            · rename_i m ps hpl _ hinc _ _ _ _
              injection hm with hm; subst hm
              injection h4 with h4 _
              subst h4
              exact hinc (hasIncoming_iff.2 ⟨_, h6⟩)
            · rename_i _ _ m ok fin' hfin _ _ _ _
              injection hm with hm; subst hm
              injection h4 with h4 _
              subst h4
              exact hi.gi.heldEdge _ (by rw [hfin]; simp) _ h6
  obtain ⟨hi, hrt⟩ := reach_inv hwf hi1 (by rw [hp1]; simp) hr
  have hpred : ∀ n, Downstream g0 x n → ∃ a, Dep g0 a n ∧ Downstream g0 x a := by
    intro n hn
    cases hn with
    | one h => exact ⟨x, h, hx⟩
    | tail h1 h => exact ⟨_, h, h1⟩
  have hns : ∀ n, Downstream g0 x n → n ∉ s.started := by
    intro n hn hc
    obtain ⟨a, ha, hxa⟩ := hpred n hn
    exact key s hr a hxa (hi.startedOrder n hc a ha)
  refine ⟨hns x hx, hns, ?_⟩
  intro hd
  obtain ⟨_, hnl, hpl, hact⟩ := hi.doneTrue hd
  have hrun : s.running = [] ∧ s.fin = [] := by
    simp only [S.active] at hact
    exact ⟨List.length_eq_zero_iff.1 (by omega), List.length_eq_zero_iff.1 (by omega)⟩
  have hxm : x ∈ root :: rest := by
    cases hx with
    | one h => exact hwf.src _ _ h
    | tail h1 h => exact List.mem_cons_of_mem _ (hwf.dst _ _ h)
  rcases hi.gi.cover x hxm with h1 | h1
  · simp [hnl, hpl, hrun.1, hrun.2] at h1
  · exact key s hr x hx h1

/-- a graph with a cycle that meets the hypotheses: 1 → 2 → 1, both reachable from the root -/
example : ∃ g : Graph, WF g 0 [1, 2] ∧ Downstream g 1 1 := by
  refine ⟨{ nodeList := [0, 1, 2], plist := [], edges := [(0, 1), (1, 2), (2, 1)],
            proc := fun _ => false, trans := fun _ => .none }, ?_, ?_⟩
  · constructor
    · rfl
    · decide
    · rfl
    · intro _ _; rfl
    · intro a b h; simp only [List.mem_cons, Prod.mk.injEq, List.not_mem_nil] at h ⊢; grind
    · intro a b h; simp only [List.mem_cons, Prod.mk.injEq, List.not_mem_nil] at h ⊢; grind
    · intro b h
      simp only [List.mem_cons, List.not_mem_nil, or_false] at h
      rcases h with rfl | rfl
      · exact ⟨0, by decide⟩
      · exact ⟨1, by decide⟩
    · rfl
    · intro n; simp
    · intro a b _ h; simp at h
  · exact .tail (.one (b := 2) (by simp [Dep])) (by simp [Dep])

end Tup.Exec
