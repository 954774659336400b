import Verif.Locks.Progress

/-! C44: one user of the database at a time, and no deadlock. -/

namespace Tup.Locks

/-- At most one process uses the database, whatever anybody does: any number of monitors, started and stopped at any time, and processes that are
killed anywhere. -/
theorem c44_exclusion {s : State} (h : Reach s) {i j : Nat} (hi : Uses s i) (hj : Uses s j) : i = j := by
  have ho := reach_owners h
  refine ho.objOne ?_ ?_
  · rcases hi with hi | hi | hi | hi <;> rw [hi] <;> rfl
  · rcases hj with hj | hj | hj | hj <;> rw [hj] <;> rfl

/-- A process other than the monitor gets the database from the monitor: no other process had it in between.  So the monitor has had the database
between any two others. -/
theorem c44_handover {s s' : State} (h : CalmReach s) {m j : Nat} (hm : IsMonitor s m) (ha : s.again m = false)
    (hj : s.pc j = .wantObj) (hg : act s j .go = some s') : Uses s' j ∧ s.hist.head? = some m := by
  have hi := calm_inv h
  simp only [act] at hg
  unfold go at hg
  simp only [hj] at hg
  split at hg <;> cases hg
  rename_i hobj
  refine ⟨.inl (by simp [upd]), ?_⟩
  have hsy := hi.sync m ha
  have hown : ownsObj (s.pc m) = false := by
    have := hi.own.obj m
    rw [hobj] at this
    simpa using this
  have hsh : ∀ k, ownsSh (s.pc k) = true → k = j := fun k hk => hi.own.shOne hk (by rw [hj]; rfl)
  unfold IsMonitor at hm
  simp only [ha, List.mem_cons, List.not_mem_nil, or_false, Bool.false_eq_true, false_or] at hm
  unfold Sync at hsy
  rcases hm with hp | hp | hp | hp | hp | hp | hp | hp | hp <;> rw [hp] at hsy hown <;> simp only [ownsObj, Bool.true_eq_false] at hown
  · obtain ⟨_, k, hk⟩ := hsy
    have := hsh k (by rw [hk]; rfl)
    rw [this, hj] at hk; cases hk
  · rcases hsy with ⟨_, k, hk | hk | hk⟩ | ⟨_, k, hk⟩
    · have := hsh k (by rw [hk]; rfl)
      rw [this, hj] at hk; cases hk
    · have := hsh k (by rw [hk]; rfl)
      rw [this, hj] at hk; cases hk
    · exact hk.2
    · have := hsh k (by rw [hk]; rfl)
      rw [this, hj] at hk; cases hk
  · obtain ⟨_, k, hk⟩ := hsy
    have := hsh k (by rw [hk]; rfl)
    rw [this, hj] at hk; cases hk

/-- Who gets the database is recorded. -/
theorem c44_recorded {s s' : State} {i : Nat} {m : Move} (ha : act s i m = some s') :
    s'.hist = s.hist ∨ s'.hist = i :: s.hist ∧ s.obj = none ∧ s'.obj = some i := by
  cases m with
  | go =>
    simp only [act] at ha
    unfold go at ha
    cases hp : s.pc i <;> simp only [hp] at ha <;> (repeat' split at ha) <;> cases ha <;> simp_all
  | start => simp only [act] at ha; split at ha <;> cases ha; exact .inl rfl
  | monitor => simp only [act] at ha; split at ha <;> cases ha; exact .inl rfl
  | fork c => simp only [act] at ha; split at ha <;> cases ha; exact .inl rfl
  | stop => simp only [act] at ha; split at ha <;> cases ha <;> exact .inl rfl
  | retry => simp only [act] at ha; split at ha <;> cases ha; exact .inl rfl
  | kill => simp only [act] at ha; cases ha; exact .inl rfl

/-- No deadlock: unless all is done, some process can go on. -/
theorem c44_progress {s : State} (h : CalmReach s) (hq : ¬ Quiet s) : ∃ i s', act s i .go = some s' := by
  by_cases hs : ∃ i s', act s i .go = some s'
  · exact hs
  · refine absurd (stuck_quiet (calm_inv h) fun i => ?_) hq
    cases hg : go s i with
    | none => rfl
    | some s' => exact absurd ⟨i, s', hg⟩ hs

/-- Whoever goes first: after at most so many steps no process can go on, and then all is done.  So every process that was started gets the
database, and exits. -/
theorem c44_bounded {s : State} (h : CalmReach s) :
    ∃ n, ∀ k s', Runs k s s' → k ≤ n ∧ ((∀ i, act s' i .go = none) → Quiet s') := by
  obtain ⟨n, hn⟩ := calm_idle h
  refine ⟨left s n, fun k s' hr => ⟨?_, fun hs => stuck_quiet (calm_inv (runs_calm hr h)) hs⟩⟩
  have := runs_left hr (calm_inv h) hn
  omega

theorem c44_finish {s : State} (h : CalmReach s) : ∃ k s', Runs k s s' ∧ Quiet s' := by
  obtain ⟨n, hn⟩ := calm_idle h
  exact finish _ (calm_inv h) hn (Nat.le_refl _)

/-! Some moves after another, for the cases below. -/

def play : State → List (Nat × Move) → Option State
  | s, [] => some s
  | s, (i, m) :: l => match act s i m with
    | some s' => play s' l
    | none => none

theorem play_reach : ∀ {l : List (Nat × Move)} {s s' : State}, Reach s → play s l = some s' → Reach s'
  | [], s, s', h, hp => by cases hp; exact h
  | (i, m) :: l, s, s', h, hp => by
    simp only [play] at hp
    split at hp
    · exact play_reach (h.step m (by assumption)) hp
    · cases hp

/-- The next step `n` times. -/
def gos (i n : Nat) : List (Nat × Move) := List.replicate n (i, .go)

/-- Process 0 becomes a monitor in the foreground. -/
def boot : List (Nat × Move) := [(0, .start)] ++ gos 0 3 ++ [(0, .monitor)] ++ gos 0 2

/-- Nobody but the first three ever ran, and none of these can go on. -/
def Stuck (s : State) : Prop := ∀ i, go s i = none

theorem play_idle : ∀ {l : List (Nat × Move)} {s s' : State} {n : Nat}, (∀ j, n ≤ j → s.pc j = .idle) → (∀ x ∈ l, x.1 < n) →
    (∀ x ∈ l, ∀ c, x.2 = .fork c → c < n) → play s l = some s' → ∀ j, n ≤ j → s'.pc j = .idle
  | [], s, s', n, h, _, _, hp => by cases hp; exact h
  | (i, m) :: l, s, s', n, h, hl, hf, hp => by
    simp only [play] at hp
    split at hp
    · rename_i s1 ha
      refine play_idle ?_ (fun x hx => hl x (List.mem_cons_of_mem _ hx)) (fun x hx => hf x (List.mem_cons_of_mem _ hx)) hp
      have hi : i < n := hl (i, m) (by simp)
      intro j hj
      have hji : j ≠ i := by omega
      have h' := h j hj
      cases m with
      | go =>
        simp only [act] at ha
        rw [(go_pc_other ha hji).1]; exact h'
      | start => simp only [act] at ha; split at ha <;> cases ha; simpa [upd, hji] using h'
      | monitor => simp only [act] at ha; split at ha <;> cases ha; simpa [upd, hji] using h'
      | fork c =>
        have hc : c < n := hf (i, .fork c) (by simp) c rfl
        have hjc : j ≠ c := by omega
        simp only [act] at ha; split at ha <;> cases ha; simpa [upd, hji, hjc] using h'
      | stop => simp only [act] at ha; split at ha <;> cases ha <;> simpa [upd, hji] using h'
      | retry => simp only [act] at ha; split at ha <;> cases ha; simpa [upd, hji] using h'
      | kill => simp only [act] at ha; cases ha; simpa [upd, hji] using h'
    · cases hp

/-- What the first three processes look like after some moves. -/
def look (l : List (Nat × Move)) : Option (List Pc × List Bool) :=
  match play {} l with
  | some s => some ([s.pc 0, s.pc 1, s.pc 2], [(go s 0).isNone, (go s 1).isNone, (go s 2).isNone])
  | none => none

def small (l : List (Nat × Move)) : Bool := l.all fun x => x.1 < 3 && match x.2 with | .fork c => decide (c < 3) | _ => true

theorem stuck_of_look {l : List (Nat × Move)} {p0 p1 p2 : Pc} (h : look l = some ([p0, p1, p2], [true, true, true])) (hs : small l = true) :
    ∃ s, Reach s ∧ Stuck s ∧ s.pc 0 = p0 ∧ s.pc 1 = p1 ∧ s.pc 2 = p2 := by
  unfold look at h
  split at h
  · rename_i s hp
    simp only [Option.some.injEq, Prod.mk.injEq, List.cons.injEq, and_true, Option.isNone_iff_eq_none] at h
    obtain ⟨⟨h0, h1, h2⟩, g0, g1, g2⟩ := h
    refine ⟨s, play_reach .init hp, fun i => ?_, h0, h1, h2⟩
    have hall := List.all_eq_true.1 hs
    match i with
    | 0 => exact g0
    | 1 => exact g1
    | 2 => exact g2
    | i + 3 =>
      have := play_idle (n := 3) (s := {}) (fun _ _ => rfl) (fun x hx => by have := hall x hx; simp at this; exact this.1)
        (fun x hx c hc => by have := hall x hx; rw [hc] at this; simp at this; exact this.2) hp (i + 3) (by omega)
      simp [go, this]
  · cases h

/-! Why it takes calm moves.  In each of these, nobody can ever go on, though process 2 waits for the database. -/

/-- A second monitor is started, which stops the first one: that one closes the object lock while process 2 has opened it, and the second monitor
takes this for process 2 being done. -/
theorem c44_false_with_two_monitors : ∃ s, Reach s ∧ Stuck s ∧ s.pc 0 = .idle ∧ s.pc 1 = .mOn ∧ s.pc 2 = .wantObj :=
  stuck_of_look (l := boot ++ [(1, .start)] ++ gos 1 2 ++ gos 0 3 ++ gos 1 1 ++ [(1, .monitor), (0, .stop)] ++ gos 0 1 ++ gos 1 2 ++ [(2, .start)] ++
    gos 2 2 ++ gos 1 1 ++ gos 0 4 ++ gos 1 5) (by decide +kernel) (by decide)

/-- A monitor starts over, another one is started in the meantime: the first one waits for `tri`, which the second one keeps. -/
theorem c44_false_when_starting_over : ∃ s, Reach s ∧ Stuck s ∧ s.pc 0 = .mTri ∧ s.pc 1 = .mOff ∧ s.pc 2 = .wantObj :=
  stuck_of_look (l := boot ++ [(0, .retry), (1, .start)] ++ gos 1 3 ++ [(1, .monitor)] ++ gos 1 2 ++ gos 0 2 ++ gos 1 3 ++ gos 0 4 ++ [(2, .start)] ++
    gos 2 2 ++ gos 1 1 ++ gos 0 1) (by decide +kernel) (by decide)

/-- Process 1 is killed: it loses the shared lock before it closes the object lock, so that process 2 opens the object lock first. -/
theorem c44_false_when_killed : ∃ s, Reach s ∧ Stuck s ∧ s.pc 0 = .mOn ∧ s.pc 1 = .idle ∧ s.pc 2 = .wantObj :=
  stuck_of_look (l := boot ++ [(1, .start)] ++ gos 1 2 ++ gos 0 3 ++ gos 1 1 ++ [(2, .start), (1, .kill)] ++ gos 2 2 ++ gos 0 1 ++ gos 1 1 ++ gos 0 3)
    (by decide +kernel) (by decide)

/-- A monitor in the background is stopped before its parent has seen that it has the object lock: the parent waits forever. -/
theorem c44_false_when_stopped_early : ∃ s, Reach s ∧ Stuck s ∧ s.pc 0 = .mWait ∧ s.pc 1 = .idle ∧ s.pc 2 = .wantSh :=
  stuck_of_look (l := [(0, .start)] ++ gos 0 3 ++ [(0, .fork 1)] ++ gos 1 2 ++ [(1, .stop), (2, .start)] ++ gos 1 5) (by decide +kernel) (by decide)

/-! Cases that meet the hypotheses. -/

theorem calm_go : ∀ {n i : Nat} {s s' : State}, CalmReach s → play s (gos i n) = some s' → CalmReach s'
  | 0, _, s, s', h, hp => by cases hp; exact h
  | n + 1, i, s, s', h, hp => by
    simp only [gos, List.replicate_succ, play] at hp
    split at hp
    · exact calm_go (h.step .go trivial (by assumption)) hp
    · cases hp

/-- A monitor runs, process 1 has opened the object lock, the monitor has released it, and process 2 is waiting. -/
example : ∃ s s', CalmReach s ∧ IsMonitor s 0 ∧ s.again 0 = false ∧ s.pc 1 = .wantObj ∧ s.pc 2 = .wantSh ∧ act s 1 .go = some s' ∧ ¬ Quiet s := by
  have c1 : CalmReach _ := CalmReach.init.step (i := 0) .start trivial rfl
  have c2 := calm_go (n := 3) (i := 0) c1 rfl
  have c3 : CalmReach _ := c2.step (i := 0) .monitor (fun j => by
    unfold MonitorLeft IsMonitor; simp only [upd]; split <;> simp) rfl
  have c4 := calm_go (n := 2) (i := 0) c3 rfl
  have c5 : CalmReach _ := c4.step (i := 1) .start trivial rfl
  have c6 := calm_go (n := 2) (i := 1) c5 rfl
  have c7 := calm_go (n := 3) (i := 0) c6 rfl
  have c8 : CalmReach _ := c7.step (i := 2) .start trivial rfl
  refine ⟨_, _, c8, .inr ?_, ?_, ?_, ?_, rfl, fun hq => ?_⟩
  · decide
  · rfl
  · rfl
  · rfl
  · rcases hq 2 with h | h
    · exact absurd h (by decide)
    · exact absurd h.1 (by decide)

/-- Process 1 uses the database, with a monitor and another process waiting. -/
example : ∃ s, Reach s ∧ Uses s 1 ∧ IsMonitor s 0 ∧ s.pc 2 = .wantSh :=
  ⟨_, play_reach (l := boot ++ [(1, .start)] ++ gos 1 2 ++ gos 0 3 ++ gos 1 1 ++ [(2, .start)]) .init rfl, .inl rfl, .inr (by decide), rfl⟩

end Tup.Locks
