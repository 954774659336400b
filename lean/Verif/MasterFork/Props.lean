import Verif.MasterFork.Progress

/-!
C65: each caller gets the exit status of its own command.  `R i` is what the call `i` asks for; the events come in any
order and any number.
-/

namespace Tup.MasterFork

/-- What a call returns is how the command that it asked for ended, run with exactly the job, directory, command line,
environment and variables of that call; and that command has ended once. -/
theorem c65_own_status (R : Nat → Req) (es : List Ev) (i : Nat) (st : Int)
    (h : (run R es init).calls i = .done st) :
    (⟨i, R i⟩, st) ∈ (run R es init).exits ∧
      ∀ r st', (r, st') ∈ (run R es init).exits → r.sid = i → r = ⟨i, R i⟩ ∧ st' = st := by
  obtain ⟨q, hq⟩ := (good_run es (good_init (R := R))).inv
  have hc := hq.core
  have he : ((⟨i, R i⟩ : Run), st) ∈ (run R es init).exits := hc.done i st h
  refine ⟨he, fun r st' hr hri => ?_⟩
  have hnd : ((run R es init).exits.map (·.1.sid)).Nodup := (List.nodup_append.1 hc.exits).1
  generalize (run R es init).exits = l at he hr hnd
  have key : ∀ {l : List (Run × Int)}, (l.map (·.1.sid)).Nodup → ∀ a ∈ l, ∀ b ∈ l, a.1.sid = b.1.sid → a = b := by
    intro l
    induction l with
    | nil => intro _ a ha; cases ha
    | cons x xs ih =>
      intro hn a ha b hb e
      rw [List.map_cons, List.nodup_cons] at hn
      rcases List.mem_cons.1 ha with ea | ha'
      · rcases List.mem_cons.1 hb with eb | hb'
        · rw [ea, eb]
        · exact absurd (List.mem_map.2 ⟨b, hb', by rw [← e, ea]⟩) hn.1
      · rcases List.mem_cons.1 hb with eb | hb'
        · exact absurd (List.mem_map.2 ⟨a, ha', by rw [e, eb]⟩) hn.1
        · exact ih hn.2 a ha' b hb' e
  have := key hnd (r, st') hr (⟨i, R i⟩, st) he hri
  exact ⟨congrArg Prod.fst this, congrArg Prod.snd this⟩

/-- However the calls come together, each request arrives as it was made; nothing is started that was not asked for, and
nothing is started twice. -/
theorem c65_once (R : Nat → Req) (es : List Ev) :
    ((run R es init).started.map (·.sid)).Nodup ∧
      ∀ r ∈ (run R es init).started, r = ⟨r.sid, R r.sid⟩ ∧ r.sid ∈ callersOf es := by
  obtain ⟨q, hq⟩ := (good_run es (good_init (R := R))).inv
  have hc := hq.core
  refine ⟨(List.nodup_append.1 hc.once).1, fun r hr => ⟨?_, ?_⟩⟩
  · have := hc.started r hr
    obtain ⟨a, b⟩ := r
    simp only at this
    rw [this]
  · refine Classical.byContradiction fun hn => ?_
    have h1 := calls_run (R := R) es init r.sid hn
    have h2 := hc.made r.sid (List.mem_append.2 (Or.inl (List.mem_map.2 ⟨r, hr, rfl⟩)))
    rw [h1] at h2
    simp [Posted, init] at h2

/-- The thread that waits for the children stops working only in two cases: a child ends between its fork and its entry in
the tree, while the thread is in `wait` for another one; or a new child gets the process id of one that has ended and whose
entry is not yet removed.  The thread that passes the results on never stops. -/
theorem c65_only_race (R : Nat → Req) (es : List Ev) (e : Ev) (h : (run R es init).waiter ≠ .dead)
    (hd : (step R e (run R es init)).waiter = .dead) :
    (∃ p i st, (run R es init).waiter = .got p st ∧ (run R es init).master = .forked p i ∧
      ∀ j, (p, j) ∉ (run R es init).tree) ∨
    (∃ p i j st, (run R es init).master = .forked p i ∧ (p, j) ∈ (run R es init).tree ∧ j ≠ i ∧
      ((run R es init).waiter = .got p st ∨ (run R es init).waiter = .found p j st)) := by
  obtain ⟨q, hq⟩ := (good_run es (good_init (R := R))).inv
  generalize run R es init = s at *
  have hc := hq.core
  have hv := hq.live h
  cases e with
  | caller i =>
    exfalso
    have : (step R (.caller i) s).waiter = s.waiter := by
      show (caller R i s).waiter = _
      unfold caller
      split
      · split <;> rfl
      · split <;> rfl
      · rfl
      · rfl
      · split <;> rfl
      · rfl
    exact h (this ▸ hd)
  | exit p st =>
    exfalso
    have : (step R (.exit p st) s).waiter = s.waiter := by
      show (exit p st s).waiter = _
      unfold exit
      split <;> rfl
    exact h (this ▸ hd)
  | notify =>
    exfalso
    have : (step R .notify s).waiter = s.waiter := by
      show (notify s).waiter = _
      unfold notify
      split
      · rfl
      · split
        · rfl
        · split <;> rfl
    exact h (this ▸ hd)
  | master p0 =>
    cases hm : s.master with
    | dead => exact absurd hm hv.alive
    | reading =>
      exfalso
      have hd : (master p0 s).waiter = .dead := hd
      simp only [master, hm] at hd
      rcases read_cases hc with hr | ⟨i, q', _, rest, hr, _⟩
      · rw [hr] at hd; exact h hd
      · rw [hr] at hd
        simp only at hd
        split at hd <;> exact h hd
    | forked p i =>
      have hd : (master p0 s).waiter = .dead := hd
      simp only [master, hm] at hd
      split at hd
      · rename_i hin
        obtain ⟨⟨p', j⟩, he, hp'⟩ := List.mem_map.1 hin
        simp only at hp'
        subst hp'
        have hji := hv.fresh p' i hm _ he
        rcases hv.entry _ he with ⟨c, c1, c2, c3⟩ | ⟨h1, h2⟩
        · rcases hv.forked p' i hm with ⟨d, d1, d2, d3⟩ | ⟨h3, st, h4⟩
          · have := uniq_pid hv.pids c1 d1 (by rw [c2, d2])
            subst this
            exact absurd (c3.symm.trans d3) hji
          · exact Or.inr ⟨p', i, j, st, rfl, he, hji, Or.inl h4⟩
        · rcases h2 with ⟨st, h2⟩ | ⟨st, h2⟩
          · exact Or.inr ⟨p', i, j, st, rfl, he, hji, Or.inl h2⟩
          · exact Or.inr ⟨p', i, j, st, rfl, he, hji, Or.inr h2⟩
      · exact absurd hd h
  | waiter p0 =>
    have hd : (waiter p0 s).waiter = .dead := hd
    cases hw : s.waiter with
    | dead => exact absurd hw h
    | idle =>
      simp only [waiter, hw] at hd
      split at hd
      · exact absurd hd h
      · cases hd
    | found p i st => simp only [waiter, hw] at hd; cases hd
    | replying i st => simp only [waiter, hw] at hd; cases hd
    | inWait =>
      exfalso
      have hh : s.reaped = none := by
        have := hc.hand
        rw [hw] at this
        exact this
      have hne : s.children ≠ [] := by
        obtain ⟨e, he⟩ := List.exists_mem_of_ne_nil _ (hv.inWait hw)
        rcases hv.entry e he with ⟨c, c1, _⟩ | ⟨h1, _⟩
        · exact List.ne_nil_of_mem c1
        · rw [hh] at h1; cases h1
      simp only [waiter, hw] at hd
      rw [if_neg hne] at hd
      split at hd
      · cases hd
      · exact h hd
    | got p st =>
      left
      obtain ⟨i, h1, h2⟩ := hv.got p st hw
      rcases h2 with h2 | ⟨h2, h3⟩
      · exfalso
        simp only [waiter, hw] at hd
        split at hd
        · rename_i hf
          have := List.find?_eq_none.1 hf _ h2
          simp at this
        · cases hd
      · exact ⟨p, i, st, rfl, h2, fun j hj => h3 (List.mem_map.2 ⟨_, hj, rfl⟩)⟩

/-- The thread that passes the results on never stops. -/
theorem c65_notifier (R : Nat → Req) (es : List Ev) : (run R es init).notifier = true := by
  obtain ⟨q, hq⟩ := (good_run es (good_init (R := R))).inv
  exact hq.core.notifier

/-- As long as the thread that waits for the children works, there is always a way to go on after which every call that has
been made, and any others, have returned. -/
theorem c65_completes (R : Nat → Req) (es : List Ev) (n : Nat) (h : (run R es init).waiter ≠ .dead) :
    ∃ es', ∀ i, i < n ∨ i ∈ callersOf es → ∃ st, (run R (es ++ es') init).calls i = .done st := by
  obtain ⟨m, hm⟩ := bounded (callersOf es)
  have hidle : ∀ i, m + n ≤ i → (run R es init).calls i = .idle := by
    intro i hi
    rw [calls_run es init i (hm i (by omega))]
    rfl
  obtain ⟨es', hes⟩ := finish _ (good_run es (good_init (R := R))) h hidle (Nat.le_refl _)
  refine ⟨es', fun i hi => ?_⟩
  rw [run_append]
  refine hes i ?_
  rcases hi with hi | hi
  · omega
  · exact Classical.byContradiction fun hge => hm i (by omega) hi

/-- The first of the two cases of `c65_only_race`: the child 100 of call 1 runs; the child 101 of call 2 ends before it is in the
tree. -/
def raceEvents : List Ev :=
  post 1 ++ ([.master 100, .master 0, .waiter 0] ++ (post 2 ++ [.master 101, .exit 101 0, .waiter 101, .waiter 0]))

/-- The second: the child 100 of call 1 has ended and is found; the child of call 2 gets the number 100. -/
def reuseEvents : List Ev :=
  post 1 ++ ([.master 100, .master 0, .exit 100 0, .waiter 0, .waiter 100, .waiter 0] ++
    (post 2 ++ [.master 100, .master 0]))

theorem race_stuck (R : Nat → Req) : Stuck (run R raceEvents init) 1 ∧ Stuck (run R raceEvents init) 2 := by
  have hr : ∀ i, readMsg (text R i) = .ok ⟨i, R i⟩ [] := by
    intro i
    have := readMsg_text (R := R) i []
    rwa [List.append_nil] at this
  unfold raceEvents
  rw [run_append, run_post rfl (by simp [init]) rfl, run_append]
  have h1 : run R [.master 100, .master 0, .waiter 0]
      { init with calls := set init.calls 1 .waiting, waiting := 1 :: init.waiting, stream := init.stream ++ text R 1 } =
      ⟨set init.calls 1 .waiting, none, [1], [], .reading, [⟨100, ⟨1, R 1⟩, none⟩], [(100, 1)], .inWait, [], [], true, [],
        [⟨1, R 1⟩], none⟩ := by
    simp [init, run, step, master, hr, waiter]
  rw [h1, run_append, run_post rfl (by simp) rfl]
  have h2 : run R [.master 101, .exit 101 0, .waiter 101, .waiter 0]
      ⟨set (set init.calls 1 .waiting) 2 .waiting, none, [2, 1], [] ++ text R 2, .reading, [⟨100, ⟨1, R 1⟩, none⟩],
        [(100, 1)], .inWait, [], [], true, [], [⟨1, R 1⟩], none⟩ =
      ⟨set (set init.calls 1 .waiting) 2 .waiting, none, [2, 1], [], .forked 101 2, [⟨100, ⟨1, R 1⟩, none⟩],
        [(100, 1)], .dead, [], [], true, [(⟨2, R 2⟩, 0)], [⟨2, R 2⟩, ⟨1, R 1⟩], some 2⟩ := by
    simp [run, step, master, hr, waiter, exit]
  rw [h2]
  constructor
  · exact ⟨rfl, by simp, by simp, fun st hh => by simp [set] at hh⟩
  · exact ⟨rfl, by simp, by simp, fun st hh => by simp [set] at hh⟩

theorem reuse_stuck (R : Nat → Req) : Stuck (run R reuseEvents init) 1 ∧ Stuck (run R reuseEvents init) 2 := by
  have hr : ∀ i, readMsg (text R i) = .ok ⟨i, R i⟩ [] := by
    intro i
    have := readMsg_text (R := R) i []
    rwa [List.append_nil] at this
  unfold reuseEvents
  rw [run_append, run_post rfl (by simp [init]) rfl, run_append]
  have h1 : run R [.master 100, .master 0, .exit 100 0, .waiter 0, .waiter 100, .waiter 0]
      { init with calls := set init.calls 1 .waiting, waiting := 1 :: init.waiting, stream := init.stream ++ text R 1 } =
      ⟨set init.calls 1 .waiting, none, [1], [], .reading, [], [(100, 1)], .found 100 1 0, [], [], true, [(⟨1, R 1⟩, 0)],
        [⟨1, R 1⟩], some 1⟩ := by
    simp [init, run, step, master, hr, waiter, exit]
  rw [h1, run_append, run_post rfl (by simp) rfl]
  have h2 : run R [.master 100, .master 0]
      ⟨set (set init.calls 1 .waiting) 2 .waiting, none, [2, 1], [] ++ text R 2, .reading, [], [(100, 1)], .found 100 1 0, [],
        [], true, [(⟨1, R 1⟩, 0)], [⟨1, R 1⟩], some 1⟩ =
      ⟨set (set init.calls 1 .waiting) 2 .waiting, none, [2, 1], [], .dead, [⟨100, ⟨2, R 2⟩, none⟩], [(100, 1)], .dead, [],
        [], true, [(⟨1, R 1⟩, 0)], [⟨2, R 2⟩, ⟨1, R 1⟩], some 1⟩ := by
    simp [run, step, master, hr]
  rw [h2]
  constructor
  · exact ⟨rfl, by simp, by simp, fun st hh => by simp [set] at hh⟩
  · exact ⟨rfl, by simp, by simp, fun st hh => by simp [set] at hh⟩

/-- Both cases happen, whatever the commands are, and then the two calls never return, whatever happens afterwards. -/
theorem c65_race (R : Nat → Req) (es : List Ev) (st : Int) :
    (run R (raceEvents ++ es) init).calls 1 ≠ .done st ∧ (run R (raceEvents ++ es) init).calls 2 ≠ .done st ∧
    (run R (reuseEvents ++ es) init).calls 1 ≠ .done st ∧ (run R (reuseEvents ++ es) init).calls 2 ≠ .done st := by
  rw [run_append, run_append]
  exact ⟨(stuck_run es (race_stuck R).1).calls st, (stuck_run es (race_stuck R).2).calls st,
    (stuck_run es (reuse_stuck R).1).calls st, (stuck_run es (reuse_stuck R).2).calls st⟩

/-- Before the last event of `raceEvents` the two calls are made, both children have been forked, and the waiter works: the
loss comes from the order of the events alone. -/
theorem c65_race_start (R : Nat → Req) : (run R raceEvents.dropLast init).waiter = .got 101 0 ∧
    (run R raceEvents.dropLast init).started = [⟨2, R 2⟩, ⟨1, R 1⟩] := by
  have hr : ∀ i, readMsg (text R i) = .ok ⟨i, R i⟩ [] := by
    intro i
    have := readMsg_text (R := R) i []
    rwa [List.append_nil] at this
  have e : raceEvents.dropLast = post 1 ++ ([.master 100, .master 0, .waiter 0] ++ (post 2 ++ [.master 101, .exit 101 0, .waiter 101])) := rfl
  rw [e, run_append, run_post rfl (by simp [init]) rfl, run_append]
  have h1 : run R [.master 100, .master 0, .waiter 0]
      { init with calls := set init.calls 1 .waiting, waiting := 1 :: init.waiting, stream := init.stream ++ text R 1 } =
      ⟨set init.calls 1 .waiting, none, [1], [], .reading, [⟨100, ⟨1, R 1⟩, none⟩], [(100, 1)], .inWait, [], [], true, [],
        [⟨1, R 1⟩], none⟩ := by
    simp [init, run, step, master, hr, waiter]
  rw [h1, run_append, run_post rfl (by simp) rfl]
  simp [run, step, master, hr, waiter, exit]

/-! ### A case -/

/-- Two commands: `false` and `true`, in `d` and `e`. -/
def sample : Nat → Req := fun i =>
  if i = 1 then ⟨[0, 1], [], [100], [102, 97, 108, 115, 101], [80, 61, 49, 0], []⟩
  else ⟨[1, 0], [], [101], [116, 114, 117, 101], [], []⟩

def sampleEvents : List Ev :=
  post 1 ++ (post 2 ++ [.master 7, .master 0, .master 8, .master 0, .exit 8 0, .waiter 0, .waiter 8, .waiter 0, .waiter 0,
    .waiter 0, .notify, .caller 2, .exit 7 256, .waiter 0, .waiter 7, .waiter 0, .waiter 0, .waiter 0, .notify, .caller 1])

example : (run sample sampleEvents init).calls 1 = .done 256 ∧ (run sample sampleEvents init).calls 2 = .done 0 ∧
    (run sample sampleEvents init).started = [⟨2, sample 2⟩, ⟨1, sample 1⟩] ∧
    (run sample sampleEvents init).waiter ≠ .dead := by
  decide +kernel

end Tup.MasterFork
