import Verif.AutoUpdate.Settle

/-! C98: the monitor with autoupdate turned on, and `tup flush`. -/

namespace Tup.AutoUpdate

variable {mod : Nat → Bool} {n : Nat} {l : List Act} {s : State}

theorem reach (h : run mod (init mod n) l = some s) : Good mod s := good_run (good_init mod n) h

/-- When `tup flush` says that everything is flushed, every change that was made before it was called and needs an update has been put into
the database, and an update that got its locks after that has ended.  Also when some updates could not be started. -/
theorem c98_flush (h : run mod (init mod n) l = some s) {f c : Nat} (ha : Ev.answered f ∈ s.trace)
    (hc : InOrder s.trace [.changed c, .asked f]) (hm : mod c = true) :
    ∃ p, InOrder s.trace [.changed c, .recorded c, .begun p, .ended p, .answered f] :=
  (reach h).data.done f c ha hc hm

/-- A flush that ends was called. -/
theorem c98_asked (h : run mod (init mod n) l = some s) {f : Nat} (ha : Ev.answered f ∈ s.trace) : Ev.asked f ∈ s.trace :=
  (reach h).data.ans f ha

/-- When nothing is going on any more, every change that needs an update has been put into the database, and an update that got its locks after
that has ended. -/
theorem c98_still (hn : NoFail l) (h : run mod (init mod n) l = some s) (hs : Still s) {c : Nat} (hc : Ev.changed c ∈ s.trace)
    (hm : mod c = true) : Updated s.trace c := by
  have hg := reach h
  have he := early_run (locks_init mod n) (early_init mod n) hn h
  have hp : s.pid = none := by
    cases hp : s.pid with
    | none => rfl
    | some p =>
      have := (he p hp).2
      rw [hs.1 p] at this
      simp at this
  refine hg.data.clear hp c ?_ hm
  rcases hg.data.pend c hc with x | x | x
  · rw [hs.2.1] at x; cases x
  · rw [hs.2.2] at x; cases x
  · exact x

/-- When nothing is going on any more, every `tup flush` that was called has ended. -/
theorem c98_answered (h : run mod (init mod n) l = some s) (hs : Still s) {f : Nat} (hf : Ev.asked f ∈ s.trace) :
    Ev.answered f ∈ s.trace := by
  rcases ((reach h).asked f hf).2.2 with x | x
  · exact x
  · exact absurd (hs.1 f) x.1

/-- Nothing gets stuck: if all updates could be started, then the monitor and the processes can always go on, with nobody else doing anything, until
nothing is going on; all changes are updated then, and every flush has ended. -/
theorem c98_settles (hn : NoFail l) (h : run mod (init mod n) l = some s) :
    ∃ l' s', Quietly l' ∧ run mod s l' = some s' ∧ Still s' ∧
      (∀ c, Ev.changed c ∈ s'.trace → mod c = true → Updated s'.trace c) ∧ (∀ f, Ev.asked f ∈ s'.trace → Ev.answered f ∈ s'.trace) := by
  obtain ⟨l', s', h1, h2, h3⟩ := settle (reach h) (early_run (locks_init mod n) (early_init mod n) hn h)
  have hr := (run_append h).trans h2
  have hnf : NoFail (l ++ l') := fun p hp => (List.mem_append.1 hp).elim (hn p) (h1.noFail p)
  exact ⟨l', s', h1, h2, h3, fun c hc hm => c98_still hnf hr h3 hc hm, fun f hf => c98_answered hr h3 hf⟩

/-- An update is started only if a change that needs one has been put into the database after the last start. -/
theorem c98_only (h : run mod (init mod n) l = some s) {x y : List Ev} {p : Nat} (ht : s.trace = x ++ .started p :: y) : Due mod x :=
  (starts_run (starts_init mod n) h).all x p y ht

/-- If no change needs an update, none is started. -/
theorem c98_none (hm : ∀ c, mod c = false) (h : run mod (init mod n) l = some s) (p : Nat) : Ev.started p ∉ s.trace := by
  intro hp
  obtain ⟨x, y, e⟩ := List.append_of_mem hp
  obtain ⟨c, _, _, _, hc, _⟩ := c98_only h e
  rw [hm c] at hc; cases hc

/-- The monitor waits for the process of an update at most once, and only after it has ended. -/
theorem c98_waited (h : run mod (init mod n) l = some s) (p : Nat) :
    s.trace.count (.reaped p) ≤ 1 ∧ (Ev.reaped p ∈ s.trace → Ev.started p ∈ s.trace ∧ s.stage p = .gone) :=
  have hw := waits_run (waits_init mod n) h
  ⟨hw.once p, hw.reaped p⟩

/-- The process of the update that was started last is not forgotten: the monitor has waited for it, waits for it, or is going to. -/
theorem c98_last (h : run mod (init mod n) l = some s) {p : Nat} (hp : Ev.started p ∈ s.trace)
    (hl : ∀ q, ¬ InOrder s.trace [.started p, .started q]) : Ev.reaped p ∈ s.trace ∨ s.slot = some p ∨ s.waiting = some p := by
  rcases (waits_run (waits_init mod n) h).last p hp with x | x | x | ⟨q, x⟩
  · exact .inl x
  · exact .inr (.inl x)
  · exact .inr (.inr x)
  · exact absurd x (hl q)

/-- The thread of the monitor does not know of the process any more. -/
def Lost (p : Nat) (s : State) : Prop := p < s.next ∧ s.slot ≠ some p ∧ s.waiting ≠ some p ∧ Ev.reaped p ∉ s.trace

theorem Lost.flush {p : Nat} (h : Lost p s) (b : Bool) : Lost p (flushQueue mod b s) := by
  obtain ⟨h1, h2, h3, h4⟩ := h
  rcases flushQueue_cases mod b s with ⟨_, e, _, _⟩ | ⟨_, _, e⟩ <;> rw [e]
  · exact ⟨h1, h2, h3, by simp [h4]⟩
  · refine ⟨Nat.lt_succ_of_lt h1, ?_, h3, by simp [startAuto, h4]⟩
    intro x
    injection x with x
    exact absurd h1 (by rw [← x]; exact Nat.lt_irrefl _)

theorem lost_step {p : Nat} {a : Act} {s' : State} (h : Lost p s) (hs : step mod s a = some s') : Lost p s' := by
  obtain ⟨h1, h2, h3, h4⟩ := h
  cases a with
  | change => cases hs; exact ⟨h1, h2, h3, by simp [h4]⟩
  | read =>
    simp only [step, read] at hs
    split at hs
    · cases hs
    · cases hs; exact ⟨h1, h2, h3, h4⟩
    · split at hs
      · rename_i k _ _
        cases hs
        have h0 : Lost p { s with kernel := k } := ⟨h1, h2, h3, h4⟩
        exact h0.flush (decide (s.pid = none))
      · cases hs; exact ⟨h1, h2, h3, h4⟩
    · split at hs
      · cases hs; exact ⟨h1, h2, h3, h4⟩
      · split at hs
        · cases hs; exact ⟨h1, h2, h3, h4⟩
        · cases hs
  | timeout =>
    simp only [step] at hs
    split at hs
    · cases hs
      have h0 : Lost p s := ⟨h1, h2, h3, h4⟩
      exact h0.flush true
    · cases hs
  | launch f =>
    cases hs
    refine ⟨Nat.lt_succ_of_lt h1, h2, h3, ?_⟩
    show Ev.reaped p ∉ (if f then s.trace ++ [Ev.asked s.next] else s.trace)
    split
    · simp [h4]
    · exact h4
  | go q =>
    simp only [step, go] at hs
    repeat' split at hs
    all_goals cases hs
    all_goals refine ⟨h1, h2, h3, ?_⟩
    all_goals first
      | exact h4
      | simp [h4]
      | (show Ev.reaped p ∉ (if s.kind q = .auto then s.trace ++ [Ev.begun q] else s.trace); split <;> simp [h4])
  | fail q =>
    simp only [step] at hs
    split at hs
    · cases hs; exact ⟨h1, h2, h3, h4⟩
    · cases hs
  | take =>
    simp only [step] at hs
    split at hs
    · rename_i q e _
      cases hs
      exact ⟨h1, by simp, fun x => h2 (e.trans x), h4⟩
    · cases hs
  | reap =>
    simp only [step] at hs
    split at hs
    · rename_i q e
      split at hs
      · cases hs
        refine ⟨h1, h2, by simp, ?_⟩
        intro x
        rcases List.mem_append.1 x with y | y
        · exact h4 y
        · rw [List.mem_singleton] at y
          injection y with y
          exact h3 (by rw [y]; exact e)
      · cases hs
    · cases hs

theorem lost_run {p : Nat} : ∀ {l : List Act} {s s' : State}, Lost p s → run mod s l = some s' → Lost p s'
  | [], s, s', h, hs => by cases hs; exact h
  | a :: l, s, s', h, hs => by
    simp only [run] at hs
    split at hs
    · exact lost_run (lost_step h (by assumption)) hs
    · cases hs

/-- Three updates are started before the first has ended (two files are changed, with a pause in between, while the first update waits for another
tup to finish; the thread waits for the first from the start). -/
def exThree : List Act := [.take, .change, .read, .timeout, .change, .read, .timeout]

/-- There is only one place for the pid that the thread is to wait for: the process of the second of three updates is never waited for, whatever
happens later, and stays a zombie until the monitor ends. -/
theorem c98_zombie {l : List Act} (h : run (fun _ => true) (init (fun _ => true) 1) (exThree ++ l) = some s) :
    Ev.started 1 ∈ s.trace ∧ Ev.reaped 1 ∉ s.trace := by
  obtain ⟨t, ht, h1, h2⟩ : ∃ t, run (fun _ => true) (init (fun _ => true) 1) exThree = some t ∧ Lost 1 t ∧ Ev.started 1 ∈ t.trace := by
    refine ⟨_, rfl, ?_, ?_⟩
    · exact ⟨by decide, by decide, by decide, by decide⟩
    · decide
  rw [run_append ht] at h
  refine ⟨?_, (lost_run h1 h).2.2.2⟩
  exact (mono_run h) h2

/-- The database says that an update is on its way, and there is none. -/
structure Stuck (s : State) : Prop where
  pid : s.pid ≠ none
  kernel : ∀ c, KEv.file c ∉ s.kernel
  queue : s.queue = []
  handled : s.handled = false
  auto : ∀ p, s.kind p = .auto → s.stage p = .gone
  answered : ∀ f, Ev.answered f ∉ s.trace

theorem Stuck.flush (h : Stuck s) (b : Bool) : flushQueue mod b s = s := by
  unfold flushQueue
  simp only [h.queue, h.handled, List.map_nil, List.append_nil, List.any_nil, Bool.or_false, Bool.false_and, Bool.false_eq_true, ite_false]
  have h1 := h.queue
  have h2 := h.handled
  cases s
  simp_all

theorem stuck_step {a : Act} {s' : State} (h : Stuck s) (ha : a ≠ .change) (hs : step mod s a = some s') : Stuck s' := by
  cases a with
  | change => exact absurd rfl ha
  | read =>
    simp only [step, read] at hs
    split at hs
    · cases hs
    · rename_i c k e
      exact absurd (by rw [e]; simp) (h.kernel c)
    · rename_i k e
      have h0 : Stuck { s with kernel := k } := ⟨h.pid, fun c x => h.kernel c (by rw [e]; simp [x]), h.queue, h.handled, h.auto, h.answered⟩
      split at hs
      · rw [h0.flush] at hs
        cases hs
        exact ⟨h0.pid, h0.kernel, h0.queue, h0.handled, h0.auto, h0.answered⟩
      · cases hs; exact h0
    · rename_i k e
      have h0 : Stuck { s with kernel := k } := ⟨h.pid, fun c x => h.kernel c (by rw [e]; simp [x]), h.queue, h.handled, h.auto, h.answered⟩
      split at hs
      · cases hs; exact h0
      · split at hs
        · cases hs; exact ⟨h0.pid, h0.kernel, h0.queue, h0.handled, h0.auto, h0.answered⟩
        · cases hs
  | timeout =>
    simp only [step] at hs
    split at hs
    · rename_i e; exact absurd h.queue e.2.1
    · cases hs
  | launch f =>
    cases hs
    refine ⟨h.pid, h.kernel, h.queue, h.handled, ?_, ?_⟩
    · intro p hp
      have hp' : upd s.kind s.next (if f then Kind.flush else .other) p = .auto := hp
      by_cases e : p = s.next
      · rw [e, upd_same] at hp'; cases f <;> cases hp'
      · rw [upd_other s.kind _ e] at hp'
        exact (upd_other s.stage _ e).trans (h.auto p hp')
    · intro q
      show Ev.answered q ∉ (if f then s.trace ++ [Ev.asked s.next] else s.trace)
      split
      · simp [h.answered q]
      · exact h.answered q
  | go q =>
    have hne : ∀ {p}, s.kind p = .auto → s.stage q ≠ .gone → p ≠ q := fun hp hg e => hg (by rw [← e]; exact h.auto _ hp)
    have key : ∀ {x : Stage} {u : State}, s.stage q ≠ .gone → u.kind = s.kind → u.stage = upd s.stage q x → u.pid = s.pid → (∀ c, KEv.file c ∉ u.kernel) → u.queue = s.queue →
        u.handled = s.handled → (∀ f, Ev.answered f ∉ u.trace) → Stuck u := by
      intro x u hg e1 e2 e3 e4 e5 e6 e7
      refine ⟨by rw [e3]; exact h.pid, e4, by rw [e5]; exact h.queue, by rw [e6]; exact h.handled, ?_, e7⟩
      intro p hp
      rw [e1] at hp
      rw [e2, upd_other _ _ (hne hp hg)]
      exact h.auto p hp
    simp only [step, go] at hs
    split at hs
    · rename_i e
      split at hs
      · cases hs; exact key (by rw [e]; decide) rfl rfl rfl h.kernel rfl rfl h.answered
      · cases hs
    · rename_i e
      cases hs; exact key (by rw [e]; decide) rfl rfl rfl (fun c => by simp [h.kernel c]) rfl rfl h.answered
    · rename_i e
      split at hs
      · cases hs
        refine key (by rw [e]; decide) rfl rfl rfl h.kernel rfl rfl (fun f => ?_)
        show Ev.answered f ∉ (if s.kind q = .auto then s.trace ++ [Ev.begun q] else s.trace)
        split <;> simp [h.answered f]
      · cases hs
    · rename_i e
      split at hs
      · rename_i hk
        have := h.auto q hk
        rw [e] at this; cases this
      · split at hs
        · rename_i hp; exact absurd hp h.pid
        · cases hs; exact key (by rw [e]; decide) rfl rfl rfl h.kernel rfl rfl h.answered
      · cases hs; exact key (by rw [e]; decide) rfl rfl rfl h.kernel rfl rfl h.answered
    · rename_i e
      cases hs; exact key (by rw [e]; decide) rfl rfl rfl (fun c => by simp [h.kernel c]) rfl rfl h.answered
    · rename_i e
      split at hs
      · cases hs; exact key (by rw [e]; decide) rfl rfl rfl h.kernel rfl rfl h.answered
      · cases hs
    · rename_i e
      cases hs; exact key (by rw [e]; decide) rfl rfl rfl h.kernel rfl rfl h.answered
    · cases hs
  | fail p =>
    simp only [step] at hs
    split at hs
    · cases hs
      refine ⟨h.pid, h.kernel, h.queue, h.handled, ?_, h.answered⟩
      intro q hq
      show upd s.stage p _ q = _
      unfold upd
      split
      · rfl
      · exact h.auto q hq
    · cases hs
  | take =>
    simp only [step] at hs
    split at hs
    · cases hs; exact ⟨h.pid, h.kernel, h.queue, h.handled, h.auto, h.answered⟩
    · cases hs
  | reap =>
    simp only [step] at hs
    split at hs
    · split at hs
      · cases hs; exact ⟨h.pid, h.kernel, h.queue, h.handled, h.auto, fun f => by simp [h.answered f]⟩
      · cases hs
    · cases hs

theorem stuck_run : ∀ {l : List Act} {s s' : State}, Stuck s → Act.change ∉ l → run mod s l = some s' → Stuck s'
  | [], s, s', h, _, hs => by cases hs; exact h
  | a :: l, s, s', h, hl, hs => by
    simp only [run] at hs
    split at hs
    · exact stuck_run (stuck_step (a := a) h (fun x => hl (by rw [x]; simp)) (by assumption)) (fun x => hl (by simp [x])) hs
    · cases hs

/-- An update that could not be started leaves its pid in the database: until somebody changes a file, no `tup flush` ends, whatever else happens. -/
theorem c98_stuck {l : List Act} (hl : Act.change ∉ l) (h : run (fun _ => true) (init (fun _ => true) 1) (.fail 0 :: l) = some s) (f : Nat) :
    Ev.answered f ∉ s.trace := by
  obtain ⟨t, ht, h1⟩ : ∃ t, step (fun _ => true) (init (fun _ => true) 1) (.fail 0) = some t ∧ Stuck t := by
    refine ⟨_, rfl, by decide, ?_, by decide, by decide, ?_, ?_⟩
    · intro c; exact List.not_mem_nil
    · intro p hp
      show upd _ 0 _ p = _
      unfold upd
      split
      · rfl
      · rename_i e
        exact upd_other _ _ e
    · intro f
      show Ev.answered f ∉ [Ev.changed 0, .recorded 0, .started 0]
      simp
  rw [run_cons ht] at h
  exact (stuck_run h1 hl h).answered f

/-! Concrete runs. -/

/-- One process from start to end. -/
def whole (p : Nat) : List Act := cyc p

/-- A file is changed while there is no update; `tup flush` is called at once. The monitor starts the update when it sees the flush, the
flush finds the pid and has to wait for it. -/
def exFlush : List Act :=
  [.change, .launch true, .go 0, .go 0, .read, .read, .go 0, .go 0, .go 0, .read, .go 0, .go 0] ++ whole 1 ++ whole 0

def exFlushTrace : List Ev := [.changed 0, .asked 0, .recorded 0, .started 1, .begun 1, .ended 1, .answered 0]

example : (run (fun _ => true) (init (fun _ => true) 0) exFlush).map (·.trace) = some exFlushTrace := by decide

example : ∃ s, run (fun _ => true) (init (fun _ => true) 0) exFlush = some s ∧
    ∃ p, InOrder s.trace [.changed 0, .recorded 0, .begun p, .ended p, .answered 0] := by
  refine ⟨_, rfl, c98_flush (mod := fun _ => true) (l := exFlush) (n := 0) rfl (by decide) (by unfold InOrder; decide) rfl⟩

/-- A change that sets no flag does not start an update: the flush ends right away. -/
example : (run (fun _ => false) (init (fun _ => false) 0) ([.change, .launch true, .go 0, .go 0, .read, .read, .go 0, .go 0])).map (·.trace) =
    some [.changed 0, .asked 0, .recorded 0, .answered 0] := by decide

/-- After the run with the flush nothing is going on. -/
example : ∃ s, run (fun _ => true) (init (fun _ => true) 0) exFlush = some s ∧ Still s ∧ Updated s.trace 0 := by
  have hs : Still ((run (fun _ => true) (init (fun _ => true) 0) exFlush).get rfl) := by
    refine ⟨fun p => ?_, rfl, rfl⟩
    rcases Decidable.em (((run (fun _ => true) (init (fun _ => true) 0) exFlush).get rfl).stage p = .gone) with x | x
    · exact x
    · have hlt : p < 2 := (reach (mod := fun _ => true) (n := 0) (l := exFlush) rfl).locks.fresh p x
      rcases p with _ | _ | p
      · rfl
      · rfl
      · omega
  exact ⟨_, rfl, hs, c98_still (mod := fun _ => true) (l := exFlush) (n := 0) (by unfold NoFail; simp [exFlush, whole, cyc]) rfl hs (by decide) rfl⟩

/-- In the middle of that run. -/
example : ∃ s, run (fun _ => true) (init (fun _ => true) 0) (exFlush.take 7) = some s ∧ ¬ Still s ∧
    ∃ l' s', Quietly l' ∧ run (fun _ => true) s l' = some s' ∧ Still s' ∧ (∀ f, Ev.asked f ∈ s'.trace → Ev.answered f ∈ s'.trace) := by
  obtain ⟨l', s', h1, h2, h3, _, h4⟩ := c98_settles (mod := fun _ => true) (n := 0) (l := exFlush.take 7) (by unfold NoFail; simp [exFlush]) rfl
  exact ⟨_, rfl, fun x => absurd (x.1 0) (by decide), l', s', h1, h2, h3, h4⟩

/-- The updates of `exThree`: the third is remembered. -/
example : ∃ s, run (fun _ => true) (init (fun _ => true) 1) exThree = some s ∧ s.waiting = some 0 ∧ s.slot = some 2 ∧
    (Ev.reaped 2 ∈ s.trace ∨ s.slot = some 2 ∨ s.waiting = some 2) := by
  refine ⟨_, rfl, rfl, rfl, c98_last (mod := fun _ => true) (n := 1) (l := exThree) rfl (by decide) fun q x => ?_⟩
  have x' : List.Sublist [.started 2, .started q] [Ev.changed 0, .recorded 0, .started 0, .changed 1, .recorded 1, .started 1, .changed 2, .recorded 2, .started 2] := x
  iterate 8 (cases x' ; rename_i x')
  cases x'
  · rename_i x'; cases x'
  · rename_i x'; cases x'

/-- The thread waits for the update that was started at the beginning. -/
example : (run (fun _ => true) (init (fun _ => true) 1) ([.take] ++ whole 0 ++ [.reap])).map (·.trace) =
    some [.changed 0, .recorded 0, .started 0, .begun 0, .ended 0, .reaped 0] := by decide

/-- A flush after an update that could not be started goes around in circles. -/
example : (run (fun _ => true) (init (fun _ => true) 1) ([.fail 0, .launch true] ++ whole 1 ++ whole 1 ++ whole 1)).map (fun s => (s.stage 1, s.trace)) =
    some (.wantSh, [.changed 0, .recorded 0, .started 0, .asked 1]) := by decide

/-- The start of the update in `exFlush` was due. -/
example : Due (fun _ => true) [.changed 0, .asked 0, .recorded 0] :=
  c98_only (n := 0) (l := exFlush) (s := (run (fun _ => true) (init (fun _ => true) 0) exFlush).get rfl) rfl
    (x := [.changed 0, .asked 0, .recorded 0]) (y := [.begun 1, .ended 1, .answered 0]) (p := 1) rfl

end Tup.AutoUpdate
