import Verif.Workers.Lemmas

/-! C108: what the main thread hands to the workers is worked on once, and every result comes back to it. -/

namespace Tup.Workers

/-- `s` can be reached with `jobs` workers, whatever the main thread finds in the graph, whatever the functions return, and however the
threads take turns. -/
def Reached (jobs : Nat) (s : St) : Prop := ∃ l, run jobs (init jobs) l = some s

/-- The steps of the worker threads. -/
def Op.isWorker : Op → Bool
  | .worker _ _ => true
  | _ => false

/-- A step of one of the threads; not a `pthread_cond_wait` that returns for no reason. -/
def Op.real : Op → Bool
  | .worker _ _ => true
  | .main _ => true
  | _ => false

theorem Reached.inv {jobs : Nat} {s : St} (hj : 0 < jobs) : Reached jobs s → Inv jobs s
  | ⟨_, h⟩ => inv_run hj (inv_init hj) h

/-- For every worker: the calls of the function are for the nodes that were handed to it, in that order and each once, and the last one
handed over may still be missing. What the main thread got back is these nodes with what the function returned, in that order and each
once; one result at most is missing, and then nothing is waiting. -/
theorem c108_results {jobs : Nat} {s : St} (hj : 0 < jobs) (hr : Reached jobs s) {i : Nat} (hi : i < jobs) :
    (s.w i).worked.map (·.1) <+: (s.w i).given ∧ (s.w i).taken <+: (s.w i).worked.map back ∧ (s.w i).given.length ≤ (s.w i).taken.length + 1 := by
  rcases place (hr.inv hj) hi with ⟨_, _, h3, h4, _⟩ | ⟨_, _, ⟨x, _, _, h3, h4, _⟩ | ⟨x, r, ⟨l, h1, h3, h4⟩, _⟩⟩ | ⟨x, r, ⟨l, h1, h3, h4⟩, _⟩ | ⟨y, x, r, ⟨l, h1, h3, h4⟩, _⟩
  · rw [h3, h4]; simp
  · rw [h3, h4]; simp
  all_goals
    rw [h3, h4, h1]
    simp [back]

/-- When the main thread counts no worker as active, nothing is missing: the function was called for every node that was handed over, and
the main thread has what it returned. -/
theorem c108_complete {jobs : Nat} {s : St} (hj : 0 < jobs) (hr : Reached jobs s) (hc : s.count = 0) (hm : ∀ i y, s.main ≠ .took i y)
    {i : Nat} (hi : i < jobs) : (s.w i).given = (s.w i).worked.map (·.1) ∧ (s.w i).taken = (s.w i).worked.map back := by
  have h := hr.inv hj
  have hc' := h.count
  rw [hc] at hc'
  have ha : s.active = [] := List.eq_nil_of_length_eq_zero (by omega)
  have hf : s.fin = [] := List.eq_nil_of_length_eq_zero (by omega)
  have := (h.mem i).2 hi
  rw [ha, hf] at this
  have hq := h.free i (by simpa using this) (hm i)
  exact ⟨hq.2.2.1, hq.2.2.2.1⟩

/-- The function is never called without a node, and the main thread never hands over a node without a free worker. -/
theorem c108_no_crash {jobs : Nat} {s : St} (hj : 0 < jobs) (hr : Reached jobs s) : s.main ≠ .crashed ∧ ∀ i < jobs, (s.w i).pc ≠ .crashed :=
  ⟨(hr.inv hj).up, fun _ hi => not_crashed (hr.inv hj) hi⟩

/-- No signal is lost: a worker that sleeps has no node and was not told to quit, and when the main thread sleeps no result is there. -/
theorem c108_awake {jobs : Nat} {s : St} (hj : 0 < jobs) (hr : Reached jobs s) :
    (∀ i < jobs, (s.w i).pc = .asleep → (s.w i).n = none ∧ (s.w i).quit = false) ∧ (s.main = .asleep → s.fin = []) :=
  ⟨fun _ hi h => asleep_idle (hr.inv hj) hi h, (hr.inv hj).asleep⟩

/-- No deadlock: until the main thread is done some thread can go on without a signal out of nowhere. -/
theorem c108_no_deadlock {jobs : Nat} {s : St} (hj : 0 < jobs) (hr : Reached jobs s) (hm : s.main ≠ .finished) :
    ∃ o : Op, o.real = true ∧ (step jobs s o).isSome := by
  have h := hr.inv hj
  cases e : s.main with
  | ready => exact ⟨.main .skip, rfl, by simp [step, mainStep, e]⟩
  | check =>
    refine ⟨.main .skip, rfl, ?_⟩
    simp only [step, mainStep, e]
    split <;> rfl
  | giving i x => exact ⟨.main .skip, rfl, by simp [step, mainStep, e]⟩
  | taking =>
    refine ⟨.main .skip, rfl, ?_⟩
    simp only [step, mainStep, e]
    split <;> rfl
  | asleep =>
    have hf := h.asleep e
    have hb := h.busy (.inr e)
    rw [hf, List.append_nil] at hb
    obtain ⟨i, ha⟩ := List.exists_mem_of_ne_nil _ hb
    have hi := (h.mem i).1 (by simp [ha])
    refine ⟨.worker i true, rfl, can_step h hi ?_ ?_ true⟩
    · intro hp
      rcases h.active i ha (by simp [e]) with ⟨x, a, b, c, d, f⟩ | ⟨x, r, a, b⟩
      · rw [hp] at f; simp at f
      · rw [hp] at b; simp at b
    · intro hp
      have hq : (s.w i).quit = true := by
        rcases h.active i ha (by simp [e]) with ⟨x, a, b, c, d, f⟩ | ⟨x, r, a, b⟩
        · rw [hp] at f; simpa using f
        · rw [hp] at b; simp at b
      rcases h.quit i hq with ⟨k, h1, _⟩ | ⟨k, h1⟩ | h1 <;> rw [e] at h1 <;> cases h1
  | took i y => exact ⟨.main .skip, rfl, by simp [step, mainStep, e]⟩
  | quitting k =>
    refine ⟨.main .skip, rfl, ?_⟩
    simp only [step, mainStep, e]
    split <;> rfl
  | joining k =>
    by_cases hk : k < jobs
    · by_cases hx : (s.w k).pc = .exited
      · exact ⟨.main .skip, rfl, by simp [step, mainStep, e, hk, hx]⟩
      · refine ⟨.worker k true, rfl, can_step h hk (fun ha => ?_) hx true⟩
        have h1 := (asleep_idle h hk ha).2
        have h2 := h.all (.inl ⟨_, e⟩) k hk
        rw [h1] at h2; cases h2
    · exact ⟨.main .skip, rfl, by simp [step, mainStep, e, hk]⟩
  | finished => exact absurd e hm
  | crashed => exact absurd e h.up

/-- The workers do not spin: while the main thread does nothing they take at most ten steps each. So a main thread that sleeps is woken. -/
theorem c108_workers_rest {jobs : Nat} {s s' : St} (hj : 0 < jobs) (hr : Reached jobs s) {l : List Op} (hl : ∀ o ∈ l, o.isWorker = true)
    (h : run jobs s l = some s') : l.length ≤ 10 * jobs := by
  have key : ∀ (l : List Op) (s : St), Inv jobs s → (∀ o ∈ l, o.isWorker = true) → run jobs s l = some s' → l.length ≤ total jobs s := by
    intro l
    induction l with
    | nil => intros; simp
    | cons o l ih =>
      intro s hi hl h
      simp only [run] at h
      cases hs : step jobs s o with
      | none => rw [hs] at h; cases h
      | some s1 =>
        rw [hs] at h
        have hi' := inv_step hj hi hs
        have := ih s1 hi' (fun o ho => hl o (List.mem_cons_of_mem _ ho)) h
        have hw := hl o (by simp)
        cases o with
        | worker i r =>
          simp only [step] at hs
          split at hs
          · rename_i hlt
            have := total_lt hi hlt hs
            simp only [List.length_cons]; omega
          · cases hs
        | main c => cases hw
        | wake i => cases hw
        | wakeMain => cases hw
  have h1 := key l s (hr.inv hj) hl h
  have h2 := sum_le (fun i => rank (s.w i)) 10 jobs (fun i => rank_le _)
  exact Nat.le_trans h1 h2

/-- How many threads the main thread still waits for. -/
def toJoin (jobs : Nat) : Main → Nat
  | .joining k => jobs - k + 1
  | _ => 0

/-- Once every worker was told to quit it ends: no thread can take more than so many steps, nobody sleeps, and by `c108_no_deadlock` it
only stops when the main thread is done. -/
theorem c108_ends {jobs : Nat} {s s' : St} (hj : 0 < jobs) (hr : Reached jobs s) {k : Nat} (hm : s.main = .joining k) {l : List Op}
    (h : run jobs s l = some s') : (l.length ≤ 11 * jobs + 1) ∧ ((s'.main = .finished ∧ ∀ i < jobs, (s'.w i).pc = .exited) ∨ ∃ k, s'.main = .joining k) := by
  have key : ∀ (l : List Op) (s : St), Inv jobs s → (s.main = .finished ∨ ∃ k, s.main = .joining k) → run jobs s l = some s' →
      l.length ≤ total jobs s + toJoin jobs s.main ∧ Inv jobs s' ∧ (s'.main = .finished ∨ ∃ k, s'.main = .joining k) := by
    intro l
    induction l with
    | nil => intro s hi hm h; cases h; exact ⟨by simp, hi, hm⟩
    | cons o l ih =>
      intro s hi hm h
      simp only [run] at h
      cases hs : step jobs s o with
      | none => rw [hs] at h; cases h
      | some s1 =>
        rw [hs] at h
        have hi' := inv_step hj hi hs
        have hall : ∀ i < jobs, (s.w i).quit = true := hi.all (by rcases hm with hm | ⟨k, hm⟩; exact .inr hm; exact .inl ⟨k, hm⟩)
        cases o with
        | main c =>
          rcases hm with hm | ⟨k, hm⟩
          · simp only [step, mainStep, hm] at hs; cases hs
          · simp only [step, mainStep, hm] at hs
            split at hs
            · rename_i hlt
              split at hs
              · cases hs
                obtain ⟨h1, h2, h3⟩ := ih _ hi' (.inr ⟨_, rfl⟩) h
                refine ⟨?_, h2, h3⟩
                have h1 : l.length ≤ total jobs s + (jobs - (k + 1) + 1) := h1
                rw [hm]; simp only [toJoin, List.length_cons]; omega
              · cases hs
            · cases hs
              obtain ⟨h1, h2, h3⟩ := ih _ hi' (.inl rfl) h
              refine ⟨?_, h2, h3⟩
              have h1 : l.length ≤ total jobs s + 0 := h1
              rw [hm]; simp only [toJoin, List.length_cons]; omega
        | worker i r =>
          simp only [step] at hs
          split at hs
          · rename_i hlt
            have hlt' := total_lt hi hlt hs
            have hmain : s1.main = s.main := by
              have hne : s.main ≠ .asleep := by rcases hm with hm | ⟨k, hm⟩ <;> rw [hm] <;> intro h <;> cases h
              unfold workerStep at hs
              cases hpc : (s.w i).pc <;> simp only [hpc] at hs <;> (try (cases hs; done))
              case decided =>
                split at hs
                · cases hs; rfl
                · split at hs <;> (cases hs; rfl)
              case ret3 =>
                cases hs; simp [hne, set]
              all_goals (cases hs; rfl)
            obtain ⟨h1, h2, h3⟩ := ih _ hi' (by rw [hmain]; exact hm) h
            refine ⟨?_, h2, h3⟩
            rw [hmain] at h1
            simp only [List.length_cons]; omega
          · cases hs
        | wake i =>
          simp only [step] at hs
          split at hs
          · rename_i hlt
            have h1 := (asleep_idle hi hlt.1 hlt.2).2
            rw [hall i hlt.1] at h1; cases h1
          · cases hs
        | wakeMain =>
          simp only [step] at hs
          split at hs
          · rename_i ha
            rcases hm with hm | ⟨k, hm⟩ <;> rw [hm] at ha <;> cases ha
          · cases hs
  obtain ⟨h1, h2, h3⟩ := key l s (hr.inv hj) (.inr ⟨k, hm⟩) h
  have h4 : total jobs s ≤ 10 * jobs := sum_le (fun i => rank (s.w i)) 10 jobs (fun i => rank_le _)
  refine ⟨?_, ?_⟩
  · rw [hm] at h1
    simp only [toJoin] at h1
    omega
  · rcases h3 with h3 | h3
    · exact .inl ⟨h3, h2.gone h3⟩
    · exact .inr h3

/-- Two workers: node 7 and node 8 are handed over, the one that got 8 is done first, and both results come back; then everything ends. -/
def whole : List Op := [
  .worker 1 true, .worker 0 true, .main (.give 7), .main .skip, .main .skip, .main (.give 8), .main .skip, .main .skip, .main .skip,
  .worker 0 true, .worker 0 true, .worker 0 true, .worker 0 true, .worker 0 true, .worker 0 true, .worker 0 true, .worker 0 true,
  .main .skip, .main .skip, .main .quit,
  .main .skip,
  .worker 1 true, .worker 1 true, .worker 1 false, .worker 1 false, .worker 1 false, .worker 1 false, .worker 1 false,
  .main .skip, .main .skip, .main .quit, .main .quit,
  .main .skip, .main .skip, .main .skip,
  .worker 0 true, .worker 0 true, .worker 1 true, .worker 1 true, .main .skip, .main .skip, .main .skip]

example : (run 2 (init 2) (whole.take 9)).map (fun s => (s.main, s.count, (s.w 1).given, (s.w 1).worked)) = some (.asleep, 2, [7], []) := by decide +kernel
example : (run 2 (init 2) (whole.take 31)).map (fun s => (s.main, s.count, (s.w 0).taken.map (·.1), (s.w 0).taken.map (·.2))) = some (.ready, 0, [some 8], [true]) := by decide +kernel
example : (run 2 (init 2) (whole.take 31)).map (fun s => (s.main, s.count, (s.w 1).taken.map (·.1), (s.w 1).taken.map (·.2))) = some (.ready, 0, [some 7], [false]) := by decide +kernel
example : (run 2 (init 2) whole).map (fun s => (s.main, (s.w 0).pc, (s.w 1).pc)) = some (.finished, .exited, .exited) := by decide +kernel

/-- Node 5 is handed over, and a signal comes. -/
def dropped : List Op := [.main (.give 5), .main .skip, .main .skip, .main .quit, .main .skip, .main .skip, .main .skip,
  .worker 1 true, .worker 0 true, .worker 1 true, .worker 0 true, .main .skip, .main .skip, .main .skip]

/-- A signal that comes between the test of the inner loop and that of the outer one, updater.c:1980 and 1932: the main thread ends though
a worker is active. The worker sees that it is to quit and leaves the node that it was handed as it is, so the function is not called for
it; the threads end all the same. -/
theorem c108_dropped : ∃ s, Reached 2 s ∧ s.main = .finished ∧ s.count = 1 ∧ (s.w 1).given = [5] ∧ (s.w 1).worked = [] := by
  have h : ((run 2 (init 2) dropped).map (fun s => (s.main, s.count, (s.w 1).given, (s.w 1).worked))) = some (.finished, 1, [5], []) := by decide +kernel
  cases e : run 2 (init 2) dropped with
  | none => rw [e] at h; cases h
  | some s =>
    rw [e] at h
    simp only [Option.map_some, Option.some.injEq, Prod.mk.injEq] at h
    exact ⟨s, ⟨_, e⟩, h.1, h.2.1, h.2.2.1, h.2.2.2⟩

/-- The theorems on such runs. -/
example {s : St} (h : run 2 (init 2) (whole.take 31) = some s) (hc : s.count = 0) (hm : ∀ i y, s.main ≠ .took i y) :
    (s.w 1).given = (s.w 1).worked.map (·.1) ∧ (s.w 1).taken = (s.w 1).worked.map back :=
  c108_complete (by decide) ⟨_, h⟩ hc hm (by decide)
example {s s' : St} (h : run 2 (init 2) (whole.take 9) = some s) (l : List Op) (hl : ∀ o ∈ l, o.isWorker = true) (h' : run 2 s l = some s') : l.length ≤ 20 :=
  c108_workers_rest (by decide) ⟨_, h⟩ hl h'
example : (run 2 (init 2) (whole.take 35)).map (fun s => s.main) = some (.joining 0) := by decide +kernel
example {s s' : St} (h : run 2 (init 2) (whole.take 35) = some s) (hm : s.main = .joining 0) (l : List Op) (h' : run 2 s l = some s') : l.length ≤ 23 :=
  (c108_ends (by decide) ⟨_, h⟩ hm h').1

end Tup.Workers
