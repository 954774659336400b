import Verif.PidFile.Lemmas

/-! C109: what is known about the monitor from its pid file, while any number of processes write and read it. -/

namespace Tup.PidFile

/-- A state that comes about when the processes do the calls of `progs`; `v0` is what is in the file at the beginning, if there is one. -/
def Reached (v0 : Option Int) (progs : Nat → List Call) (s : St) : Prop := ∃ l, run (start v0 progs) l = some s

theorem Reached.inv {v0 : Option Int} {progs : Nat → List Call} {s : St} : Reached v0 progs s → Inv progs v0 s
  | ⟨_, h⟩ => inv_run (inv_start v0 progs) h

/-- C109: a call never gives a number that is torn or put together from two: it is -1, or what was in the file, or what a process has
written, or 0. -/
theorem c109_values {v0 : Option Int} {progs : Nat → List Call} {s : St} (hr : Reached v0 progs s) (i : Nat) (r : Int) (h : r ∈ (s.procs i).got) :
    r = -1 ∨ r = 0 ∨ v0 = some r ∨ ∃ j, Call.set r ∈ progs j := hr.inv.got i r h

/-- C109: when nobody is writing, the file has exactly what was written last; and there is no file only if nobody ever wrote. -/
theorem c109_last {v0 : Option Int} {progs : Nat → List Call} {s : St} (hr : Reached v0 progs s) (hn : ∀ j, Sets (s.procs j).pc = false) :
    (s.there = true → ∃ l v, s.log = l ++ [v] ∧ s.file = showPid v) := by
  intro ht
  have hi := hr.inv
  rcases hi.fresh ht (fun k v => ⟨fun e => (by have := hn k; rw [e] at this; cases this), fun e => (by have := hn k; rw [e] at this; cases this)⟩) with h | ⟨j, v, h⟩
  · exact h
  · have := hn j
    rw [h] at this; cases this

/-- C109: a call that nobody else interferes with gives what was written last, or -1 if there is no file. -/
theorem c109_get {v0 : Option Int} {progs : Nat → List Call} {s : St} (hr : Reached v0 progs s) (hn : ∀ j, Sets (s.procs j).pc = false) (hl : s.lock = none)
    {i : Nat} {t : List Call} (hp : (s.procs i).pc = .out) (ht : (s.procs i).todo = .get :: t) :
    (s.there = false → ∃ s', run s [(i, false)] = some s' ∧ (s'.procs i).got = (s.procs i).got ++ [-1]) ∧
    (s.there = true → ∃ s' l v, s.log = l ++ [v] ∧ run s [(i, false), (i, false), (i, false), (i, false), (i, false)] = some s' ∧
      (s'.procs i).got = (s.procs i).got ++ [v] ∧ s'.file = s.file ∧ s'.lock = none) := by
  constructor
  · intro hth
    simp only [run, step, hp, ht, hth, Bool.false_eq_true, if_false]
    exact ⟨_, rfl, by rw [put_self]⟩
  · intro hth
    obtain ⟨l, v, h1, h2⟩ := c109_last hr hn hth
    have hv := show_pos v
    have hz : ¬ (showPid v).length = 0 := by omega
    simp only [run, step, hp, ht, hth, hl, put, if_true, h2, slurp, Nat.lt_irrefl, false_or, List.take_length, number_show, hz, if_false, Bool.false_eq_true, and_false]
    exact ⟨_, l, v, h1, rfl, by simp, rfl, rfl⟩

/-- C109: a process that no longer exists is not taken for the monitor: the call gives -1, and -1 is written. -/
theorem c109_dead {s s' : St} {i : Nat} {r : Int} (hp : (s.procs i).pc = .gRead r) (h : step s i true = some s') (hr : 0 < r) :
    (s'.procs i).got = (s.procs i).got ++ [-1] ∧ (s'.procs i).todo = .set (-1) :: (s.procs i).todo := by
  simp only [step, hp, hr, and_self, if_true] at h
  cases h
  simp [put]

/-- C109: the one that has the lock can go on, so nobody waits for ever. -/
theorem c109_no_deadlock {v0 : Option Int} {progs : Nat → List Call} {s : St} (hr : Reached v0 progs s)
    (h : ∃ i, (s.procs i).pc ≠ .out ∨ (s.procs i).todo ≠ []) : ∃ i, ∀ d, (step s i d).isSome := by
  have hi := hr.inv
  cases hl : s.lock with
  | some k =>
    refine ⟨k, fun d => ?_⟩
    have := (hi.lock k).1 hl
    cases hpc : (s.procs k).pc <;> rw [hpc] at this <;> try (cases this; done)
    all_goals simp only [step, hpc]
    all_goals try rfl
    split <;> rfl
  | none =>
    obtain ⟨i, h⟩ := h
    refine ⟨i, fun d => ?_⟩
    have hno := hi.nobody hl i
    cases hpc : (s.procs i).pc <;> rw [hpc] at hno <;> try (cases hno; done)
    · simp only [step, hpc]
      cases ht : (s.procs i).todo with
      | nil => rcases h with h | h
               · exact absurd hpc h
               · exact absurd ht h
      | cons c t =>
        cases c
        · rfl
        · simp only; split <;> rfl
    · simp only [step, hpc, hl]; rfl
    · simp only [step, hpc, hl]; rfl

/-- C109: the project is scanned unless the user said not to, or a process that was there when it was asked for has told that it is the
monitor; or 0 was read. -/
theorem c109_scan {v0 : Option Int} {progs : Nat → List Call} {s : St} (hr : Reached v0 progs s) (i : Nat) (r : Int) (h : r ∈ (s.procs i).got) (full : Bool)
    (hs : scan r true full ≠ .project) : r = 0 ∨ (0 < r ∧ (v0 = some r ∨ ∃ j, Call.set r ∈ progs j)) := by
  rcases c109_values hr i r h with h | h | h
  · subst h; exact absurd rfl hs
  · exact .inl h
  · rcases Int.lt_trichotomy 0 r with hp | hp | hp
    · exact .inr ⟨hp, h⟩
    · exact .inl hp.symm
    · exact absurd (by simp [scan, hp]) hs

/-- ... and what `stop_monitor` sends a signal to is such a process, or 0, which means all processes of its own group. -/
theorem c109_stop {v0 : Option Int} {progs : Nat → List Call} {s : St} (hr : Reached v0 progs s) (i : Nat) (r : Int) (h : r ∈ (s.procs i).got) (sd : Bool) {p : Int}
    (hs : stop sd r = some (some p)) : p = r ∧ (r = 0 ∨ (0 < r ∧ (v0 = some r ∨ ∃ j, Call.set r ∈ progs j))) := by
  unfold stop at hs
  split at hs
  · split at hs <;> cases hs
  · rename_i hn
    cases hs
    rcases c109_values hr i r h with h | h | h
    · subst h; exact absurd (by decide) hn
    · exact ⟨rfl, .inl h⟩
    · refine ⟨rfl, ?_⟩
      rcases Int.lt_trichotomy 0 r with hp | hp | hp
      · exact .inr ⟨hp, h⟩
      · exact .inl hp.symm
      · exact absurd hp hn

/-! ## Cases -/

/-- A monitor with id 71 starts, one with id 8 ends, and `tup` asks. -/
def three (i : Nat) : List Call := if i = 0 then [.set 71] else if i = 1 then [.set (-1)] else if i = 2 then [.get] else []

/-- The steps of a process one after the other. -/
def turns (i n : Nat) : List (Nat × Bool) := List.replicate n (i, false)

/-- C109: 0 can be read though nobody wrote it. The first process has written and not yet cut when the second one empties the file; then the
first one cuts it, which fills it with zeros, and the third one reads before the second one writes. -/
theorem c109_zero : ∃ s, Reached (some 8) three s ∧ (s.procs 2).got = [0] ∧ stop true 0 = some (some 0) ∧ scan 0 true false = .nothing := by
  have h : (run (start (some 8) three) (turns 0 3 ++ turns 1 1 ++ turns 0 2 ++ turns 2 5)).map (fun s => (s.procs 2).got) = some [0] := by decide +kernel
  cases e : run (start (some 8) three) (turns 0 3 ++ turns 1 1 ++ turns 0 2 ++ turns 2 5) with
  | none => rw [e] at h; cases h
  | some s =>
    rw [e] at h
    exact ⟨s, ⟨_, e⟩, by simpa using h, rfl, rfl⟩

/-- C109: the monitor that is ending may be the last to write, so that nothing is known of the one that has started. -/
theorem c109_overtaken : ∃ s, Reached (some 8) three s ∧ (s.procs 2).got = [-1] ∧ s.log = [8, 71, -1] := by
  have h : (run (start (some 8) three) (turns 0 5 ++ turns 1 5 ++ turns 2 5)).map (fun s => ((s.procs 2).got, s.log)) = some ([-1], [8, 71, -1]) := by decide +kernel
  cases e : run (start (some 8) three) (turns 0 5 ++ turns 1 5 ++ turns 2 5) with
  | none => rw [e] at h; cases h
  | some s =>
    rw [e] at h
    simp only [Option.map_some, Option.some.injEq, Prod.mk.injEq] at h
    exact ⟨s, ⟨_, e⟩, h.1, h.2⟩

/-- One after the other in the right order: the new one is found. -/
example : (run (start (some 8) three) (turns 1 5 ++ turns 0 5 ++ turns 2 5)).map (fun s => ((s.procs 2).got, s.file)) = some ([71], ['7', '1']) := by decide +kernel

/-- The longer text is cut: `8000` is in the file, and the one that writes -1 has opened it before. -/
example : (run (start none (fun i => if i = 0 then [.set 8000] else if i = 1 then [.set (-1), .get] else []))
    (turns 1 1 ++ turns 0 5 ++ turns 1 9)).map (fun s => ((s.procs 1).got, s.file)) = some ([-1], ['-', '1']) := by decide +kernel

/-- Process 71 is gone: `c109_dead`. -/
example : (run (start (some 71) (fun i => if i = 0 then [.get] else [])) (turns 0 4 ++ [(0, true)] ++ turns 0 5)).map (fun s => ((s.procs 0).got, s.file, (s.procs 0).pc)) =
    some ([-1], ['-', '1'], .out) := by decide +kernel

/-- `c109_get` after the first two are done. -/
example {s : St} (h : run (start (some 8) three) (turns 1 5 ++ turns 0 5) = some s) (hn : ∀ j, Sets (s.procs j).pc = false) (hl : s.lock = none) (ht : s.there = true)
    (hp : (s.procs 2).pc = .out) (hq : (s.procs 2).todo = [.get]) : ∃ s' l v, s.log = l ++ [v] ∧ run s (turns 2 5) = some s' ∧ (s'.procs 2).got = (s.procs 2).got ++ [v] := by
  obtain ⟨s', l, v, h1, h2, h3, _⟩ := (c109_get ⟨_, h⟩ hn hl hp hq).2 ht
  exact ⟨s', l, v, h1, h2, h3⟩
example : (run (start (some 8) three) (turns 1 5 ++ turns 0 5)).map (fun s => (s.lock, s.there, (s.procs 2).todo, (s.procs 2).pc)) = some (none, true, [.get], .out) := by decide +kernel

end Tup.PidFile
