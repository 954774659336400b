import Verif.Depfile.Lemmas

/-! Property C64 (see /verif/properties.jsonl). -/

namespace Tup.Depfile

/-- However the processes of a command take turns: when they are done, the reader reports exactly the calls to be reported of
all processes, those of each process in their order, with both names as paths from the root; provided that these are
shorter than 4095 bytes. -/
theorem c64_reported (progs : Nat → List Call) (hp : ∀ i, ∀ c ∈ progs i, Proper c)
    (hs : ∀ i, ∀ c ∈ progs i, Seen c → Short c) (sched : List Nat)
    (hf : Finished (run sched (begin progs))) :
    ∃ log, Merges progs log ∧ process (run sched (begin progs)).file = .ok (log.map (access ·.2)) := by
  obtain ⟨log, hi⟩ := inv_run sched (inv_begin progs)
  obtain ⟨h1, h2⟩ := finished_log hi hf
  refine ⟨log, h2, ?_⟩
  have e : written log = (log.map (access ·.2)).flatMap enc := by simp [written, List.flatMap_map]
  rw [h1, e, process]
  refine loop_all _ ?_ _ (by have := flatMap_length (log.map (access ·.2)); omega)
  intro a ha
  obtain ⟨x, hx, rfl⟩ := List.mem_map.1 ha
  obtain ⟨q1, q2⟩ := mem_of_merges h2 hx
  exact ⟨acc_of_proper (hp _ _ q1), hs _ _ q1 q2⟩

open Classical in
/-- If a path is too long, reading the file fails, and with it the command. -/
theorem c64_too_long (progs : Nat → List Call) (hp : ∀ i, ∀ c ∈ progs i, Proper c)
    (hs : ∃ i, ∃ c ∈ progs i, Seen c ∧ ¬Short c) (sched : List Nat)
    (hf : Finished (run sched (begin progs))) : process (run sched (begin progs)).file = .error .long := by
  obtain ⟨log, hi⟩ := inv_run sched (inv_begin progs)
  obtain ⟨h1, h2⟩ := finished_log hi hf
  have e : written log = (log.map (access ·.2)).flatMap enc := by simp [written, List.flatMap_map]
  rw [h1, e, process]
  refine loop_some_long _ ?_ ?_ _ (by have := flatMap_length (log.map (access ·.2)); omega)
  · intro a ha
    obtain ⟨x, hx, rfl⟩ := List.mem_map.1 ha
    exact acc_of_proper (hp _ _ (mem_of_merges h2 hx).1)
  · obtain ⟨i, c, hc, hr, hl⟩ := hs
    have hm : c ∈ own i log := by rw [h2 i]; exact List.mem_filter.2 ⟨hc, decide_eq_true hr⟩
    simp only [own, List.mem_map, List.mem_filter] at hm
    obtain ⟨x, ⟨hx, _⟩, rfl⟩ := hm
    exact ⟨access x.2, List.mem_map.2 ⟨x, hx, rfl⟩, hl⟩

/-! ### The processes come to an end -/

/-- The steps a process still has to do, at most. -/
def work (p : Proc) : Nat := (match p.cur with | none => 0 | some ws => ws.length + 1) + 9 * p.todo.length

def total (n : Nat) (s : Sys) : Nat := ((List.range n).map (fun i => work (s.procs i))).sum

theorem chunks_length (c : Call) : (chunks c).length ≤ 7 := by
  simp only [chunks, List.length_append]
  split <;> split <;> simp

theorem sum_le (l : List Nat) (f g : Nat → Nat) (h : ∀ i ∈ l, f i ≤ g i) : (l.map f).sum ≤ (l.map g).sum := by
  induction l with
  | nil => simp
  | cons x xs ih =>
    simp only [List.map_cons, List.sum_cons]
    have := h x (by simp)
    have := ih (fun i hi => h i (by simp [hi]))
    omega

theorem sum_lt (l : List Nat) (f g : Nat → Nat) (h : ∀ i ∈ l, f i ≤ g i) (hs : ∃ i ∈ l, f i < g i) :
    (l.map f).sum < (l.map g).sum := by
  induction l with
  | nil => obtain ⟨i, hi, _⟩ := hs; cases hi
  | cons x xs ih =>
    simp only [List.map_cons, List.sum_cons]
    have h1 := h x (by simp)
    have h2 := sum_le xs f g (fun i hi => h i (by simp [hi]))
    obtain ⟨i, hi, hlt⟩ := hs
    rcases List.mem_cons.1 hi with rfl | hi
    · omega
    · have := ih (fun i hi => h i (by simp [hi])) ⟨i, hi, hlt⟩
      omega

/-- A step of a process that does not have to wait. -/
theorem step_work (i : Nat) (s : Sys) (h : (s.procs i).cur ≠ none ∨ (s.procs i).todo ≠ [] ∧ s.lock = none) :
    (∀ j, j ≠ i → (step i s).procs j = s.procs j) ∧ work ((step i s).procs i) < work (s.procs i) := by
  unfold step
  rcases hp : s.procs i with ⟨todo, cur⟩
  rw [hp] at h
  simp only at h ⊢
  have hu : ∀ p j, j ≠ i → upd s.procs i p j = s.procs j := fun p j hj => by simp only [upd]; rw [if_neg hj]
  have hv : ∀ p, upd s.procs i p i = p := fun p => by simp [upd]
  cases cur with
  | none =>
    cases todo with
    | nil => simp at h
    | cons c t =>
      have hl : s.lock = none := by simpa using h
      simp only [hl]
      split
      · refine ⟨hu _, ?_⟩
        simp only [hv, work, List.length_cons]; omega
      · refine ⟨hu _, ?_⟩
        have := chunks_length c
        simp only [hv, work, List.length_cons]; omega
  | some ws =>
    cases ws with
    | nil =>
      refine ⟨hu _, ?_⟩
      simp only [hv, work, List.length_nil]; omega
    | cons w ws =>
      refine ⟨hu _, ?_⟩
      simp only [hv, work, List.length_cons]; omega

/-- No process waits for ever: from every situation that finitely many processes can come into, they can go on until
all of them are done. -/
theorem c64_ends (progs : Nat → List Call) (n : Nat) (hn : ∀ i, n ≤ i → progs i = []) (sched : List Nat) :
    ∃ more, Finished (run (sched ++ more) (begin progs)) := by
  have key : ∀ k s log, Inv progs s log → total n s = k → (∀ i, n ≤ i → (s.procs i).todo = [] ∧ (s.procs i).cur = none) →
      ∃ more, Finished (run more s) := by
    intro k
    induction k using Nat.strongRecOn with
    | ind k ih =>
      intro s log hi hk hout
      by_cases hfin : Finished s
      · exact ⟨[], hfin⟩
      · obtain ⟨i, hnow⟩ : ∃ i, (s.procs i).cur ≠ none ∨ (s.procs i).todo ≠ [] ∧ s.lock = none := by
          cases hl : s.lock with
          | some i =>
            obtain ⟨⟨ws, q1, _⟩, _⟩ := hi.held i hl
            exact ⟨i, Or.inl (by rw [q1]; simp)⟩
          | none =>
            unfold Finished at hfin
            rw [Classical.not_forall] at hfin
            obtain ⟨i, hfi⟩ := hfin
            have := (hi.free hl).1 i
            exact ⟨i, Or.inr ⟨fun e => hfi ⟨e, this⟩, rfl⟩⟩
        have hin : i < n := by
          rcases Nat.lt_or_ge i n with h | h
          · exact h
          · obtain ⟨o1, o2⟩ := hout i h
            rcases hnow with h | h
            · exact absurd o2 h
            · exact absurd o1 h.1
        obtain ⟨w1, w2⟩ := step_work i s hnow
        have hlt : total n (step i s) < total n s := by
          refine sum_lt _ _ _ ?_ ⟨i, List.mem_range.2 hin, w2⟩
          intro j _
          by_cases hj : j = i
          · rw [hj]; omega
          · rw [w1 j hj]; exact Nat.le_refl _
        obtain ⟨log', hi'⟩ := inv_step hi i
        obtain ⟨more, hm⟩ := ih _ (by omega) (step i s) log' hi' rfl (by
          intro j hj
          have hji : j ≠ i := by omega
          rw [w1 j hji]
          exact hout j hj)
        exact ⟨i :: more, hm⟩
  have hrun : ∀ (a b : List Nat) (s : Sys), run (a ++ b) s = run b (run a s) := by
    intro a
    induction a with
    | nil => exact fun _ _ => rfl
    | cons x a ih => exact fun b s => ih b (step x s)
  obtain ⟨log, hi⟩ := inv_run sched (inv_begin progs)
  have hidle : ∀ (a : List Nat) (s : Sys), (∀ i, n ≤ i → (s.procs i).todo = [] ∧ (s.procs i).cur = none) →
      ∀ i, n ≤ i → ((run a s).procs i).todo = [] ∧ ((run a s).procs i).cur = none := by
    intro a
    induction a with
    | nil => exact fun _ h => h
    | cons x a ih =>
      intro s h
      refine ih (step x s) ?_
      intro i hn
      obtain ⟨h1, h2⟩ := h i hn
      by_cases hx : i = x
      · subst hx
        have : step i s = s := by
          unfold step
          simp only [h1, h2]
        rw [this]
        exact ⟨h1, h2⟩
      · have : (step x s).procs i = s.procs i := by
          unfold step
          rcases hp : s.procs x with ⟨todo, cur⟩
          have hu : ∀ p, upd s.procs x p i = s.procs i := fun p => by simp only [upd]; rw [if_neg hx]
          simp only
          cases cur with
          | none =>
            cases todo with
            | nil => rfl
            | cons c t =>
              simp only
              split
              · exact hu _
              · split
                · exact hu _
                · rfl
          | some ws =>
            cases ws with
            | nil => exact hu _
            | cons w ws => exact hu _
        rw [this]
        exact ⟨h1, h2⟩
  obtain ⟨more, hm⟩ := key _ _ log hi rfl (hidle sched (begin progs) (fun i hn' => ⟨hn i hn', rfl⟩))
  exact ⟨more, by rw [hrun]; exact hm⟩

/-! ### What is not reported -/

instance : DecidableEq (Except Err (List Access))
  | .ok a, .ok b => if h : a = b then .isTrue (by rw [h]) else .isFalse (fun e => h (Except.ok.inj e))
  | .error a, .error b => if h : a = b then .isTrue (by rw [h]) else .isFalse (fun e => h (Except.error.inj e))
  | .ok _, .error _ => .isFalse (fun e => by cases e)
  | .error _, .ok _ => .isFalse (fun e => by cases e)

/-- A file that is moved into the project from a place that is ignored is not reported at all, although a file of the
project is written. -/
theorem c64_moved_from_dev (dir rest file2 : Bytes) : ¬Seen ⟨dir, lit "/dev/shm/" ++ rest, file2, 2⟩ := by
  intro h
  refine h.1 (Or.inl ⟨lit "shm/" ++ rest, ?_⟩)
  show lit "/dev/shm/" ++ rest = _
  rw [← List.append_assoc]
  rfl

/-- Process 0 reads one file and process 1 writes another. -/
def two (i : Nat) : List Call :=
  if i = 0 then [⟨lit "/p", lit "/p/included_abc.h", [], 0⟩]
  else if i = 1 then [⟨lit "/p", lit "/p/ab", [], 1⟩] else []

/-- If a process is killed while it records an access, the file is read without an error all the same, but a write of
another process is not reported, only a read of a file with the name "\\x01": here process 0 is killed after it has written the first part of an event; process 1
does all of its steps. -/
theorem c64_killed :
    process (run [1, 1, 1, 1, 1] (kill 0 (run [0, 0] (begin two)))).file = .ok [⟨0, [1], []⟩] ∧
    Finished (run [1, 1, 1, 1, 1] (kill 0 (run [0, 0] (begin two)))) := by
  refine ⟨by decide +kernel, ?_⟩
  intro i
  by_cases h0 : i = 0
  · subst h0; exact ⟨by decide +kernel, by decide +kernel⟩
  · by_cases h1 : i = 1
    · subst h1; exact ⟨by decide +kernel, by decide +kernel⟩
    · have : (run [1, 1, 1, 1, 1] (kill 0 (run [0, 0] (begin two)))).procs i = ⟨[], none⟩ := by
        have hs : ∀ j s, j ≠ i → (step j s).procs i = s.procs i := by
          intro j s hj
          unfold step
          simp only
          split
          · split
            · rfl
            · split
              · simp only [upd]; rw [if_neg (fun e => hj e.symm)]
              · split
                · simp only [upd]; rw [if_neg (fun e => hj e.symm)]
                · rfl
          · simp only [upd]; rw [if_neg (fun e => hj e.symm)]
          · simp only [upd]; rw [if_neg (fun e => hj e.symm)]
        have n1 : (1 : Nat) ≠ i := fun e => h1 e.symm
        have n0 : (0 : Nat) ≠ i := fun e => h0 e.symm
        simp only [run]
        rw [hs 1 _ n1, hs 1 _ n1, hs 1 _ n1, hs 1 _ n1, hs 1 _ n1]
        simp only [kill, upd]
        rw [if_neg h0, hs 0 _ n0, hs 0 _ n0]
        simp only [begin, two]
        rw [if_neg h0, if_neg h1]
      rw [this]
      exact ⟨rfl, rfl⟩

/-! ### A case -/

/-- A compiler reads a header by a relative name and a system file; another process moves a file. -/
def progs (i : Nat) : List Call :=
  if i = 0 then [⟨lit "/p/src", lit "../a.h", [], 0⟩, ⟨lit "/p/src", lit "/dev/null", [], 1⟩,
    ⟨lit "/p/src", lit "a.o", [], 1⟩]
  else if i = 1 then [⟨lit "/p", lit "x.tmp", lit "x", 2⟩] else []

example : ∀ i, ∀ c ∈ progs i, Proper c ∧ Short c := by
  intro i c hc
  unfold progs at hc
  split at hc
  · simp only [List.mem_cons, List.not_mem_nil, or_false] at hc
    rcases hc with rfl | rfl | rfl <;>
      exact ⟨⟨by decide +kernel, by decide +kernel, by decide +kernel, by decide +kernel, by decide +kernel, by decide +kernel⟩,
        by decide +kernel, by decide +kernel⟩
  · split at hc
    · simp only [List.mem_cons, List.not_mem_nil, or_false] at hc
      subst hc
      exact ⟨⟨by decide +kernel, by decide +kernel, by decide +kernel, by decide +kernel, by decide +kernel, by decide +kernel⟩,
        by decide +kernel, by decide +kernel⟩
    · cases hc

/-- The two processes take turns, and the second has to wait for the first. -/
example : process (run ([0, 0, 1, 0, 1] ++ List.replicate 12 0 ++ List.replicate 12 1 ++ List.replicate 20 0) (begin progs)).file =
    .ok [⟨0, lit "/p/src/../a.h", []⟩, ⟨1, lit "/p/src/a.o", []⟩, ⟨2, lit "/p/x.tmp", lit "/p/x"⟩] := by
  decide +kernel

def turns : List Nat := [0, 0, 1, 0, 1] ++ List.replicate 12 0 ++ List.replicate 12 1 ++ List.replicate 20 0

/-- Nothing happens to a process that has no turn. -/
theorem untouched (sched : List Nat) (s : Sys) (i : Nat) (h : i ∉ sched) : (run sched s).procs i = s.procs i := by
  induction sched generalizing s with
  | nil => rfl
  | cons k l ih =>
    rw [run, ih _ (fun hm => h (List.mem_cons_of_mem _ hm))]
    have hk : i ≠ k := fun e => h (e ▸ List.mem_cons_self)
    simp only [step]
    (repeat' split) <;> simp [upd, hk]

/-- After these turns all processes are done. -/
example : Finished (run turns (begin progs)) := by
  intro i
  match i with
  | 0 => exact ⟨by decide +kernel, by decide +kernel⟩
  | 1 => exact ⟨by decide +kernel, by decide +kernel⟩
  | n + 2 =>
    have hn : n + 2 ∉ turns := by simp [turns]
    rw [untouched _ _ _ hn]
    exact ⟨rfl, rfl⟩

/-- A process that opens a file whose name has 5000 bytes. -/
def longName (i : Nat) : List Call := if i = 0 then [⟨lit "/p", List.replicate 5000 97, [], 0⟩] else []

example : process (run (List.replicate 12 0) (begin longName)).file = .error .long := by
  refine c64_too_long longName ?_ ⟨0, ⟨lit "/p", List.replicate 5000 97, [], 0⟩, List.mem_singleton.2 rfl, ⟨?_, ?_⟩, ?_⟩ _ ?_
  · intro i c hc
    unfold longName at hc
    split at hc
    · rw [List.mem_singleton] at hc
      subst hc
      exact ⟨by decide +kernel, by decide +kernel, by decide +kernel, by decide +kernel, by decide +kernel, by decide +kernel⟩
    · cases hc
  · have h0 : ∀ c ∈ (List.replicate 5000 97 : Bytes), c = 97 := fun c hc => List.eq_of_mem_replicate hc
    have key : ∀ {x : Bytes}, 47 ∈ x → List.replicate 5000 97 = x → False := by
      intro x hx e
      rw [← e] at hx
      exact absurd (h0 _ hx) (by decide)
    rintro (⟨r, h⟩ | ⟨r, h⟩ | ⟨r, h⟩ | ⟨r, h⟩ | ⟨l, r, h | h | h⟩) <;>
      refine key ?_ h <;> simp only [List.mem_append] <;> first | exact .inl (by decide +kernel) | exact .inl (.inr (by decide +kernel))
  · rintro (⟨r, h⟩ | ⟨r, h⟩ | ⟨r, h⟩ | ⟨r, h⟩ | ⟨l, r, h | h | h⟩) <;>
      (have := congrArg List.length h; simp [lit] at this) 
  · exact fun h => absurd h.1 (by decide +kernel)
  · intro i
    by_cases e : i = 0
    · subst e; exact ⟨by decide +kernel, by decide +kernel⟩
    · rw [untouched _ _ _ (by simp [e])]
      exact ⟨if_neg e, rfl⟩

end Tup.Depfile
