import Verif.Monitor.Live

/-!
# C45: the monitor keeps the database in step

Other processes, the kernel and the monitor take their steps in any order.  Nothing is assumed about when the monitor
reads or flushes.
-/

namespace Tup.Monitor

theorem inv_run {s s' : State} {l : List Step} (hw : Wf s) (hh : Here s) (h : s.run l = some s') : Wf s' ∧ Here s' := by
  induction l generalizing s with
  | nil => cases h; exact ⟨hw, hh⟩
  | cons a l ih =>
    rw [State.run] at h
    split at h
    · rename_i s1 hs
      exact ih (hw.step hs) (hh.step hw hs) h
    · cases h

/-- Whatever is done to the files, and however the steps are mixed: when no event is waiting any more, every file that
exists is recorded. -/
theorem c45_existing (disk : File → Bool) (l : List Step) {s : State} (h : (start disk).run l = some s) (hi : Idle s)
    (f : File) (hf : s.disk f = true) : s.recorded f = true := by
  have := (inv_run (Wf.start disk) (Here.start disk) h).2 f hf
  rw [hi.1, hi.2] at this
  exact this

theorem right_run {s s' : State} {l : List Step} (hw : Wf s) (hr : Right s) (hc : Careful Gentle s l) (h : s.run l = some s') :
    Wf s' ∧ Right s' := by
  induction l generalizing s with
  | nil => cases h; exact ⟨hw, hr⟩
  | cons a l ih =>
    rw [State.run] at h
    split at h
    · rename_i s1 hs
      exact ih (hw.step hs) (hr.step hw hs (fun o f ho => hc.1 o ho f)) (hc.2 s1 hs) h
    · cases h

/-- If no file is removed or moved on while the event of the move that put it there is waiting, then when no event is
waiting any more exactly the files that exist are recorded. -/
theorem c45_in_step (disk : File → Bool) (l : List Step) {s : State} (hc : Careful Gentle (start disk) l)
    (h : (start disk).run l = some s) (hi : Idle s) : InStep s := by
  intro f
  have := (right_run (Wf.start disk) (Right.start disk) hc h).2 f
  rw [hi.1, hi.2] at this
  cases hd : s.disk f
  · have hg := this.gone hd
    exact not_true hg
  · exact this.here hd

theorem Careful.mono {ok ok' : State → Op → Prop} (hok : ∀ s o, ok s o → ok' s o) {s : State} {l : List Step}
    (h : Careful ok s l) : Careful ok' s l := by
  induction l generalizing s with
  | nil => trivial
  | cons a l ih => exact ⟨fun o ho => hok _ _ (h.1 o ho), fun s' hs' => ih (h.2 s' hs')⟩

theorem live_run {s : State} {l : List Step} (hw : Wf s) (hr : Right s) (hl : Live s)
    (hc : Careful (fun s o => Gentle s o ∧ Patient s o) s l) : ∃ s', s.run l = some s' ∧ Wf s' ∧ Right s' ∧ Live s' := by
  induction l generalizing s with
  | nil => exact ⟨s, rfl, hw, hr, hl⟩
  | cons a l ih =>
    obtain ⟨s1, hs, hl1⟩ := hl.step (a := a) hw hr (fun o f ho => (hc.1 o ho).2 f)
    obtain ⟨s2, h2⟩ := ih (hw.step hs) (hr.step hw hs (fun o f ho => (hc.1 o ho).1 f)) hl1 (hc.2 s1 hs)
    refine ⟨s2, ?_, h2.2⟩
    rw [State.run, hs]
    exact h2.1

/-- If moreover no name is used again while the event of a move away from it is waiting, then the monitor never reads
memory that it has freed. -/
theorem c45_defined (disk : File → Bool) (l : List Step) (hc : Careful (fun s o => Gentle s o ∧ Patient s o) (start disk) l) :
    ∃ s, (start disk).run l = some s :=
  let ⟨s, h, _⟩ := live_run (Wf.start disk) (Right.start disk) (Live.start disk) hc
  ⟨s, h⟩

/-! ## The monitor gets there -/

theorem run_append (s : State) (l l' : List Step) :
    s.run (l ++ l') = match (generalizing := false) s.run l with
      | some s => s.run l'
      | none => none := by
  induction l generalizing s with
  | nil => rfl
  | cons a l ih =>
    rw [List.cons_append, State.run, State.run]
    cases s.step a with
    | none => rfl
    | some s1 => exact ih s1

theorem nexts (q : List Queued) : ∀ s : State, s.flushing = true → s.queue = q →
    ∃ n s', s.run (List.replicate n .next) = some s' ∧ s'.flushing = false ∧ s'.queue = [] ∧ s'.kernel = s.kernel ∧
      s'.disk = s.disk := by
  induction q with
  | nil =>
    intro s hf hq
    refine ⟨1, { s with flushing := false }, ?_, rfl, hq, rfl, rfl⟩
    simp [State.run, State.step, hf, hq]
  | cons m q ih =>
    intro s hf hq
    have hh : ∀ t : State, (t.handle m).flushing = t.flushing ∧ (t.handle m).queue = t.queue ∧
        (t.handle m).kernel = t.kernel ∧ (t.handle m).disk = t.disk := by
      intro t
      cases hm : m.ev.mask <;> cases hsrc : m.src <;>
        simp only [State.handle, hm, hsrc, State.watchPath, State.fileMod, State.fileDel] <;>
        first
        | exact ⟨rfl, rfl, rfl, rfl⟩
        | exact ⟨trivial, trivial, trivial, trivial⟩
        | (split <;> exact ⟨rfl, rfl, rfl, rfl⟩)
        | (split <;> split <;> exact ⟨rfl, rfl, rfl, rfl⟩)
    obtain ⟨h1, h2, h3, h4⟩ := hh { s with queue := q }
    obtain ⟨n, s', hr, hf', hq', hk', hd'⟩ := ih ({ s with queue := q }.handle m) (h1.trans hf) h2
    refine ⟨n + 1, s', ?_, hf', hq', hk'.trans h3, hd'.trans h4⟩
    rw [List.replicate_succ, State.run]
    have : s.step .next = some ({ s with queue := q }.handle m) := by simp [State.step, hf, hq]
    rw [this]
    exact hr

theorem queueEvent_keeps {s s' : State} {e : Event} (h : s.queueEvent e = some s') :
    s'.kernel = s.kernel ∧ s'.flushing = s.flushing ∧ s'.disk = s.disk := by
  rw [State.queueEvent] at h
  split at h
  · cases h; exact ⟨rfl, rfl, rfl⟩
  · split at h
    split at h
    · cases h; exact ⟨rfl, rfl, rfl⟩
    · rw [State.match] at h
      split at h
      · split at h
        · cases h
        · cases h; exact ⟨rfl, rfl, rfl⟩
        · cases h; exact ⟨rfl, rfl, rfl⟩
      · cases h; exact ⟨rfl, rfl, rfl⟩

theorem reads (k : List Event) : ∀ s : State, Wf s → Right s → Live s → s.flushing = false → s.kernel = k →
    ∃ s', s.run (List.replicate k.length .read) = some s' ∧ s'.kernel = [] ∧ s'.disk = s.disk ∧ s'.flushing = false := by
  induction k with
  | nil => intro s _ _ _ hf hk; exact ⟨s, rfl, hk, rfl, hf⟩
  | cons e k ih =>
    intro s hw hr hl hf hk
    obtain ⟨s1, hs1⟩ := hl.defined hw (e := e) (k := k)
    have hst : s.step .read = some s1 := by
      rw [State.step, if_neg (by rw [hf]; decide), hk]
      exact hs1
    obtain ⟨s2, hs2, hl2⟩ := hl.step (a := .read) hw hr (fun o f ho => by cases ho)
    cases hst.symm.trans hs2
    obtain ⟨h1, h2, h3⟩ := queueEvent_keeps hs1
    obtain ⟨s', hs', hk', hd', hf'⟩ := ih s1 (hw.step hst) (hr.step hw hst (fun o f ho => by cases ho)) hl2 (h2.trans hf) h1
    refine ⟨s', ?_, hk', hd'.trans h3, hf'⟩
    rw [List.length_cons, List.replicate_succ, State.run, hst]
    exact hs'

/-- As soon as the files are left alone, the monitor can go on and reach a state where no event is waiting, and then the
record is right. -/
theorem c45_settles (disk : File → Bool) (l : List Step) {s : State}
    (hc : Careful (fun s o => Gentle s o ∧ Patient s o) (start disk) l) (h : (start disk).run l = some s) :
    ∃ l' s', (∀ o, .op o ∉ l') ∧ s.run l' = some s' ∧ Idle s' ∧ s'.disk = s.disk ∧ InStep s' := by
  obtain ⟨s0, h0, hw, hr, hl⟩ := live_run (Wf.start disk) (Right.start disk) (Live.start disk) hc
  cases h0.symm.trans h
  -- the flush that may be running
  have step1 : ∃ l1 s1, (∀ o, .op o ∉ l1) ∧ s.run l1 = some s1 ∧ s1.flushing = false ∧ s1.disk = s.disk := by
    cases hf : s.flushing
    · exact ⟨[], s, by simp, rfl, hf, rfl⟩
    · obtain ⟨n, s1, h1, h2, -, -, h3⟩ := nexts s.queue s hf rfl
      exact ⟨_, s1, by simp [List.mem_replicate], h1, h2, h3⟩
  have careful : ∀ (l : List Step) (ok : State → Op → Prop), (∀ o, .op o ∉ l) → ∀ s, Careful ok s l := by
    intro l ok
    induction l with
    | nil => intro _ _; trivial
    | cons a l ih =>
      intro h s
      refine ⟨fun o ho => absurd (ho ▸ List.mem_cons_self) (h o), fun s' _ => ih (fun o ho => h o (List.mem_cons_of_mem _ ho)) s'⟩
  obtain ⟨l1, s1, n1, r1, f1, d1⟩ := step1
  obtain ⟨s1', r1', w1, t1, v1⟩ := live_run hw hr hl (careful l1 _ n1 s)
  cases r1'.symm.trans r1
  obtain ⟨s2, r2, k2, d2, f2⟩ := reads s1.kernel s1 w1 t1 v1 f1 rfl
  have n2 : ∀ o, Step.op o ∉ List.replicate s1.kernel.length Step.read := by simp [List.mem_replicate]
  obtain ⟨s2', r2', w2, t2, v2⟩ := live_run w1 t1 v1 (careful _ _ n2 s1)
  cases r2'.symm.trans r2
  obtain ⟨n, s3, r3, f3, q3, k3, d3⟩ := nexts s2.queue { s2 with flushing := true } rfl rfl
  let l' := l1 ++ (List.replicate s1.kernel.length .read ++ (.flush :: List.replicate n .next))
  have nl : ∀ o, .op o ∉ l' := by
    intro o ho
    rcases List.mem_append.1 ho with ho | ho
    · exact n1 o ho
    · rcases List.mem_append.1 ho with ho | ho
      · exact n2 o ho
      · simp [List.mem_replicate] at ho
  have hrun : s.run l' = some s3 := by
    show s.run (l1 ++ _) = _
    rw [run_append, r1]
    show s1.run (_ ++ _) = _
    rw [run_append, r2]
    exact r3
  have hidle : Idle s3 := ⟨k3.trans k2, q3⟩
  refine ⟨l', s3, nl, hrun, hidle, d3.trans (d2.trans d1), ?_⟩
  have hall : (start disk).run (l ++ l') = some s3 := by
    rw [run_append, h]
    exact hrun
  have hcall : Careful Gentle (start disk) (l ++ l') := by
    have : ∀ (s : State) (l : List Step), Careful Gentle s l → Careful Gentle s (l ++ l') := by
      intro s l
      induction l generalizing s with
      | nil => intro _; exact careful l' _ nl s
      | cons a l ih => intro h; exact ⟨h.1, fun s' hs' => ih s' (h.2 s' hs')⟩
    exact this _ _ (hc.mono (fun _ _ h => h.1))
  exact c45_in_step disk _ hcall hall hidle

/-! ## Sequences that lose a file -/

/-- Files for the examples. -/
def fileA : File := (1, "a".toList)
def fileB : File := (1, "b".toList)
def fileC : File := (1, "c".toList)

/-- The monitor reads `n` events, flushes the queue and deals with everything in it. -/
def catchUp (n : Nat) : List Step := List.replicate n .read ++ .flush :: List.replicate (n + 1) .next

/-- What exists, what is recorded and whether no event is waiting, for the three files. -/
def summary (s : Option State) : Option (List Bool × List Bool × Bool) :=
  s.map fun s => ([fileA, fileB, fileC].map s.disk, [fileA, fileB, fileC].map s.recorded, s.kernel.isEmpty && s.queue.isEmpty)

/-- `mv a b; rm b`: the move is cancelled, and with it the removal of `a`, which stays recorded. -/
theorem c45_moved_then_removed :
    summary ((start (· == fileA)).run ([.op (.rename fileA fileB), .op (.remove fileB)] ++ catchUp 3)) =
      some ([false, false, false], [true, false, false], true) := by decide

/-- `mv a b; mv b c`: in the same way. -/
theorem c45_moved_twice :
    summary ((start (· == fileA)).run ([.op (.rename fileA fileB), .op (.rename fileB fileC)] ++ catchUp 4)) =
      some ([false, false, true], [true, false, true], true) := by decide

/-- `mv /tmp/x a; rm a`, where `a` existed before: it stays recorded. -/
theorem c45_replaced_then_removed :
    summary ((start (· == fileA)).run ([.op (.moveIn fileA), .op (.remove fileA)] ++ catchUp 2)) =
      some ([false, false, false], [true, false, false], true) := by decide

/-- `mv a /tmp; touch a` and, after that was flushed, `mv /tmp/x b`: the list of moves has an entry whose event was freed,
which is read when the second event comes. -/
theorem c45_freed :
    summary ((start (· == fileA)).run ([.op (.moveOut fileA), .op (.create fileA)] ++ catchUp 2)) =
      some ([true, false, false], [true, false, false], true) ∧
    (start (· == fileA)).run ([.op (.moveOut fileA), .op (.create fileA)] ++ catchUp 2 ++ [.op (.moveIn fileB), .read]) = none := by
  decide

/-! ## Examples that meet the conditions -/

instance (s : State) (f : File) : Decidable (Coming s f) := inferInstanceAs (Decidable (_ ∨ _))

instance (s : State) (f : File) : Decidable (Going s f) := inferInstanceAs (Decidable (_ ∨ _))

instance (s : State) (o : Op) : Decidable (Gentle s o) :=
  match h : o.takes with
  | none => .isTrue (fun f hf => by rw [h] at hf; cases hf)
  | some f =>
    if hc : Coming s f then .isFalse (fun hg => hg f h hc)
    else .isTrue (fun g hg => by rw [h] at hg; cases hg; exact hc)

instance (s : State) (o : Op) : Decidable (Patient s o) :=
  match h : o.puts with
  | none => .isTrue (fun f hf => by rw [h] at hf; cases hf)
  | some f =>
    if hc : Going s f then .isFalse (fun hg => hg f h hc)
    else .isTrue (fun g hg => by rw [h] at hg; cases hg; exact hc)

/-- Whether a step is allowed. -/
def Step.allowed (ok : Op → Bool) : Step → Bool
  | .op o => ok o
  | _ => true

/-- Whether every operation among some steps is allowed. -/
def carefulB (ok : State → Op → Bool) : State → List Step → Bool
  | _, [] => true
  | s, a :: l =>
    Step.allowed (ok s) a &&
    (match s.step a with
      | some s' => carefulB ok s' l
      | none => true)

theorem careful_of {ok : State → Op → Bool} {s : State} {l : List Step} (h : carefulB ok s l = true) :
    Careful (fun s o => ok s o = true) s l := by
  induction l generalizing s with
  | nil => trivial
  | cons a l ih =>
    rw [carefulB, Bool.and_eq_true] at h
    refine ⟨fun o ho => ?_, fun s' hs' => ?_⟩
    · subst ho; exact h.1
    · have := h.2; rw [hs'] at this; exact ih this

theorem careful_both {s : State} {l : List Step} (h : carefulB (fun s o => decide (Gentle s o ∧ Patient s o)) s l = true) :
    Careful (fun s o => Gentle s o ∧ Patient s o) s l :=
  (careful_of h).mono (fun _ _ h => of_decide_eq_true h)

/-- `mv a b; touch a` is what an editor does that keeps the old version. -/
example : Careful Gentle (start (· == fileA)) ([.op (.rename fileA fileB), .op (.create fileA)] ++ catchUp 3) ∧
    summary ((start (· == fileA)).run ([.op (.rename fileA fileB), .op (.create fileA)] ++ catchUp 3)) =
      some ([true, true, false], [true, true, false], true) :=
  ⟨(careful_of (ok := fun s o => decide (Gentle s o)) (by decide)).mono (fun _ _ h => of_decide_eq_true h), by decide⟩

/-- Files that come and go between two looks of the monitor, which is in the middle of things. -/
def busy : List Step :=
  [.op (.create fileA), .read, .op (.write fileA), .flush, .op (.remove fileA), .next, .next, .op (.rename fileB fileC), .read, .read]

/-- The conditions hold, and in the end the record is right. -/
example : Careful (fun s o => Gentle s o ∧ Patient s o) (start (· == fileB)) busy ∧
    summary ((start (· == fileB)).run (busy ++ catchUp 5)) = some ([false, false, true], [false, false, true], true) :=
  ⟨careful_both (by decide), by decide⟩

end Tup.Monitor
