import Verif.Show.Model

/-! C107: what a command prints is shown whole, once, after the line for the command, on the right stream, and not mixed with that of
others. -/

namespace Tup.Show

/-! ## Specification -/

/-- The command ended with status 0 and what it did with files is as it should be. -/
def Success (j : Job) : Prop := j.ended = .exited 0 ∧ j.filesOk = true

/-- What the command printed; nothing if that was not collected. -/
def printed (j : Job) : Str := j.output.getD []

/-- The line with the expanded command, if the command has groups. -/
def expandedLine (j : Job) : Str :=
  match j.expanded with
  | some e => "tup: Expanded command string: ".toList ++ e ++ "\n".toList
  | none => []

/-- A part of its own with the messages of tup, if there are any. -/
def part (m : Str) : Str := if m = [] then [] else " *** tup messages ***\n".toList ++ m

/-- What tup says about the end of a command that failed by itself. -/
def verdict (j : Job) : Str :=
  match j.ended with
  | .exited 0 => []
  | .exited n => " *** Command ID=".toList ++ number j.id ++ " failed with return value ".toList ++ number n ++ "\n".toList
  | .signalled n m => " *** Command ID=".toList ++ number j.id ++ " killed by signal ".toList ++ number n ++ " (".toList ++ m ++ ")\n".toList
  | .neither => []

/-! ## Lemmas -/

theorem reads_flatten (s : Str) : (reads s).flatten = s := by
  induction hn : s.length using Nat.strongRecOn generalizing s with
  | _ n ih =>
    rw [reads]
    split
    · rename_i h; rw [h]; rfl
    · rename_i h
      have hl : 0 < s.length := List.length_pos_iff.2 h
      rw [List.flatten_cons, ih (s.drop 1024).length (by simp only [List.length_drop]; omega) _ rfl, List.take_append_drop]

theorem reads_nil {s : Str} : reads s = [] ↔ s = [] := by
  rw [reads]; split <;> simp_all

theorem cut_length (s : Str) : (cut s).length ≤ s.length := (List.takeWhile_sublist _).length_le

theorem cut_eq {s : Str} : cut s = s ↔ '\x00' ∉ s := by
  unfold cut
  induction s with
  | nil => simp
  | cons c t ih =>
    by_cases h : c = '\x00'
    · subst h; simp
    · rw [List.takeWhile_cons_of_pos (by simp [h])]
      simp only [List.cons.injEq, true_and, List.mem_cons, not_or]
      rw [ih]
      exact ⟨fun hm => ⟨fun e => h e.symm, hm⟩, fun hm => hm.2⟩

theorem flatMap_cut_length (l : List Str) : (l.flatMap cut).length ≤ l.flatten.length := by
  induction l with
  | nil => simp
  | cons a l ih =>
    simp only [List.flatMap_cons, List.flatten_cons, List.length_append]
    have := cut_length a
    omega

theorem flatMap_cut {l : List Str} : l.flatMap cut = l.flatten ↔ '\x00' ∉ l.flatten := by
  induction l with
  | nil => simp
  | cons a l ih =>
    simp only [List.flatMap_cons, List.flatten_cons, List.mem_append, not_or]
    constructor
    · intro h
      have h1 := cut_length a
      have h2 := flatMap_cut_length l
      have h3 := congrArg List.length h
      simp only [List.length_append] at h3
      obtain ⟨h4, h5⟩ := List.append_inj h (by omega)
      exact ⟨cut_eq.1 h4, ih.1 h5⟩
    · rintro ⟨h1, h2⟩
      rw [cut_eq.2 h1, ih.2 h2]

theorem text_append (f : Stream) (a b : List Write) : text f (a ++ b) = text f a ++ text f b := by
  simp [text]

theorem text_map {f to : Stream} (l : List Str) : text f (l.map fun c => (to, cut c)) = if to = f then l.flatMap cut else [] := by
  unfold text
  induction l with
  | nil => simp
  | cons a l ih =>
    by_cases h : to = f
    · rw [if_pos h] at ih ⊢
      rw [List.map_cons, List.filter_cons_of_pos (by simp [h]), List.flatMap_cons, ih, List.flatMap_cons]
    · rw [if_neg h] at ih ⊢
      rw [List.map_cons, List.filter_cons_of_neg (by simp [h]), ih]

theorem text_display {f to : Stream} {m : Bool} (s : Str) :
    text f (display to m s) = if to = f then (if m = true ∧ s ≠ [] then " *** tup messages ***\n".toList else []) ++ (reads s).flatMap cut else [] := by
  unfold display
  cases hr : reads s with
  | nil =>
    have := reads_nil.1 hr
    subst this
    simp [text]
  | cons a l =>
    have hs : s ≠ [] := fun h => by rw [reads_nil.2 h] at hr; cases hr
    simp only
    rw [text_append, text_map]
    by_cases h : to = f
    · rw [if_pos h, if_pos h]
      cases m
      · simp [text]
      · simp [text, h, hs]
    · rw [if_neg h, if_neg h]
      cases m
      · simp [text]
      · simp [text, h]

/-! ## Theorems -/

/-- C107: what a command printed is shown byte for byte if and only if it has no byte 0. -/
theorem c107_output (to : Stream) (s : Str) : text to (display to false s) = s ↔ '\x00' ∉ s := by
  rw [text_display, if_pos rfl]
  simp only [Bool.false_eq_true, false_and, if_false, List.nil_append]
  have := flatMap_cut (l := reads s)
  rw [reads_flatten] at this
  exact this

/-- C107: with a byte 0 the rest is lost, up to the next multiple of 1024 bytes. -/
theorem c107_zero : text .out (display .out false "a\x00b\n".toList) = "a".toList := by
  rw [text_display, if_pos rfl]
  have : reads "a\x00b\n".toList = ["a\x00b\n".toList] := by
    rw [reads, dif_neg (by decide), reads, dif_pos (by decide)]
    decide
  rw [this]
  decide

/-- C107: a command that succeeds: on stdout the line for the command, the expanded command if `verbose` is set, and then exactly what it
printed; on stderr the messages of tup, if there are any, and nothing else. With `quiet` there is no line for a command that printed nothing
and has no messages. -/
theorem c107_success (o : Opts) (j : Job) (hs : Success j) (hc : j.compareFails = false) (hp : '\x00' ∉ printed j) (hm : '\x00' ∉ j.messages) :
    (processOutput o j).2 = true ∧
    text .out (processOutput o j).1 = (if o.quiet = true ∧ printed j = [] ∧ j.messages = [] then [] else " ".toList ++ j.line ++ "\n".toList) ++
      (if o.verbose then expandedLine j else []) ++ printed j ∧
    text .err (processOutput o j).1 = part j.messages := by
  have hj : judge j = (j.messages, false) := by unfold judge; rw [hs.1, hs.2]; rfl
  have hmm : (reads j.messages).flatMap cut = j.messages := by
    have := (flatMap_cut (l := reads j.messages)).2 (by rw [reads_flatten]; exact hm)
    rw [this, reads_flatten]
  have hpp : (reads (printed j)).flatMap cut = printed j := by
    have := (flatMap_cut (l := reads (printed j))).2 (by rw [reads_flatten]; exact hp)
    rw [this, reads_flatten]
  unfold processOutput
  simp only [hj, hc, Bool.false_eq_true, if_false, Bool.not_false, true_and, text_append]
  unfold printed at *
  unfold part expandedLine
  cases ho : j.output with
  | none =>
    simp only [ho, Option.getD_none] at hpp ⊢
    constructor
    · rw [text_display, if_neg (by intro h; cases h)]
      rcases o with ⟨q, v⟩ <;> cases q <;> cases v <;> cases j.expanded <;> by_cases hme : j.messages = [] <;> simp [showResult, hme, text, *]
    · rw [text_display, if_pos rfl, hmm]
      rcases o with ⟨q, v⟩ <;> cases q <;> cases v <;> cases j.expanded <;> by_cases hme : j.messages = [] <;> simp [showResult, hme, text, *]
  | some s =>
    simp only [ho, Option.getD_some] at hpp ⊢
    constructor
    · rw [text_display, if_pos rfl, hpp, text_display (to := .err), if_neg (c := Stream.err = Stream.out) (by intro h; cases h)]
      rcases o with ⟨q, v⟩ <;> cases q <;> cases v <;> cases j.expanded <;> by_cases hme : j.messages = [] <;> by_cases hse : s = [] <;> simp [showResult, hme, hse, text, *]
    · rw [text_display, if_neg (by intro h; cases h), text_display, if_pos rfl, hmm]
      rcases o with ⟨q, v⟩ <;> cases q <;> cases v <;> cases j.expanded <;> by_cases hme : j.messages = [] <;> by_cases hse : s = [] <;> simp [showResult, hme, hse, text, *]

/-- C107: a command that fails: nothing on stdout; on stderr the line for the command, the expanded command, exactly what it printed, and
the messages of tup, of which the first tells how it ended. With `quiet` the line is left out only if there is nothing else to show, which
is not so for a command with a status other than 0 or that was killed by a signal. -/
theorem c107_failure (o : Opts) (j : Job) (hs : ¬ Success j) (hn : j.ended ≠ .neither) (hc : j.compareFails = false) (hp : '\x00' ∉ printed j)
    (hm : '\x00' ∉ verdict j ++ j.messages) :
    (processOutput o j).2 = false ∧ text .out (processOutput o j).1 = [] ∧
    text .err (processOutput o j).1 = (if o.quiet = true ∧ printed j = [] ∧ verdict j ++ j.messages = [] then [] else "* ".toList ++ j.line ++ "\n".toList) ++
      expandedLine j ++ printed j ++ part (verdict j ++ j.messages) ∧
    (j.ended ≠ .exited 0 → verdict j ≠ []) := by
  have hj : judge j = (verdict j ++ j.messages, true) := by
    unfold judge verdict
    cases he : j.ended with
    | exited n =>
      cases n with
      | zero =>
        have : j.filesOk = false := by
          cases hf : j.filesOk with
          | false => rfl
          | true => exact absurd ⟨he, hf⟩ hs
        simp [this]
      | succ n => simp
    | signalled n m => simp
    | neither => exact absurd he hn
  have hv : j.ended ≠ .exited 0 → verdict j ≠ [] := by
    intro h
    unfold verdict
    cases he : j.ended with
    | exited n =>
      cases n with
      | zero => exact absurd he h
      | succ n => simp
    | signalled n m => simp
    | neither => exact absurd he hn
  generalize hM : verdict j ++ j.messages = M at *
  have hmm : (reads M).flatMap cut = M := by
    have := (flatMap_cut (l := reads M)).2 (by rw [reads_flatten]; exact hm)
    rw [this, reads_flatten]
  have hpp : (reads (printed j)).flatMap cut = printed j := by
    have := (flatMap_cut (l := reads (printed j))).2 (by rw [reads_flatten]; exact hp)
    rw [this, reads_flatten]
  unfold processOutput
  simp only [hj, hc, Bool.false_eq_true, if_false, if_true, Bool.not_true, true_and, text_append]
  unfold printed at *
  unfold part expandedLine
  cases ho : j.output with
  | none =>
    simp only [ho, Option.getD_none] at hpp ⊢
    refine ⟨?_, ?_, hv⟩
    · rw [text_display, if_neg (by intro h; cases h)]
      rcases o with ⟨q, v⟩ <;> cases q <;> cases v <;> cases j.expanded <;> by_cases hme : M = [] <;> simp [showResult, hme, text]
    · rw [text_display, if_pos rfl, hmm]
      rcases o with ⟨q, v⟩ <;> cases q <;> cases v <;> cases j.expanded <;> by_cases hme : M = [] <;> simp [showResult, hme, text]
  | some s =>
    simp only [ho, Option.getD_some] at hpp ⊢
    refine ⟨?_, ?_, hv⟩
    · rw [text_display, if_neg (by intro h; cases h), text_display, if_neg (by intro h; cases h)]
      rcases o with ⟨q, v⟩ <;> cases q <;> cases v <;> cases j.expanded <;> by_cases hme : M = [] <;> by_cases hse : s = [] <;> simp [showResult, hme, hse, text]
    · rw [text_display, if_pos rfl, hpp, text_display, if_pos rfl, hmm]
      rcases o with ⟨q, v⟩ <;> cases q <;> cases v <;> cases j.expanded <;> by_cases hme : M = [] <;> by_cases hse : s = [] <;> simp [showResult, hme, hse, text]

/-- C107: if the outputs of a command with `^o` cannot be put back or compared, nothing of all this is shown, not even what the command printed. -/
theorem c107_lost (o : Opts) (j : Job) (hc : j.compareFails = true) : processOutput o j = ([], false) := by
  unfold processOutput; simp [hc]

/-- The threads before anything was printed. -/
def start (progs : Nat → List (List Write)) : St := { todo := progs, owner := none, trace := [] }

/-- What the owner of the lock has printed of its section. -/
def Inv (progs : Nat → List (List Write)) (s : St) (done : List (Nat × List Write)) (cur : List Write) : Prop :=
  s.trace = (done.map (·.2)).flatten ++ cur ∧
  match s.owner with
  | none => cur = [] ∧ ∀ i, progs i = (done.filter fun d => d.1 = i).map (·.2) ++ s.todo i
  | some (k, b) => ∀ i, progs i = (done.filter fun d => d.1 = i).map (·.2) ++ (if i = k then (cur ++ b) :: s.todo i else s.todo i)

theorem inv_run {progs : Nat → List (List Write)} {l : List Op} {s s' : St} (h : ∃ d c, Inv progs s d c) (hr : run s l = some s') :
    ∃ d c, Inv progs s' d c := by
  induction l generalizing s with
  | nil => cases hr; exact h
  | cons o l ih =>
    simp only [run] at hr
    cases hs : step s o with
    | none => rw [hs] at hr; cases hr
    | some s1 =>
      rw [hs] at hr
      refine ih ?_ hr
      obtain ⟨d, c, h1, h2⟩ := h
      cases o with
      | lock i =>
        simp only [step] at hs
        split at hs
        · rename_i ho ht
          cases hs
          rw [ho] at h2
          obtain ⟨rfl, h2⟩ := h2
          refine ⟨d, [], h1, fun k => ?_⟩
          simp only
          rw [h2 k]
          by_cases hk : k = i
          · subst hk; rw [if_pos rfl, if_pos rfl, ht]; rfl
          · rw [if_neg hk, if_neg hk]
        · cases hs
      | print i =>
        simp only [step] at hs
        split at hs
        · rename_i k w b ho
          split at hs
          · cases hs
            rw [ho] at h2
            refine ⟨d, c ++ [w], by simp [h1], fun m => ?_⟩
            simp only
            rw [h2 m]
            simp [List.append_assoc]
          · cases hs
        · cases hs
      | unlock i =>
        simp only [step] at hs
        split at hs
        · rename_i k ho
          split at hs
          · cases hs
            rw [ho] at h2
            refine ⟨d ++ [(k, c)], [], by simp [h1], rfl, fun m => ?_⟩
            simp only
            rw [h2 m]
            by_cases hk : m = k
            · subst hk; simp
            · have : ¬ k = m := fun e => hk e.symm
              simp [hk, this]
          · cases hs
        · cases hs

/-- C107: whatever the threads do in whatever order, what has been printed is, one after the other, the whole sections of the threads,
in some order in which those of each thread are in their order, and then the first part of one section if a thread has the lock. -/
theorem c107_whole (progs : Nat → List (List Write)) (l : List Op) (s : St) (hr : run (start progs) l = some s) :
    ∃ done : List (Nat × List Write), ∃ cur, s.trace = (done.map (·.2)).flatten ++ cur ∧
      (∀ i, ∃ rest, progs i = (done.filter fun d => d.1 = i).map (·.2) ++ rest) ∧
      (s.owner = none → cur = [] ∧ ∀ i, progs i = (done.filter fun d => d.1 = i).map (·.2) ++ s.todo i) ∧
      (∀ k b, s.owner = some (k, b) → progs k = (done.filter fun d => d.1 = k).map (·.2) ++ (cur ++ b) :: s.todo k) := by
  obtain ⟨d, c, h1, h2⟩ := inv_run (progs := progs) (s := start progs) ⟨[], [], rfl, (rfl : ([] : List Write) = []), fun i => rfl⟩ hr
  refine ⟨d, c, h1, ?_, fun ho => by rw [ho] at h2; exact h2, fun k b ho => by rw [ho] at h2; have := h2 k; rwa [if_pos rfl] at this⟩
  intro i
  cases ho : s.owner with
  | none => rw [ho] at h2; exact ⟨_, h2.2 i⟩
  | some p => obtain ⟨k, b⟩ := p; rw [ho] at h2; exact ⟨_, h2 i⟩

/-- C107: when all threads are done, what `process_output` prints for a command is in one piece on each of the streams. -/
theorem c107_together (progs : Nat → List (List Write)) (l : List Op) (s : St) (hr : run (start progs) l = some s) (ho : s.owner = none)
    (i : Nat) (hi : s.todo i = []) (o : Opts) (j : Job) (hj : (processOutput o j).1 ∈ progs i) :
    ∃ pre post, s.trace = pre ++ (processOutput o j).1 ++ post ∧
      ∀ f, text f s.trace = text f pre ++ text f (processOutput o j).1 ++ text f post := by
  obtain ⟨d, c, h1, _, h3, _⟩ := c107_whole progs l s hr
  obtain ⟨rfl, h4⟩ := h3 ho
  have := h4 i
  rw [hi, List.append_nil] at this
  rw [this, List.mem_map] at hj
  obtain ⟨x, hx, hx2⟩ := hj
  obtain ⟨a, b, hab⟩ := List.append_of_mem (List.mem_filter.1 hx).1
  have ht : s.trace = (a.map (·.2)).flatten ++ (processOutput o j).1 ++ (b.map (·.2)).flatten := by
    rw [h1, hab]; simp [hx2]
  exact ⟨_, _, ht, fun f => by rw [ht, text_append, text_append]⟩

/-- C107: until all is printed there is a thread that can go on. -/
theorem c107_no_deadlock (s : St) (h : s.owner ≠ none ∨ ∃ i, s.todo i ≠ []) : ∃ o s', step s o = some s' := by
  cases ho : s.owner with
  | some p =>
    obtain ⟨k, b⟩ := p
    cases b with
    | nil => exact ⟨.unlock k, _, by simp only [step, ho, if_true]; rfl⟩
    | cons w b => exact ⟨.print k, _, by simp only [step, ho, if_true]; rfl⟩
  | none =>
    obtain ⟨i, hi⟩ := h.resolve_left (fun h => h ho)
    cases ht : s.todo i with
    | nil => exact absurd ht hi
    | cons b l => exact ⟨.lock i, _, by simp only [step, ho, ht]; rfl⟩

/-! ## Cases that meet the hypotheses -/

def str (s : String) : Str := s.toList

/-- A compiler that succeeds with a warning, and one that fails. -/
def good : Job := { id := 7, ended := .exited 0, filesOk := true, messages := [], compareFails := false, output := some (str "a.c:1: warning\n"), expanded := none, line := str "cc a.c" }
def bad : Job := { good with id := 8, ended := .exited 1, output := some (str "b.c:1: error\n"), line := str "cc b.c" }

example : Success good ∧ ¬ Success bad ∧ bad.ended ≠ .neither ∧ '\x00' ∉ printed good ∧ '\x00' ∉ printed bad ∧ '\x00' ∉ verdict bad ++ bad.messages :=
  ⟨⟨rfl, rfl⟩, fun h => (by cases h.1), (by decide), (by decide +kernel), (by decide +kernel), (by decide +kernel)⟩

example : text .err (processOutput ⟨true, false⟩ bad).1 =
    str "* cc b.c\nb.c:1: error\n *** tup messages ***\n *** Command ID=8 failed with return value 1\n" := by
  rw [(c107_failure ⟨true, false⟩ bad (fun h => by cases h.1) (by decide) rfl (by decide +kernel) (by decide +kernel)).2.2.1]
  decide +kernel

/-- Two threads, of which the second has two sections. -/
def twoThreads (i : Nat) : List (List Write) :=
  if i = 0 then [[(.out, str "a"), (.out, str "b")]] else if i = 1 then [[(.out, str "c")], [(.err, str "d"), (.out, str "e")]] else []

example : (run (start twoThreads) [.lock 1, .print 1, .unlock 1, .lock 0, .print 0, .print 0, .unlock 0, .lock 1, .print 1, .print 1, .unlock 1]).map (fun s => (text .out s.trace, text .err s.trace)) =
    some (str "cabe", str "d") := by decide +kernel

/-- A thread that does not have the lock cannot print. -/
example : (run (start twoThreads) [.lock 1, .print 0]).isNone = true ∧ (run (start twoThreads) [.lock 1, .lock 0]).isNone = true := by decide +kernel

/-- The two compilers, each in its own thread. -/
def compilers (i : Nat) : List (List Write) :=
  if i = 0 then [(processOutput ⟨false, false⟩ good).1] else if i = 1 then [(processOutput ⟨false, false⟩ bad).1] else []

def printAll (i : Nat) : List Op := .lock i :: List.replicate ((compilers i).map List.length).sum (.print i) ++ [.unlock i]

/-- `c107_together` for them: what `bad` prints is in one piece. -/
example : ∃ s, run (start compilers) (printAll 1 ++ printAll 0) = some s ∧
    ∃ pre post, s.trace = pre ++ (processOutput ⟨false, false⟩ bad).1 ++ post ∧ text .err s.trace = text .err pre ++ text .err (processOutput ⟨false, false⟩ bad).1 ++ text .err post := by
  have h : ((run (start compilers) (printAll 1 ++ printAll 0)).map fun s => (s.owner.isNone, (s.todo 1).isEmpty)) = some (true, true) := by decide +kernel
  cases e : run (start compilers) (printAll 1 ++ printAll 0) with
  | none => rw [e] at h; cases h
  | some s =>
    rw [e] at h
    simp only [Option.map_some, Option.some.injEq, Prod.mk.injEq] at h
    obtain ⟨pre, post, h1, h2⟩ := c107_together compilers _ s e (by simpa using h.1) 1 (by simpa using h.2) ⟨false, false⟩ bad (List.mem_singleton.2 rfl)
    exact ⟨s, rfl, pre, post, h1, h2 .err⟩

/-- `c107_success` for `good`. -/
example : text .out (processOutput ⟨true, false⟩ good).1 = str " cc a.c\na.c:1: warning\n" := by
  rw [(c107_success ⟨true, false⟩ good ⟨rfl, rfl⟩ rfl (by decide +kernel) (by decide +kernel)).2.1]
  decide +kernel

end Tup.Show
