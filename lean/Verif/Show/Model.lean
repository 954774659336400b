import Verif.Text

/-!
What an update prints about the commands that it runs: `process_output`, src/tup/updater.c:2595-2708, `display_output`,
src/tup/config.c:155-196, and `show_result`, src/tup/progress.c:193-249, in the threads of an update, which take `display_mutex`
(updater.c:3052-3060) for it.

Left out: the progress bar and the colours (`clear_active`, `color_set`), errors of `tmpfile`, `read`, `close`, `fclose`.
-/

namespace Tup.Show

/-- `stdout` and `stderr`. -/
inductive Stream where
  | out
  | err
  deriving DecidableEq, Repr

/-- A call of `fprintf`. -/
abbrev Write := Stream × Str

/-- How the command ended, updater.c:2624-2648. -/
inductive Ended where
  | exited (status : Nat)
  /-- with the text for the signal, 2638-2642 -/
  | signalled (sig : Nat) (msg : Str)
  | neither
  deriving DecidableEq

/-- What `process_output` has of a command. -/
structure Job where
  id : Nat
  ended : Ended
  /-- `write_files` returns 0 -/
  filesOk : Bool
  /-- what `write_files` writes to `f` -/
  messages : Str
  /-- `restore_outputs`, `unskip_outputs` or `check_outputs` is called and fails, 2650-2662 -/
  compareFails : Bool
  /-- the content of the file with what the command printed; `none`: `output_fd` is -1 (flag `^s`, and links that tup makes itself) -/
  output : Option Str
  /-- the command with the groups replaced, if it has any -/
  expanded : Option Str
  /-- what `show_result` prints after the mark, without the end of the line (progress.c:227-247): numbers, times and the name -/
  line : Str

/-- The options that matter: `quiet` (progress.c:214) and `verbose`. -/
structure Opts where
  quiet : Bool
  verbose : Bool

def number (n : Nat) : Str := (toString n).toList

/-- What is in `f`, updater.c:2624-2648, and `is_err`. -/
def judge (j : Job) : Str × Bool :=
  match j.ended with
  | .exited 0 => (j.messages, !j.filesOk)
  | .exited n => (" *** Command ID=".toList ++ number j.id ++ " failed with return value ".toList ++ number n ++ "\n".toList ++ j.messages, true)
  | .signalled n m => (" *** Command ID=".toList ++ number j.id ++ " killed by signal ".toList ++ number n ++ " (".toList ++ m ++ ")\n".toList ++ j.messages, true)
  | .neither => ("tup internal error: Expected s->exited or s->signalled to be set for command ID=".toList ++ number j.id, true)

/-- The results of `read(fd, buf, 1024)` for a file, config.c:168-175. -/
def reads (s : Str) : List Str :=
  if h : s = [] then [] else s.take 1024 :: reads (s.drop 1024)
termination_by s.length
decreasing_by
  have : 0 < s.length := List.length_pos_iff.2 h
  simp only [List.length_drop]
  omega

/-- `fprintf(out, "%.*s", rc, buf)`, config.c:192: up to a byte 0. -/
def cut (s : Str) : Str := s.takeWhile (· ≠ '\x00')

/-- `display_output` for a file that is not the one of a run-script: config.c:155-196 with `iserr` 2 (`messages`) or else. -/
def display (to : Stream) (messages : Bool) (s : Str) : List Write :=
  match reads s with
  | [] => []
  | l => (if messages then [(to, " *** tup messages ***\n".toList)] else []) ++ l.map fun c => (to, cut c)

/-- `show_result`, progress.c:193-249, with no `extra_text`. -/
def showResult (o : Opts) (line : Str) (isErr always : Bool) : List Write :=
  if o.quiet && !always then []
  else if isErr then [(.err, "* ".toList ++ line ++ "\n".toList)]
  else [(.out, " ".toList ++ line ++ "\n".toList)]

/-- `process_output`, updater.c:2595-2708: what it prints, and whether it returns 0. If the outputs of a command with the flag `^o` cannot
be put back or compared, it returns before it prints anything (2650-2662). -/
def processOutput (o : Opts) (j : Job) : List Write × Bool :=
  let (msgs, isErr) := judge j
  if j.compareFails then ([], false)
  else
    let always := decide (msgs ≠ []) || (match j.output with | some s => decide (s ≠ []) | none => false)
    let to : Stream := if isErr then .err else .out
    (showResult o j.line isErr always ++
      (match j.expanded with
       | some e => if isErr || o.verbose then [(to, "tup: Expanded command string: ".toList ++ e ++ "\n".toList)] else []
       | none => []) ++
      (match j.output with | some s => display to false s | none => []) ++
      display .err true msgs, !isErr)

/-- The threads of an update: what each of them will print, section by section, where each section is in between taking and giving back
`display_mutex`; the thread that has it, with the rest of its section; what was printed. -/
structure St where
  todo : Nat → List (List Write)
  owner : Option (Nat × List Write)
  trace : List Write

/-- `pthread_mutex_lock`, a call of `fprintf`, `pthread_mutex_unlock`. -/
inductive Op where
  | lock (i : Nat)
  | print (i : Nat)
  | unlock (i : Nat)
  deriving DecidableEq

/-- What a thread can do; `none`: not possible at the time. -/
def step (s : St) : Op → Option St
  | .lock i =>
    match s.owner, s.todo i with
    | none, b :: l => some { s with owner := some (i, b), todo := fun k => if k = i then l else s.todo k }
    | _, _ => none
  | .print i =>
    match s.owner with
    | some (k, w :: b) => if k = i then some { s with owner := some (k, b), trace := s.trace ++ [w] } else none
    | _ => none
  | .unlock i =>
    match s.owner with
    | some (k, []) => if k = i then some { s with owner := none } else none
    | _ => none

def run (s : St) : List Op → Option St
  | [] => some s
  | o :: l => match step s o with | some s' => run s' l | none => none

/-- All that has been printed to a stream. -/
def text (f : Stream) (l : List Write) : Str := (l.filter fun w => w.1 = f).flatMap (·.2)

end Tup.Show
