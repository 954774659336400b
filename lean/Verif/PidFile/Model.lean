import Verif.Basic

/-!
The file in which the monitor keeps its process id: `monitor_set_pid` and `monitor_get_pid` (src/tup/monitor/inotify.c:354-448), run by any
number of processes at the same time (the monitor, one that is ending, `tup`, `tup stop`), and what is made of the result by `stop_monitor`
(inotify.c:680-709) and `run_scan` (src/tup/updater.c:611-648).
-/

namespace Tup.PidFile

/-- `%i`, inotify.c:368. -/
def showPid : Int → Str
  | .ofNat n => Nat.toDigits 10 n
  | .negSucc n => '-' :: Nat.toDigits 10 (n + 1)

/-- `strtol(s, NULL, 0)`, inotify.c:415, for what can be in the file: no spaces and no `+` in front, and no number that begins with `0` but
`0` itself, so that the base is 10. -/
def number : Str → Int
  | '-' :: s => -(Nat.ofDigitChars 10 (s.takeWhile Char.isDigit) 0 : Int)
  | s => (Nat.ofDigitChars 10 (s.takeWhile Char.isDigit) 0 : Int)

/-- The calls of a process. -/
inductive Call where
  | set (v : Int)
  | get
  deriving DecidableEq

/-- Where a process is, inotify.c:354-448. -/
inductive Pc where
  /-- between two calls -/
  | out
  /-- `monitor_set_pid`: before 364, before 373, before 377, before 381 -/
  | sOpen (v : Int)
  | sLock (v : Int)
  | sWrote (v : Int)
  | sCut (v : Int)
  /-- `monitor_get_pid`: before 407, in `fslurp_null` before and after fstat, before 419 with the number -/
  | gOpen
  | gLock
  | gStat (n : Nat)
  | gRead (r : Int)
  deriving DecidableEq

/-- A process; `got` is what its calls of `monitor_get_pid` have stored in `*pid`. -/
structure Proc where
  todo : List Call
  pc : Pc
  got : List Int
  deriving DecidableEq

/-- The file, and who has it locked. `log` is not in the program: the values in the order in which they were written and cut. -/
structure St where
  there : Bool
  file : Str
  lock : Option Nat
  procs : Nat → Proc
  log : List Int

/-- The state of process `i` changes, inotify.c:354-448. -/
def put (s : St) (i : Nat) (p : Proc) : St := { s with procs := fun k => if k = i then p else s.procs k }

/-- `write` at offset 0, inotify.c:373: what is longer stays. -/
def overwrite (f t : Str) : Str := t ++ f.drop t.length

/-- `ftruncate`, inotify.c:377: a file that is shorter is filled up with zeros. -/
def resize (f : Str) (n : Nat) : Str := f.take n ++ List.replicate (n - f.length) '\x00'

/-- `fslurp_null` after the fstat that said `n`, and inotify.c:410-418: an error, and a file without text, leave -1. -/
def slurp (f : Str) (n : Nat) : Int := if f.length < n ∨ n = 0 then -1 else number (f.take n)

/-- A step of process `i`: what is done with one system call. `dead`: what getpriority says about the process whose id was read
(inotify.c:431). Not modelled: calls that fail, and a process that is killed in the middle; a byte order mark (C39 has it). -/
def step (s : St) (i : Nat) (dead : Bool) : Option St :=
  let p := s.procs i
  match p.pc with
  | .out =>
    match p.todo with
    | [] => none
    | .set v :: t => some { put s i { p with todo := t, pc := .sOpen v } with there := true, file := [] }
    | .get :: t =>
      if s.there then some (put s i { p with todo := t, pc := .gOpen })
      else some (put s i { p with todo := t, got := p.got ++ [-1] })
  | .sOpen v => if s.lock = none then some { put s i { p with pc := .sLock v } with lock := some i } else none
  | .sLock v => some { put s i { p with pc := .sWrote v } with file := overwrite s.file (showPid v) }
  | .sWrote v => some { put s i { p with pc := .sCut v } with file := resize s.file (showPid v).length, log := s.log ++ [v] }
  | .sCut _ => some { put s i { p with pc := .out } with lock := none }
  | .gOpen => if s.lock = none then some { put s i { p with pc := .gLock } with lock := some i } else none
  | .gLock => some (put s i { p with pc := .gStat s.file.length })
  | .gStat n => some (put s i { p with pc := .gRead (slurp s.file n) })
  | .gRead r =>
    if 0 < r ∧ dead = true then some { put s i { todo := .set (-1) :: p.todo, pc := .out, got := p.got ++ [-1] } with lock := none }
    else some { put s i { p with pc := .out, got := p.got ++ [r] } with lock := none }

/-- The processes take turns as they like, inotify.c:354-448. -/
def run (s : St) : List (Nat × Bool) → Option St
  | [] => some s
  | (i, d) :: l => match step s i d with | some s' => run s' l | none => none

/-- Nothing is going on; the file is there, with a value in it, or not. -/
def start (v : Option Int) (progs : Nat → List Call) : St where
  there := v.isSome
  file := match v with | some v => showPid v | none => []
  lock := none
  procs := fun i => { todo := progs i, pc := .out, got := [] }
  log := v.toList

/-- What `stop_monitor` does, inotify.c:680-709, with the id that was got: `none` is the error that there is no monitor, `some none` is
success without a signal, `some (some p)` is `kill(p, SIGHUP)`. `shutdown`: `restarting == TUP_MONITOR_SHUTDOWN`. -/
def stop (shutdown : Bool) (pid : Int) : Option (Option Int) :=
  if pid < 0 then (if shutdown then none else some none) else some (some pid)

/-- What `run_scan` does, updater.c:611-635: nothing, all of the project, or what is outside of it. -/
inductive Scan where
  | nothing | project | external
  deriving DecidableEq

/-- updater.c:620-635 -/
def scan (pid : Int) (doScan fullDeps : Bool) : Scan :=
  if pid < 0 then (if doScan then .project else .nothing) else if fullDeps then .external else .nothing

end Tup.PidFile
