/-! The monitor with autoupdate turned on, the updates that it starts, `tup flush` and the thread that waits for the updates.

One monitor; any number of other processes.  The three locks are the ones of `Verif.Locks` (property C44), with fewer steps: the monitor
has the object lock when `locked` is set and the tri lock when it is not, and takes one and gives back the other in one step; a process
that waits for the tri lock in `tup_lock_exit` takes it and gives it back in one step.  Not modelled: errors of system calls and of the
database, processes that are killed while they hold a lock, a monitor that starts over or is stopped, `monitor.autoparse`. -/

namespace Tup.AutoUpdate

/-- What the monitor is told: something in a directory that it watches was changed (the changes are numbered), or the object lock was opened
or closed, src/tup/monitor/inotify.c:231 and 717-718.  Simplified: each change is one event of its own (how events of the same file are put
together is in `Verif.Monitor`, property C45). -/
inductive KEv where
  | file (c : Nat) | opened | closed
deriving DecidableEq

/-- A process: `tup flush` (src/tup/tup/main.c:1269-1297), `tup autoupdate` (309-311 and 360-370), any other command that takes the locks. -/
inductive Kind where
  | flush | auto | other
deriving DecidableEq

/-- Where a process is. -/
inductive Stage where
  /-- `tup_lock_init`, src/tup/lock.c:82-104: about to lock `sh` (86-89), to open the object lock (95), to lock it (97) -/
  | wantSh | openObj | wantObj
  /-- has the object lock -/
  | using
  /-- `tup_lock_exit`, src/tup/lock.c:106-117, after the object lock was released: about to close it (109), to lock and release `tri`
  (111-112), to release `sh` (114) -/
  | closing | wantTri | unSh
  /-- not started or ended -/
  | gone
deriving DecidableEq

/-- What can be seen of a run: a change was made; the monitor has put it into the database; an autoupdate was started, has got the object lock,
has ended; `tup flush` was called, says that everything is flushed; the monitor has waited for the process of an autoupdate. -/
inductive Ev where
  | changed (c : Nat) | recorded (c : Nat) | started (p : Nat) | begun (p : Nat) | ended (p : Nat)
  | asked (f : Nat) | answered (f : Nat) | reaped (p : Nat)
deriving DecidableEq

/-- The state.  `kernel` are the events that the monitor has not read, `queue` the changes that it has read and not handled (`event_list`,
src/tup/monitor/inotify.c:117), `handled` the static variable of `flush_queue` (793), `pid` the value in the database under `AUTOUPDATE_PID`
(none for -1), `slot` the variable `autoupdate_pid` (126; none for `AUTOUPDATE_NONE`), `waiting` the process that `wait_thread` waits for.
`trace` is not in the code: what has happened so far. -/
structure State where
  kind : Nat → Kind := fun _ => .other
  stage : Nat → Stage := fun _ => .gone
  again : Nat → Bool := fun _ => false
  next : Nat := 0
  sh : Option Nat := none
  user : Option Nat := none
  locked : Bool := true
  kernel : List KEv := []
  queue : List Nat := []
  handled : Bool := false
  pid : Option Nat := none
  slot : Option Nat := none
  waiting : Option Nat := none
  changes : Nat := 0
  trace : List Ev := []

def upd {α : Type} (f : Nat → α) (i : Nat) (x : α) : Nat → α := fun j => if j = i then x else f j

/-- `autoupdate`, src/tup/monitor/inotify.c:858-919: a new process; its pid is left for `wait_thread` (907-910) and put into the database
(911-916).  The monitor has the object lock during all of it, so the process cannot get it before. -/
def startAuto (s : State) : State :=
  { s with kind := upd s.kind s.next .auto, stage := upd s.stage s.next .wantSh, again := upd s.again s.next false, next := s.next + 1,
           pid := some s.next, slot := some s.next, trace := s.trace ++ [.started s.next] }

/-- `flush_queue`, src/tup/monitor/inotify.c:791-856; `mod c` says that `handle_event` sets `modified` for the change, that is, has set a flag in
the database. -/
def flushQueue (mod : Nat → Bool) (auto : Bool) (s : State) : State :=
  let s1 := { s with trace := s.trace ++ s.queue.map .recorded, handled := s.handled || s.queue.any mod, queue := [] }
  if s1.handled && auto then startAuto { s1 with handled := false } else s1

/-- What can happen next. -/
inductive Act where
  /-- somebody changes a file -/
  | change
  /-- the monitor reads the next event -/
  | read
  /-- the monitor has read all events and nothing happens for a tenth of a second -/
  | timeout
  /-- somebody calls `tup flush`, or another command -/
  | launch (flush : Bool)
  /-- the next step of a process -/
  | go (p : Nat)
  /-- the process of an autoupdate ends without having become tup, src/tup/monitor/inotify.c:903-905 -/
  | fail (p : Nat)
  /-- `wait_thread` takes the pid, src/tup/monitor/inotify.c:946-952 -/
  | take
  /-- the process that `wait_thread` waits for has ended, src/tup/monitor/inotify.c:957-959 -/
  | reap
deriving DecidableEq

/-- The next step of a process; none if it has to wait.  `using`: an autoupdate clears the pid in the database, src/tup/tup/main.c:360-370;
`tup flush` ends if there is none and tries again if there is one, src/tup/tup/main.c:1273-1295. -/
def go (s : State) (p : Nat) : Option State :=
  match s.stage p with
  | .wantSh => if s.sh = none then some { s with sh := some p, stage := upd s.stage p .openObj } else none
  | .openObj => some { s with kernel := s.kernel ++ [.opened], stage := upd s.stage p .wantObj }
  | .wantObj =>
    if s.locked = false ∧ s.user = none then
      some { s with user := some p, stage := upd s.stage p .using,
                    trace := if s.kind p = .auto then s.trace ++ [.begun p] else s.trace }
    else none
  | .using =>
    match s.kind p with
    | .auto => some { s with pid := none, user := none, stage := upd s.stage p .closing, trace := s.trace ++ [.ended p] }
    | .flush =>
      if s.pid = none then some { s with user := none, stage := upd s.stage p .closing, trace := s.trace ++ [.answered p] }
      else some { s with user := none, stage := upd s.stage p .closing, again := upd s.again p true }
    | .other => some { s with user := none, stage := upd s.stage p .closing }
  | .closing => some { s with kernel := s.kernel ++ [.closed], stage := upd s.stage p .wantTri }
  | .wantTri => if s.locked = true then some { s with stage := upd s.stage p .unSh } else none
  | .unSh =>
    some { s with sh := none, stage := upd s.stage p (if s.again p then .wantSh else .gone), again := upd s.again p false }
  | .gone => none

/-- `monitor_loop`, src/tup/monitor/inotify.c:524-673: one event. -/
def read (mod : Nat → Bool) (s : State) : Option State :=
  match s.kernel with
  | [] => none
  | .file c :: k => some { s with kernel := k, queue := s.queue ++ [c] }
  | .opened :: k =>
    if s.locked = true then some { flushQueue mod (decide (s.pid = none)) { s with kernel := k } with locked := false }
    else some { s with kernel := k }
  | .closed :: k =>
    if s.locked = true then some { s with kernel := k }
    else if s.user = none then some { s with kernel := k, locked := true }
    else none

/-- What happens next. -/
def step (mod : Nat → Bool) (s : State) : Act → Option State
  | .change => some { s with kernel := s.kernel ++ [.file s.changes], changes := s.changes + 1, trace := s.trace ++ [.changed s.changes] }
  | .read => read mod s
  | .timeout => if s.kernel = [] ∧ s.queue ≠ [] ∧ s.locked = true then some (flushQueue mod true s) else none
  | .launch f =>
    some { s with kind := upd s.kind s.next (if f then .flush else .other), stage := upd s.stage s.next .wantSh, again := upd s.again s.next false,
                  next := s.next + 1, trace := if f then s.trace ++ [.asked s.next] else s.trace }
  | .go p => go s p
  | .fail p => if s.kind p = .auto ∧ s.stage p = .wantSh then some { s with stage := upd s.stage p .gone } else none
  | .take =>
    match s.slot, s.waiting with
    | some p, none => some { s with slot := none, waiting := some p }
    | _, _ => none
  | .reap =>
    match s.waiting with
    | some p => if s.stage p = .gone then some { s with waiting := none, trace := s.trace ++ [.reaped p] } else none
    | none => none

/-- The monitor when it starts, src/tup/monitor/inotify.c:489-515: `n` changes were made while there was no monitor; the scan has put them
into the database, and if one of them has set a flag, an update is started right away. -/
def init (mod : Nat → Bool) (n : Nat) : State :=
  let s : State := { changes := n, trace := (List.range n).map .changed ++ (List.range n).map .recorded }
  if (List.range n).any mod then startAuto s else s

/-- A run. -/
def run (mod : Nat → Bool) : State → List Act → Option State
  | s, [] => some s
  | s, a :: l => match step mod s a with
    | some s' => run mod s' l
    | none => none

end Tup.AutoUpdate
