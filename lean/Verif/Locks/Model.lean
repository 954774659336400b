/-! The three locks: any number of tup processes, some of which are monitors.

The locks are the ones of src/tup/flock/fcntl.c: a lock has at most one owner, a process that wants it waits, and releasing a lock
that one does not own does nothing.  Each system call on a lock (`fcntl`, `open`, `close`) is one step; everything that a process does
between two of them is part of its state.  Not modelled: errors of system calls, children that inherit the descriptors of the locks
(src/tup/server/depfile.c:215 closes them), src/tup/flock/lock_file.c (Windows). -/

namespace Tup.Locks

/-- What the monitor is told about the object lock: `IN_OPEN` and `IN_CLOSE`, src/tup/monitor/inotify.c:231. -/
inductive Ev where
  | opened | closed
deriving DecidableEq

/-- Where a process is. -/
inductive Pc where
  /-- not running -/
  | idle
  /-- `tup_lock_init`, src/tup/lock.c:82-104: about to lock `sh` (86-89), to open the object lock (95), to lock it (97) -/
  | wantSh | openObj | wantObj
  /-- between `tup_lock_init` and `tup_lock_exit` (src/tup/init.c:62-84): uses the database -/
  | using
  /-- `tup_lock_exit`, src/tup/lock.c:106-117, after the object lock was released: about to close it (109), to lock `tri` (111),
  to release it (112), to release `sh` (114) -/
  | closing | wantTri | unTri | unSh
  /-- `monitor`, src/tup/monitor/inotify.c:231-272: has the watch on the object lock, about to release `sh` (239) -/
  | mSh
  /-- the parent of a monitor in the background, src/tup/monitor/inotify.c:247-248: waits until the child has the object lock -/
  | mWait
  /-- the child, src/tup/monitor/inotify.c:259 -/
  | mGet
  /-- about to write its pid, src/tup/monitor/inotify.c:265 -/
  | mPid
  /-- `monitor_loop` with `locked` set: scans, waits for events, handles events: uses the database -/
  | mOn
  /-- src/tup/monitor/inotify.c:625-631: about to lock `tri`, to release the object lock -/
  | mTri | mRel
  /-- `locked` is not set: waits for events -/
  | mOff
  /-- src/tup/monitor/inotify.c:635-640: about to lock the object lock, to release `tri` -/
  | mObj | mUntri
  /-- `tup_lock_exit` of a monitor that has the object lock -/
  | xObj | xClose | xTri | xUntri | xSh
  /-- `tup_lock_exit` of a monitor that has `tri` -/
  | yObj | yClose | yTri
  /-- killed; the object lock, the tri lock and the descriptor of the object lock that it still has -/
  | dead (obj tri opened : Bool)
deriving DecidableEq

/-- The locks, the processes, and the events that each monitor has yet to read.  `hist` is not in the code: who got the object lock, the last
one first. -/
structure State where
  pc : Nat → Pc := fun _ => .idle
  sh : Option Nat := none
  obj : Option Nat := none
  tri : Option Nat := none
  watch : Nat → Bool := fun _ => false
  queue : Nat → List Ev := fun _ => []
  again : Nat → Bool := fun _ => false
  hist : List Nat := []

def upd {α : Type} (f : Nat → α) (i : Nat) (x : α) : Nat → α := fun j => if j = i then x else f j

/-- inotify drops an event that is the same as the last one in the queue. -/
def push (q : List Ev) (e : Ev) : List Ev := if q.getLast? = some e then q else q ++ [e]

/-- Opening and closing the object lock, with the monitors that watch it. -/
def emit (s : State) (e : Ev) : Nat → List Ev := fun j => if s.watch j then push (s.queue j) e else s.queue j

/-- What a process can do. -/
inductive Move where
  /-- start -/
  | start
  /-- the next step -/
  | go
  /-- become a monitor in the foreground -/
  | monitor
  /-- become the parent of a monitor in the background -/
  | fork (child : Nat)
  /-- a monitor: quit -/
  | stop
  /-- a monitor: start over -/
  | retry
  /-- be killed -/
  | kill
deriving DecidableEq

/-- The process has the descriptor of the object lock. -/
def hasOpen : Pc → Bool
  | .idle | .wantSh | .openObj | .wantTri | .unTri | .unSh | .xTri | .xUntri | .xSh | .yTri | .dead .. => false
  | _ => true

/-- The next step of a process: none if it has to wait. -/
def go (s : State) (i : Nat) : Option State :=
  match s.pc i with
  | .idle => none
  | .wantSh => if s.sh = none then some { s with sh := some i, pc := upd s.pc i .openObj } else none
  | .openObj => some { s with queue := emit s .opened, pc := upd s.pc i .wantObj }
  | .wantObj => if s.obj = none then some { s with obj := some i, hist := i :: s.hist, pc := upd s.pc i .using } else none
  | .using =>
    if s.again i then some { s with again := upd s.again i false, queue := upd s.queue i [], pc := upd s.pc i .mSh }
    else some { s with obj := none, pc := upd s.pc i .closing }
  | .closing => some { s with queue := emit s .closed, pc := upd s.pc i .wantTri }
  | .wantTri => if s.tri = none then some { s with tri := some i, pc := upd s.pc i .unTri } else none
  | .unTri => some { s with tri := none, pc := upd s.pc i .unSh }
  | .unSh => some { s with sh := none, pc := upd s.pc i .idle }
  | .mSh => some { s with sh := none, pc := upd s.pc i .mPid }
  | .mWait => if s.obj = none then none else some { s with pc := upd s.pc i .wantTri }
  | .mGet => if s.obj = none then some { s with obj := some i, hist := i :: s.hist, pc := upd s.pc i .mPid } else none
  | .mPid => some { s with pc := upd s.pc i .mOn }
  | .mOn =>
    match s.queue i with
    | [] => none
    | .opened :: q => some { s with queue := upd s.queue i q, pc := upd s.pc i .mTri }
    | .closed :: q => some { s with queue := upd s.queue i q }
  | .mTri => if s.tri = none then some { s with tri := some i, pc := upd s.pc i .mRel } else none
  | .mRel => some { s with obj := none, pc := upd s.pc i .mOff }
  | .mOff =>
    match s.queue i with
    | [] => none
    | .opened :: q => some { s with queue := upd s.queue i q }
    | .closed :: q => some { s with queue := upd s.queue i q, pc := upd s.pc i .mObj }
  | .mObj => if s.obj = none then some { s with obj := some i, hist := i :: s.hist, pc := upd s.pc i .mUntri } else none
  | .mUntri => some { s with tri := none, pc := upd s.pc i .mOn }
  | .xObj => some { s with obj := none, pc := upd s.pc i .xClose }
  | .xClose => some { s with queue := emit s .closed, pc := upd s.pc i .xTri }
  | .xTri => if s.tri = none then some { s with tri := some i, pc := upd s.pc i .xUntri } else none
  | .xUntri => some { s with tri := none, pc := upd s.pc i .xSh }
  | .xSh => some { s with pc := upd s.pc i .idle }
  | .yObj => some { s with pc := upd s.pc i .yClose }
  | .yClose => some { s with queue := emit s .closed, pc := upd s.pc i .yTri }
  | .yTri => some { s with pc := upd s.pc i .xUntri }
  | .dead o t f =>
    some { s with obj := if o then none else s.obj, tri := if t then none else s.tri, queue := if f then emit s .closed else s.queue, pc := upd s.pc i .idle }

/-- A move of a process.  A process that is killed loses the shared lock first, since that has the lowest descriptor.  (The events of a monitor that starts over are in `emit`; `closeall` releases its locks,
src/tup/monitor/inotify.c:304, then `tup_lock_init` is called again; 310; and the queue is emptied before `sh` is released, 314-333.) -/
def act (s : State) (i : Nat) : Move → Option State
  | .start => if s.pc i = .idle then some { s with pc := upd s.pc i .wantSh } else none
  | .go => go s i
  | .monitor =>
    if s.pc i = .using ∧ s.again i = false then
      some { s with watch := upd s.watch i true, queue := upd s.queue i [], pc := upd s.pc i .mSh }
    else none
  | .fork j =>
    if s.pc i = .using ∧ s.again i = false ∧ s.pc j = .idle then
      some { s with obj := none, watch := upd s.watch j true, queue := upd s.queue j [], pc := upd (upd s.pc i .mWait) j .mGet }
    else none
  | .stop =>
    match s.pc i with
    | .mOn | .mTri => some { s with watch := upd s.watch i false, pc := upd s.pc i .xObj }
    | .mOff | .mObj => some { s with watch := upd s.watch i false, pc := upd s.pc i .yObj }
    | _ => none
  | .retry =>
    if s.pc i = .mOn then some { s with again := upd s.again i true, obj := none, queue := emit s .closed, pc := upd s.pc i .wantSh } else none
  | .kill =>
    some { s with sh := if s.sh = some i then none else s.sh, watch := upd s.watch i false, again := upd s.again i false,
                  pc := upd s.pc i (.dead (decide (s.obj = some i)) (decide (s.tri = some i)) (hasOpen (s.pc i))) }

end Tup.Locks
