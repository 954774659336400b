import Verif.Basic

/-!
Model of the queue of the inotify monitor: src/tup/monitor/inotify.c:739-856, 964-1075, 1105-1265, for plain files in
directories that stay watched.  The other processes, the kernel's queue of events and the monitor run interleaved, one
step at a time.

Not modelled: events on directories (`IN_ISDIR`, `IN_IGNORED`), generated files, the overflow of the kernel's queue
(after which the monitor starts again with a scan), failures of the database or of a system call other than `ENOENT`.
Names that `skip_event` drops (inotify.c:964-976) count as outside of the watched directories.
-/

namespace Tup.Monitor

/-- A watched directory and a name in it: the fields `wd` and `name` of an event. -/
abbrev File := Nat × Str

/-- The field `mask` of an event.  The kernel sets one event bit in it; the monitor sets it to 0 to cancel an event. -/
inductive Mask where
  | none | create | movedTo | delete | movedFrom | modify | attrib
deriving DecidableEq, Repr

/-- `newflags`, inotify.c:1009. -/
def Mask.isNew : Mask → Bool
  | .create | .movedTo => true
  | _ => false

/-- `delflags`, inotify.c:1010. -/
def Mask.isDel : Mask → Bool
  | .delete | .movedFrom => true
  | _ => false

/-- `struct inotify_event`. -/
structure Event where
  mask : Mask
  file : File
  cookie : Nat
deriving DecidableEq, Repr

/-- `struct monitor_event`, inotify.c:70-80.  Its address is the number `id`.  `src` stands for the field `from_event`
of an `IN_MOVED_TO` event: the file of the event that it points to. -/
structure Queued where
  id : Nat
  ev : Event
  src : Option File
deriving DecidableEq, Repr

/-- The files that exist, the files that the database has a node for, the events that the monitor has not read, its
queue `event_list`, the list `moved_from_list` (each entry by the event it points to), the next address and the next
cookie, and whether `flush_queue` is running. -/
structure State where
  disk : File → Bool
  recorded : File → Bool
  kernel : List Event
  queue : List Queued
  moved : List Nat
  next : Nat
  cookie : Nat
  flushing : Bool

/-- One entry of a map. -/
def set (g : File → Bool) (f : File) (b : Bool) : File → Bool := fun x => if x = f then b else g x

/-! ## What other processes do -/

/-- What is done to the files.  `moveOut` and `moveIn` are moves from and to a place that is not watched. -/
inductive Op where
  | create (f : File)
  | write (f : File)
  | touch (f : File)
  | remove (f : File)
  | rename (f g : File)
  | moveOut (f : File)
  | moveIn (f : File)
deriving DecidableEq, Repr

/-- The kernel adds an event, unless it is the same as the last one that has not been read (inotify(7)). -/
def emit (k : List Event) (e : Event) : List Event := if k.getLast? = some e then k else k ++ [e]

/-- The change to the files and the events for it (inotify(7)): a rename gives two events with the same cookie, one
after the other, and no event for a file that it replaces.  An operation that fails changes nothing. -/
def State.op (s : State) : Op → State
  | .create f =>
    if s.disk f then s
    else { s with disk := set s.disk f true, kernel := emit s.kernel ⟨.create, f, 0⟩ }
  | .write f => if s.disk f then { s with kernel := emit s.kernel ⟨.modify, f, 0⟩ } else s
  | .touch f => if s.disk f then { s with kernel := emit s.kernel ⟨.attrib, f, 0⟩ } else s
  | .remove f =>
    if s.disk f then { s with disk := set s.disk f false, kernel := emit s.kernel ⟨.delete, f, 0⟩ }
    else s
  | .rename f g =>
    if s.disk f ∧ f ≠ g then
      { s with
        disk := set (set s.disk f false) g true
        kernel := emit (emit s.kernel ⟨.movedFrom, f, s.cookie⟩) ⟨.movedTo, g, s.cookie⟩
        cookie := s.cookie + 1 }
    else s
  | .moveOut f =>
    if s.disk f then
      { s with
        disk := set s.disk f false
        kernel := emit s.kernel ⟨.movedFrom, f, s.cookie⟩
        cookie := s.cookie + 1 }
    else s
  | .moveIn f =>
    { s with
      disk := set s.disk f true
      kernel := emit s.kernel ⟨.movedTo, f, s.cookie⟩
      cookie := s.cookie + 1 }

/-! ## What the monitor does with an event that it reads -/

/-- An event is cancelled: its mask is set to 0. -/
def Queued.cancel (m : Queued) : Queued := { m with ev := { m.ev with mask := .none } }

/-- The loop of `ephemeral_event`, inotify.c:1024-1056, from some place of the queue on: the flag `create_and_delete`,
the queue afterwards, the event afterwards and whether the event is to be dropped (`rc == 0`). -/
def ephemeralLoop (e : Event) (both drop : Bool) : List Queued → List Queued × Event × Bool
  | [] => ([], e, drop)
  | m :: l =>
    if m.ev.file = e.file then
      if m.ev.mask.isNew && e.mask.isDel then
        let r := ephemeralLoop e true true l
        (m.cancel :: r.1, r.2)
      else if m.ev.mask.isDel && e.mask.isNew then
        let r := ephemeralLoop { e with mask := .modify } true drop l
        (m.cancel :: r.1, r.2)
      else if both then
        let r := ephemeralLoop e both drop l
        (m.cancel :: r.1, r.2)
      else
        let r := ephemeralLoop e both drop l
        (m :: r.1, r.2)
    else
      let r := ephemeralLoop e both drop l
      (m :: r.1, r.2)

/-- `ephemeral_event`, inotify.c:1003-1060.  The test for directories is not modelled. -/
def ephemeral (q : List Queued) (e : Event) : List Queued × Event × Bool :=
  if e.mask.isNew || e.mask.isDel then ephemeralLoop e false false q else (q, e, false)

/-- The event at an address.  `none` if it has been freed. -/
def find (q : List Queued) (i : Nat) : Option Queued := q.find? (fun m => m.id == i)

/-- The outcome of `check_from_events`. -/
inductive Claim where
  | undefined
  | nothing
  | claimed (i : Nat) (f : File)

/-- The search in `check_from_events`, inotify.c:1079-1089: it reads the event that each entry points to.  Reading one
that has been freed is undefined. -/
def claim (q : List Queued) (c : Nat) : List Nat → Claim
  | [] => .nothing
  | i :: l =>
    match find q i with
    | none => .undefined
    | some m => if m.ev.cookie = c then .claimed i m.ev.file else claim q c l

/-- The event at an address is cancelled. -/
def cancelId (q : List Queued) (i : Nat) : List Queued := q.map fun m => if m.id = i then m.cancel else m

/-- The end of `queue_event`, inotify.c:774-793: the event is added to the queue, and one for a file that was moved away
also to `moved_from_list` (`add_from_event`, inotify.c:1062-1077). -/
def State.enqueue (s : State) (e : Event) (src : Option File) : State :=
  { s with
    queue := s.queue ++ [⟨s.next, e, src⟩]
    moved := if e.mask = .movedFrom then s.next :: s.moved else s.moved
    next := s.next + 1 }

/-- The middle of `queue_event`, inotify.c:763-771, where `check_from_events` is called.  The result is `none` if the
behaviour is undefined. -/
def State.match (s : State) (e : Event) : Option State :=
  if e.mask = .movedTo then
    match claim s.queue e.cookie s.moved with
    | .undefined => none
    | .nothing => some (s.enqueue e none)
    | .claimed i f => some ({ s with queue := cancelId s.queue i, moved := s.moved.erase i }.enqueue e (some f))
  else some (s.enqueue e none)

/-- `queue_event`, inotify.c:739-794.  `queue_last_e` is always the last event of the queue: it is set whenever one is
added (inotify.c:783) and cleared when the queue is emptied (inotify.c:834).  `eventcmp` is equality of events. -/
def State.queueEvent (s : State) (e : Event) : Option State :=
  if s.queue.getLast?.map (·.ev) = some e then some s
  else
    match ephemeral s.queue e with
    | (q, e, drop) => if drop then some { s with queue := q } else { s with queue := q }.match e

/-! ## What the monitor does with the queue -/

/-- `tup_file_mod`, src/tup/create_name_file.c:97-115, as far as it concerns whether there is a node: one is made if the
file exists and deleted if it does not.  `Verif/Scan` has the rest. -/
def State.fileMod (s : State) (f : File) : State := { s with recorded := set s.recorded f (s.disk f) }

/-- `tup_file_del`, src/tup/create_name_file.c:227-257, as far as it concerns whether there is a node. -/
def State.fileDel (s : State) (f : File) : State := { s with recorded := set s.recorded f false }

/-- `watch_path` for a plain file, src/tup/path.c:42-66: a node is made if the file exists, and nothing is done if it
does not. -/
def State.watchPath (s : State) (f : File) : State := if s.disk f then s.fileMod f else s

/-- `handle_event`, inotify.c:1105-1265, for an event that is not cancelled, and the test for one that is cancelled in
`flush_queue`, inotify.c:815.  The file is looked at once, where the code may look twice (inotify.c:1196, 1222). -/
def State.handle (s : State) (m : Queued) : State :=
  match m.ev.mask, m.src with
  | .none, _ => s
  | .movedTo, some f => (s.fileMod m.ev.file).fileDel f
  | .movedTo, none =>
    let s := s.watchPath m.ev.file
    if s.recorded m.ev.file then s.fileMod m.ev.file else s
  | .create, _ => s.watchPath m.ev.file
  | .modify, _ | .attrib, _ => s.fileMod m.ev.file
  | .delete, _ => s.fileDel m.ev.file
  | .movedFrom, _ => { s.fileDel m.ev.file with moved := s.moved.erase m.id }

/-! ## The whole -/

/-- One step: of another process, the monitor reading an event (inotify.c:575-672), the start of `flush_queue`, or its
next event. -/
inductive Step where
  | op (o : Op)
  | read
  | flush
  | next
deriving DecidableEq, Repr

/-- `flush_queue`, inotify.c:796-856, goes through the queue, while the monitor reads nothing.  The code frees the events
at the end (inotify.c:827-832); here each is dropped when it has been dealt with, which makes no difference as nothing is
read in between. -/
def State.step (s : State) : Step → Option State
  | .op o => some (s.op o)
  | .read =>
    if s.flushing then some s
    else
      match s.kernel with
      | [] => some s
      | e :: k => { s with kernel := k }.queueEvent e
  | .flush => some { s with flushing := true }
  | .next =>
    if s.flushing then
      match s.queue with
      | [] => some { s with flushing := false }
      | m :: q => some ({ s with queue := q }.handle m)
    else some s

/-- Some steps.  `none` if the behaviour is undefined. -/
def State.run (s : State) : List Step → Option State
  | [] => some s
  | a :: l =>
    match s.step a with
    | some s => s.run l
    | none => none

/-- The monitor after its first scan: every file that exists is recorded, and no event is waiting. -/
def start (disk : File → Bool) : State := ⟨disk, disk, [], [], [], 0, 1, false⟩

end Tup.Monitor
