/-!
Model of how commands are started (src/tup/server/master_fork.c): the threads of tup send requests to a process that was
forked at the start, which starts the commands, waits for them, and sends back how they ended.  Not modelled: starting
and shutting down, namespaces, mounts, and what a child does before it executes the shell (lines 89-261, 263-294, 375-539,
685-734, 744-764).  No system call fails except where it is said.
-/

namespace Tup.MasterFork

abbrev Bytes := List Nat

/-- The arguments of `master_fork_exec`, lines 306-308; `flags` are the members of `struct execmsg` (master_fork.h:26-38)
that are neither the id nor lengths. -/
structure Req where
  flags : List Nat
  job : Bytes
  dir : Bytes
  cmd : Bytes
  env : Bytes
  vardict : Bytes
deriving DecidableEq

/-- A command that is run: the id of the caller, and all it gave. -/
structure Run where
  sid : Nat
  req : Req
deriving DecidableEq

/-- `struct execmsg` -/
structure Hdr where
  sid : Nat
  flags : List Nat
  job : Nat
  dir : Nat
  cmd : Nat
  env : Nat
  vardict : Nat
deriving DecidableEq

/-- What goes through the socket: the structure, taken as a unit, and bytes. -/
inductive Tok
  | hdr (h : Hdr)
  | byte (b : Nat)
deriving DecidableEq

/-- Where a call of `master_fork_exec` is: not made yet; entered in the tree of those who wait for a status (lines
321-327); writing, with the writes that are left (lines 329-342, the lock is taken); waiting (line 343); and returned.  An
id is used for one call: in one update a command is run once. -/
inductive Phase
  | idle
  | registered
  | sending (ws : List (List Tok))
  | waiting
  | done (status : Int)
deriving DecidableEq

/-- `master_fork_loop`: reading a request (lines 624-658); a child has been forked and is not yet in the tree (line 680 to
738); it has called exit. -/
inductive Master
  | reading
  | forked (pid sid : Nat)
  | dead
deriving DecidableEq

/-- `child_waiter`: before line 791; in `wait`; after `wait` with its result; after the search; after the removal; it has
returned. -/
inductive Waiter
  | idle
  | inWait
  | got (pid : Nat) (status : Int)
  | found (pid sid : Nat) (status : Int)
  | replying (sid : Nat) (status : Int)
  | dead
deriving DecidableEq

/-- A child process; `status` if it has exited (and has not been waited for). -/
structure Child where
  pid : Nat
  run : Run
  status : Option Int
deriving DecidableEq

/-- The state.  `waiting` is `status_root`, `tree` is `child_waiter_root`, `stream` and `replies` are what is in the socket,
and `told` are the `status` members with `set` that the notifier has written and the caller has not read.  `exits`, `started` and `reaped` (the id of the child that the waiter has in its hands) are not in the
code; they are for the statements. -/
structure S where
  calls : Nat → Phase
  lock : Option Nat
  waiting : List Nat
  stream : List Tok
  master : Master
  children : List Child
  tree : List (Nat × Nat)
  waiter : Waiter
  replies : List (Nat × Int)
  told : List (Nat × Int)
  notifier : Bool
  exits : List (Run × Int)
  started : List Run
  reaped : Option Nat

def init : S := ⟨fun _ => .idle, none, [], [], .reading, [], [], .idle, [], [], true, [], [], none⟩

def bytes (b : Bytes) : List Tok := b.map .byte

/-- The writes of lines 330-341. -/
def msg (i : Nat) (r : Req) : List (List Tok) :=
  [[.hdr ⟨i, r.flags, r.job.length, r.dir.length, r.cmd.length, r.env.length, r.vardict.length⟩],
    bytes r.job, bytes r.dir, bytes r.cmd, bytes r.env, bytes r.vardict]

def set (f : Nat → Phase) (i : Nat) (p : Phase) : Nat → Phase := fun j => if j = i then p else f j

/-- A step of `master_fork_exec`, lines 306-349 (and `wait_for_my_sid`, lines 863-873), with the arguments `R i` for the id `i`. -/
def caller (R : Nat → Req) (i : Nat) (s : S) : S :=
  match s.calls i with
  | .idle => if i ∈ s.waiting then s else { s with calls := set s.calls i .registered, waiting := i :: s.waiting }
  | .registered =>
    match s.lock with
    | none => { s with lock := some i, calls := set s.calls i (.sending (msg i (R i))) }
    | some _ => s
  | .sending (w :: ws) => { s with stream := s.stream ++ w, calls := set s.calls i (.sending ws) }
  | .sending [] => { s with lock := none, calls := set s.calls i .waiting }
  | .waiting =>
    match s.told.find? (fun x => x.1 = i) with
    | none => s
    | some x => { s with told := s.told.filter (fun x => x.1 ≠ i), calls := set s.calls i (.done x.2) }
  | .done _ => s

/-- The bytes in front, if they are bytes. -/
def plain : List Tok → Option Bytes
  | [] => some []
  | .byte b :: r => (plain r).map (b :: ·)
  | .hdr _ :: _ => none

/-- The result of reading a request: not all of it is there yet; something else is; the request and what is behind it. -/
inductive Got
  | wait
  | bad
  | ok (run : Run) (rest : List Tok)

/-- Lines 624-658.  The reads block, so that nothing happens until all of a request is there. -/
def readMsg : List Tok → Got
  | [] => .wait
  | .byte _ :: _ => .bad
  | .hdr h :: r =>
    if r.length < h.job + h.dir + h.cmd + h.env + h.vardict then .wait
    else
      let r1 := r.drop h.job
      let r2 := r1.drop h.dir
      let r3 := r2.drop h.cmd
      let r4 := r3.drop h.env
      match plain (r.take h.job), plain (r1.take h.dir), plain (r2.take h.cmd), plain (r3.take h.env),
        plain (r4.take h.vardict) with
      | some job, some dir, some cmd, some env, some vardict =>
        .ok ⟨h.sid, ⟨h.flags, job, dir, cmd, env, vardict⟩⟩ (r4.drop h.vardict)
      | _, _, _, _, _ => .bad

/-- A step of `master_fork_loop`, lines 620-742: read a request and fork, where the child gets the given process id (one
that no child has, line 680); or enter it into the tree (lines 735-741). -/
def master (pid : Nat) (s : S) : S :=
  match s.master with
  | .reading =>
    match readMsg s.stream with
    | .wait => s
    | .bad => { s with master := .dead, waiter := .dead }
    | .ok run rest =>
      if pid ∈ s.children.map (·.pid) then s
      else { s with stream := rest, children := ⟨pid, run, none⟩ :: s.children, master := .forked pid run.sid,
                    started := run :: s.started }
  | .forked p sid =>
    if p ∈ s.tree.map (·.1) then { s with master := .dead, waiter := .dead }
    else { s with tree := (p, sid) :: s.tree, master := .reading }
  | .dead => s

/-- A child ends. -/
def exit (pid : Nat) (status : Int) (s : S) : S :=
  match s.children.find? (fun c => c.pid = pid ∧ c.status = none) with
  | none => s
  | some c =>
    { s with children := s.children.map (fun d => if d.pid = pid then { d with status := some status } else d),
             exits := (c.run, status) :: s.exits }

/-- A step of `child_waiter`, lines 782-831; if there are several children that have ended, `wait` gives one of them
(`pid`). -/
def waiter (pid : Nat) (s : S) : S :=
  match s.waiter with
  | .idle => if s.tree = [] then s else { s with waiter := .inWait }
  | .inWait =>
    if s.children = [] then { s with waiter := .dead }
    else match s.children.find? (fun c => c.pid = pid ∧ c.status ≠ none) with
      | some ⟨p, run, some status⟩ =>
        { s with children := s.children.filter (fun d => d.pid ≠ p), waiter := .got p status,
                 reaped := some run.sid }
      | _ => s
  | .got p status =>
    match s.tree.find? (fun e => e.1 = p) with
    | none => { s with waiter := .dead }
    | some e => { s with waiter := .found p e.2 status }
  | .found p sid status =>
    { s with tree := s.tree.filter (fun e => e.1 ≠ p), waiter := .replying sid status }
  | .replying sid status =>
    { s with replies := s.replies ++ [(sid, status)], waiter := .idle, reaped := none }
  | .dead => s

/-- A step of `child_wait_notifier`, lines 838-859. -/
def notify (s : S) : S :=
  if s.notifier = false then s
  else match s.replies with
    | [] => s
    | (sid, status) :: r =>
      if sid ∈ s.waiting then
        { s with replies := r, waiting := s.waiting.erase sid, told := (sid, status) :: s.told }
      else { s with notifier := false }

/-- What can happen next. -/
inductive Ev
  | caller (i : Nat)
  | master (pid : Nat)
  | exit (pid : Nat) (status : Int)
  | waiter (pid : Nat)
  | notify

def step (R : Nat → Req) : Ev → S → S
  | .caller i, s => caller R i s
  | .master p, s => master p s
  | .exit p st, s => exit p st s
  | .waiter p, s => waiter p s
  | .notify, s => notify s

def run (R : Nat → Req) : List Ev → S → S
  | [], s => s
  | e :: es, s => run R es (step R e s)

end Tup.MasterFork
