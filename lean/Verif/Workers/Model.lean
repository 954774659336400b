import Verif.Basic

/-!
How the main thread of `execute_graph` (src/tup/updater.c:1867-2040) and the worker threads (2042-2082) pass nodes and results to each
other.  The model of the executor (`Exec`) takes this for granted: there a node that is handed over is worked on, and comes back with its
result.

What is done with a mutex held is one step. What is done without is one step for each access to memory that is shared.
-/

namespace Tup.Workers

/-- Where a worker thread is, updater.c:2042-2082. -/
inductive Pc where
  /-- before the test in `worker_wait`, 2045 -/
  | idle
  /-- in `pthread_cond_wait`, 2046 -/
  | asleep
  /-- the mutex has been given back, 2048 -/
  | decided
  /-- in `wt->fn`, 2078 -/
  | working (x : Nat)
  /-- `wt->fn` has returned, before 2056 -/
  | result (r : Bool)
  /-- before 2057, before 2058, and before `worker_ret` takes the mutex, 2060 -/
  | ret1
  | ret2
  | ret3
  /-- the thread has ended -/
  | exited
  /-- `wt->fn` was called with a null pointer -/
  | crashed
  deriving DecidableEq

/-- `struct worker_thread`, updater.c:121-137; `rc` is `wt->rc == 0`. The last three are not in the program: the nodes that were handed to
the worker, the calls of `wt->fn` that have returned, and what the main thread got back. -/
structure Worker where
  n : Option Nat
  retn : Option Nat
  rc : Bool
  quit : Bool
  pc : Pc
  given : List Nat
  worked : List (Nat × Bool)
  taken : List (Option Nat × Bool)

/-- Where the main thread is, updater.c:1932-2039. -/
inductive Main where
  /-- before the test of the outer loop, 1932 -/
  | ready
  /-- at `check_empties`, before the test of the inner loop, 1980 -/
  | check
  /-- the worker is on the list of the active ones, before 1967 -/
  | giving (w x : Nat)
  /-- before the test, 1983 -/
  | taking
  /-- in `pthread_cond_wait`, 1984 -/
  | asleep
  /-- after 1990, with `n`; before 1994 -/
  | took (w : Nat) (x : Option Nat)
  /-- in the loop of 2025-2030 -/
  | quitting (k : Nat)
  /-- in the loop of 2032-2036 -/
  | joining (k : Nat)
  | finished
  /-- `wt` is a null pointer, 1961 -/
  | crashed
  deriving DecidableEq

/-- The workers, the three lists, and the main thread, updater.c:1870-1881. -/
structure St where
  w : Nat → Worker
  active : List Nat
  fin : List Nat
  free : List Nat
  main : Main
  /-- the variable `active` -/
  count : Nat

/-- What the main thread finds: at the test of the outer loop, that there is a node to hand over, that there is one that has to wait or to
be expanded (`skip`), or that the loop is over (`quit`: nothing left to do, the server is dead, or a job failed). At the test of the inner
loop, that there is no work (`quit`) or that there is. What is in the graph, and when a signal comes, is left open, updater.c:1932-2004. -/
inductive Wish where
  | give (x : Nat)
  | skip
  | quit
  deriving DecidableEq

/-- Who takes a step, updater.c:1867-2082. -/
inductive Op where
  | main (c : Wish)
  /-- `r`: what `wt->fn` returns, if that is what the worker is in -/
  | worker (w : Nat) (r : Bool)
  /-- `pthread_cond_wait` can return without a signal -/
  | wake (w : Nat)
  | wakeMain
  deriving DecidableEq

/-- The memory of worker `i` changes; each worker has its own `struct worker_thread`, updater.c:121-137. -/
def set (s : St) (i : Nat) (q : Worker) : St := { s with w := fun k => if k = i then q else s.w k }

/-- `pthread_cond_signal(&wt->cond)`, updater.c:1970 and 2028: a thread that waits will look again. -/
def signal (q : Worker) : Worker := if q.pc = .asleep then { q with pc := .idle } else q

/-- A step of the main thread, updater.c:1932-2039 without what it does to the graph. -/
def mainStep (jobs : Nat) (s : St) (c : Wish) : Option St :=
  match s.main with
  | .ready =>
    match c with
    | .give x =>
      match s.free with
      | [] => some { s with main := .crashed }
      | i :: l => some { s with free := l, active := i :: s.active, count := s.count + 1, main := .giving i x }
    | .skip => some { s with main := .check }
    | .quit => some { s with main := .quitting 0 }
  | .giving i x =>
    let q := s.w i
    some { set s i (signal { q with n := some x, rc := false, given := q.given ++ [x] }) with main := .check }
  | .check => if s.free = [] ∨ (c = .quit ∧ s.count ≠ 0) then some { s with main := .taking } else some { s with main := .ready }
  | .taking =>
    match s.fin with
    | [] => some { s with main := .asleep }
    | i :: l => some { set s i { s.w i with retn := none } with fin := l, free := i :: s.free, count := s.count - 1, main := .took i (s.w i).retn }
  | .asleep => none
  | .took i x => some { set s i { s.w i with taken := (s.w i).taken ++ [(x, (s.w i).rc)] } with main := .check }
  | .quitting k =>
    if k < jobs then some { set s k (signal { s.w k with quit := true }) with main := .quitting (k + 1) }
    else some { s with main := .joining 0 }
  | .joining k =>
    if k < jobs then (if (s.w k).pc = .exited then some { s with main := .joining (k + 1) } else none)
    else some { s with main := .finished }
  | .finished => none
  | .crashed => none

/-- A step of worker `i`: `run_thread`, `worker_wait` and `worker_ret`, updater.c:2042-2082. -/
def workerStep (s : St) (i : Nat) (r : Bool) : Option St :=
  let q := s.w i
  match q.pc with
  | .idle => some (set s i { q with pc := if q.n = none ∧ q.quit = false then .asleep else .decided })
  | .asleep => none
  | .decided =>
    if q.quit then some (set s i { q with pc := .exited })
    else
      match q.n with
      | some x => some (set s i { q with pc := .working x })
      | none => some (set s i { q with pc := .crashed })
  | .working x => some (set s i { q with pc := .result r, worked := q.worked ++ [(x, r)] })
  | .result r => some (set s i { q with pc := .ret1, rc := r })
  | .ret1 => some (set s i { q with pc := .ret2, retn := q.n })
  | .ret2 => some (set s i { q with pc := .ret3, n := none })
  | .ret3 => some { set s i { q with pc := .idle } with active := s.active.erase i, fin := i :: s.fin, main := if s.main = .asleep then .taking else s.main }
  | .exited => none
  | .crashed => none

/-- A step of one of the threads (updater.c:1867-2082), or a `pthread_cond_wait` that returns for no reason. -/
def step (jobs : Nat) (s : St) : Op → Option St
  | .main c => mainStep jobs s c
  | .worker i r => if i < jobs then workerStep s i r else none
  | .wake i => if i < jobs ∧ (s.w i).pc = .asleep then some (set s i { s.w i with pc := .idle }) else none
  | .wakeMain => if s.main = .asleep then some { s with main := .taking } else none

/-- The steps in some order: the threads take turns as they like, updater.c:1867-2082. -/
def run (jobs : Nat) (s : St) : List Op → Option St
  | [] => some s
  | o :: l => match step jobs s o with | some s' => run jobs s' l | none => none

/-- The workers as they are made, updater.c:1885-1917 (if making one fails the program ends, which is left out). -/
def init (jobs : Nat) : St where
  w := fun _ => { n := none, retn := none, rc := false, quit := false, pc := .idle, given := [], worked := [], taken := [] }
  active := []
  fin := []
  free := (List.range jobs).reverse
  main := .ready
  count := 0

end Tup.Workers
