import Verif.Basic

/-!
Model of the parallel executor `execute_graph` in src/tup/updater.c:1812-2082.

The main thread is a deterministic program; the worker threads and signals are the environment.  An
execution is any sequence of main steps, worker completions and (at most one) signal.
-/

namespace Tup.Exec

/-- `enum transient_type`, src/tup/graph.h:48-52. -/
inductive Trans where
  | none | processing | delete
deriving DecidableEq, Repr

/-- Point update of a per-node field (assignment `n->field = v`). -/
def upd {α : Type} (f : Nat → α) (n : Nat) (v : α) : Nat → α := fun m => if m = n then v else f m

/-- `struct graph` and `struct node`, src/tup/graph.h:59-95, as far as the executor uses them.

* `nodeList`, `plist`: the two TAILQs, by node id, first element first;
* `edges`: all `struct edge` objects as (src, dest) pairs.  `n->edges` is the sublist with source `n`
  and `n->incoming` the sublist with destination `n`;
* `proc n`: `n->state == STATE_PROCESSING` (the executor only tests for that value);
* `trans n`: `n->transient`. -/
structure Graph where
  nodeList : List Nat
  plist : List Nat
  edges : List (Nat × Nat)
  proc : Nat → Bool
  trans : Nat → Trans

/-- destinations of `n->edges` -/
def Graph.outs (g : Graph) (n : Nat) : List Nat := (g.edges.filter (·.1 = n)).map (·.2)

/-- `!LIST_EMPTY(&n->incoming)` -/
def Graph.hasIncoming (g : Graph) (n : Nat) : Bool := g.edges.any (·.2 = n)

/-- The node-list part of the loop of `pop_node`, src/tup/updater.c:1815-1839, over the destinations of
`n->edges`: a destination that is not already STATE_PROCESSING moves from node_list to the head of plist.
`none` is the error return of `node_remove_list` (src/tup/graph.c:113-126) when the node is not on
node_list. -/
def popDests : List Nat → Graph → Option Graph
  | [], g => some g
  | d :: ds, g =>
    if g.proc d then popDests ds g
    else if d ∈ g.nodeList then
      popDests ds { g with nodeList := g.nodeList.erase d, plist := d :: g.plist,
                           proc := upd g.proc d true }
    else none

/-- `pop_node`, src/tup/updater.c:1812-1860.  Simplification: the edges are updated once after the loop
instead of one by one inside it (`remove_edge` of every edge of `n`, and for a transient node
`create_edge(dest, n)` for each of them); nothing in the loop reads them.  `none` is the return -1. -/
def popNode (g : Graph) (n : Nat) : Option Graph :=
  let ds := g.outs n
  match popDests ds g with
  | none => none
  | some g1 =>
    if g.trans n = .processing then
      if n ∈ g1.nodeList ∨ n ∈ g1.plist then none   -- node_insert_head: "already in a list"
      else
        some { nodeList := if ds ≠ [] then n :: g1.nodeList else g1.nodeList
               plist := if ds ≠ [] then g1.plist else n :: g1.plist
               edges := ds.map (·, n) ++ g1.edges.filter (·.1 ≠ n)
               proc := upd g1.proc n false
               trans := upd g1.trans n .delete }
    else some { g1 with edges := g1.edges.filter (·.1 ≠ n) }

/-- Where the main thread is: the `while` head (line 1932), the `check_empties` loop head (line 1980),
returned with `ok` meaning rc == 0 (line 2008-2039), or returned -2 / crashed (`free_list` empty when a
worker is needed, line 1961, would dereference NULL). -/
inductive PC where
  | loop | check | done (ok : Bool) | abort
deriving DecidableEq, Repr

/-- Parameters of one `execute_graph` call that do not change: `keep_going`, `jobs` and each node's
`expanded` field. -/
structure Cfg where
  keepGoing : Bool
  jobs : Nat
  expanded : Nat → Bool

/-- State during `execute_graph`.  `running` is active_list (by node), `fin` is fin_list with each
worker's `rc == 0`, first element first; free_list has the remaining `jobs - |running| - |fin|` workers.
`D` is whatever the work function acts on.  The last four fields are history variables that the C
program does not have: nodes handed to workers for their job, transient files handed to workers a second
time to be deleted, nodes popped, nodes whose job failed. -/
structure S (D : Type) where
  g : Graph
  running : List Nat
  fin : List (Nat × Bool)
  dead : Bool
  failed : Nat
  pc : PC
  db : D
  started : List Nat
  cleaned : List Nat
  popped : List Nat
  failedL : List Nat

variable {D : Type}

/-- `active` (== number of workers not on free_list). -/
def S.active (s : S D) : Nat := s.running.length + s.fin.length

/-- Exit of the main loop and result, src/tup/updater.c:2007-2022. -/
def exitLoop (s : S D) : S D :=
  { s with pc := .done (!s.dead && s.failed = 0 && s.g.nodeList = [] && s.g.plist = []) }

/-- One step of the main thread; `none` means it is blocked in `pthread_cond_wait`
(src/tup/updater.c:1983-1985). -/
def mainStep (c : Cfg) (s : S D) : Option (S D) :=
  match s.pc with
  | .loop =>
    -- line 1932
    match s.g.plist with
    | [] => some (exitLoop s)
    | n :: rest =>
      if s.dead || (s.failed > 0 && !c.keepGoing) then some (exitLoop s)
      else if s.g.hasIncoming n then
        -- line 1937-1947
        some { s with g := { s.g with plist := rest, nodeList := n :: s.g.nodeList,
                                      proc := upd s.g.proc n false }, pc := .check }
      else if !c.expanded n then
        -- line 1949-1955
        match popNode { s.g with plist := rest } n with
        | none => some { s with pc := .abort }
        | some g' => some { s with g := g', pc := .check, popped := n :: s.popped }
      else if s.active ≥ c.jobs then some { s with pc := .abort }
      else
        -- line 1957-1971
        some { s with g := { s.g with plist := rest }, running := n :: s.running, pc := .check,
                      started := if s.g.trans n = .delete then s.started else n :: s.started,
                      cleaned := if s.g.trans n = .delete then n :: s.cleaned else s.cleaned }
  | .check =>
    -- line 1980
    if s.active ≥ c.jobs ||
        ((s.g.plist = [] || s.dead || (s.failed > 0 && !c.keepGoing)) && s.active > 0) then
      match s.fin with
      | [] => none
      | (n, ok) :: fin' =>
        if ok then
          match popNode s.g n with
          | none => some { s with pc := .abort }
          | some g' => some { s with g := g', fin := fin', popped := n :: s.popped }
        else
          if n ∈ s.g.nodeList ∨ n ∈ s.g.plist then some { s with pc := .abort }
          else
            some { s with g := { s.g with nodeList := s.g.nodeList ++ [n] }, fin := fin',
                          failed := s.failed + 1, failedL := n :: s.failedL }
    else some { s with pc := .loop }
  | .done _ => none
  | .abort => none

/-- What a work function may do with its node: relation between the state before, the graph, the node,
the state after, and `rc == 0`. -/
abbrev Work (D : Type) := D → Graph → Nat → D → Bool → Prop

/-- All steps of an execution.  `finish` is `run_thread`/`worker_ret`
(src/tup/updater.c:2054-2082): the work function's effect, and the worker moving from active_list to the
head of fin_list; it can happen at any time, also after the main loop has been left (the threads are
joined at line 2031-2036).  `die` is the signal handler setting the flag read by `server_is_dead`. -/
inductive Step (c : Cfg) (w : Work D) : S D → S D → Prop where
  | main {s s'} (h : mainStep c s = some s') : Step c w s s'
  | finish {s : S D} {n : Nat} {ok : Bool} {db' : D} (hn : n ∈ s.running)
      (hw : w s.db s.g n db' ok) :
      Step c w s { s with running := s.running.erase n, fin := (n, ok) :: s.fin, db := db' }
  | die {s : S D} (h : s.dead = false) : Step c w s { s with dead := true }

/-- The state when the loop is entered: the first node of node_list (the root) has been removed and
popped, src/tup/updater.c:1919-1924.  `none` is the return -2. -/
def start (g0 : Graph) (db : D) : Option (S D) :=
  match g0.nodeList with
  | [] => none
  | root :: rest =>
    (popNode { g0 with nodeList := rest } root).map fun g =>
      { g := g, running := [], fin := [], dead := false, failed := 0, pc := .loop, db := db,
        started := [], cleaned := [], popped := [root], failedL := [] }

/-- The number of jobs used for a requested number, src/tup/updater.c:178-185 (MAX_JOBS is 65535,
src/tup/updater.c:53).  A C int is read as an integer; the result is passed on as `jobs`. -/
def clampJobs (n : Int) : Nat :=
  let n := if n < 1 then 1 else n
  if n > 65535 then 65535 else n.toNat

/-- Reachability by any number of steps. -/
inductive Reach (c : Cfg) (w : Work D) (s0 : S D) : S D → Prop where
  | refl : Reach c w s0 s0
  | tail {s s'} : Reach c w s0 s → Step c w s s' → Reach c w s0 s'

end Tup.Exec
