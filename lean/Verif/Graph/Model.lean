import Verif.Exec.Model

/-!
Model of the work graph construction in src/tup/graph.c: `create_graph`, `build_graph`,
`nodes_are_connected`, `trim_graph`, `mark_nodes`/`prune_graph`.

Node ids are natural numbers.  The database is seen through the rows its queries return for a node.
-/

namespace Tup.Graph

open Tup.Exec (upd)

/-- STATE_INITIALIZED, STATE_PROCESSING, STATE_FINISHED, src/tup/graph.h:43-45. -/
inductive St where
  | init | proc | fin
deriving DecidableEq, Repr

/-- `struct graph` while it is being built, src/tup/graph.h:75-95.  `nodes` is node_root (all nodes
created so far); the two TAILQs are lists with the first element first; `edges` has the newest edge
first, as (src, dest). -/
structure B where
  nodes : List Nat
  nodeList : List Nat
  plist : List Nat
  edges : List (Nat × Nat)
  st : Nat → St
  expanded : Nat → Bool

/-- `create_graph`, src/tup/graph.c:216-249: only the root node, on node_list. -/
def empty (root : Nat) : B :=
  { nodes := [root], nodeList := [root], plist := [], edges := [], st := fun _ => .init,
    expanded := fun _ => false }

/-- `find_node` or else `create_node`, src/tup/graph.c:53-89 and 383-388. -/
def findOrCreate (n : Nat) (b : B) : B :=
  if n ∈ b.nodes then b else { b with nodes := n :: b.nodes, nodeList := b.nodeList ++ [n] }

/-- One edge to be added while a node is being looked at: `make_edge` (src/tup/graph.c:288-322, `check` is
true), or the same without the check for a circular dependency in `build_graph_group_cb` (413-431) and
`build_group_cb` (436-466). -/
structure Op where
  src : Nat
  dst : Nat
  check : Bool
deriving DecidableEq, Repr

/-- `find_or_create_node`, then `make_edge`, without the counting for the progress display and without the
`skip` field (see Verif/Update).  `expand_node` is src/tup/graph.c:278-286; `make_edge` ignores its result.
`none` is the circular dependency error. -/
def makeEdge (o : Op) (b0 : B) : Option B :=
  let b := findOrCreate o.dst b0
  if o.check = true ∧ b.st o.dst = .proc then none
  else
    let b := if b.expanded o.dst then b
      else { b with expanded := upd b.expanded o.dst true, nodeList := b.nodeList.erase o.dst,
                    plist := o.dst :: b.plist }
    some { b with edges := (o.src, o.dst) :: b.edges }

/-- The callback called for every row of the query. -/
def addLinks : List Op → B → Option B
  | [], b => some b
  | o :: os, b =>
    match makeEdge o b with
    | none => none
    | some b => addLinks os b

/-- How a graph building loop can end.  `internal` is "STATE_FINISHED node in plist"; `more` means the
step budget of the model ran out (never happens, see `c28_loop_ends`). -/
inductive Res where
  | ok (b : B) | circular | internal | more

/-- The loop of `build_graph`, src/tup/graph.c:544-572.  `ops n` are the edges added when `n` is first
looked at. -/
def loop (ops : Nat → List Op) : Nat → B → Res
  | 0, b => match b.plist with
    | [] => .ok b
    | _ :: _ => .more
  | fuel + 1, b => match b.plist with
    | [] => .ok b
    | cur :: rest => match b.st cur with
      | .init => match addLinks (ops cur) b with
        | none => .circular
        | some b => loop ops fuel { b with st := upd b.st cur .proc }
      | .proc => loop ops fuel { b with plist := rest, nodeList := b.nodeList ++ [cur],
                                        st := upd b.st cur .fin }
      | .fin => .internal

/-- What the database holds for the update graph: `links n` is what `tup_db_select_node_by_link`
(src/tup/db.c:4428-4446) reports for `n`; `groupLinks n` what `tup_db_select_node_by_distinct_group_link`
(4548-4610) reports if `n` is a group (empty otherwise). -/
structure Links where
  links : Nat → List Nat
  groupLinks : Nat → List Nat

/-- Edges added for a node in the update graph, src/tup/graph.c:553-558. -/
def updateOps (l : Links) (n : Nat) : List Op :=
  (l.links n).map (⟨n, ·, true⟩) ++ (l.groupLinks n).map (⟨n, ·, false⟩)

/-- The graph for an update without transient files: the scheduled nodes become children of the root
(`tup_db_select_node_by_flags` with `build_graph_cb`, src/tup/updater.c:1646-1647), then `build_graph`
(transient commands: see `attach_transient_nodes`, not modelled).  The step budget is twice the number of
nodes in the database. -/
def buildGraph (l : Links) (root : Nat) (U sched : List Nat) : Res :=
  match addLinks (sched.map (⟨root, ·, true⟩)) (empty root) with
  | none => .circular
  | some b => loop (updateOps l) (2 * U.length) b

/-- Edges added for a node in the group graph, src/tup/graph.c:550-552 and 436-466.  `rows n` is what
`tup_db_select_node_by_group_link` (src/tup/db.c:4466-4546) reports for `n`: (to_id, cmdid) pairs. -/
def groupOps (rows : Nat → List (Nat × Nat)) (n : Nat) : List Op :=
  (rows n).flatMap fun (to, cmd) => [⟨cmd, to, false⟩, ⟨n, cmd, false⟩]

/-- `add_group_circ_check`, src/tup/graph.c:1399-1420: the group goes straight to plist, without an edge. -/
def addGroup (n : Nat) (b : B) : B :=
  if n ∈ b.nodes then b
  else { b with nodes := n :: b.nodes, plist := n :: b.plist, expanded := upd b.expanded n true }

/-- The first half of `group_circ_check`, src/tup/graph.c:1422-1427. -/
def buildGroupGraph (rows : Nat → List (Nat × Nat)) (root : Nat) (U groups : List Nat) : Res :=
  loop (groupOps rows) (2 * U.length) (groups.foldl (fun b n => addGroup n b) (empty root))

/-- One pass of `trim_graph` over the remaining nodes, src/tup/graph.c:916-924.  A node without incoming
or without outgoing edges is removed together with its edges; `true` if any node was removed. -/
def trimPass : List Nat → List Nat × List (Nat × Nat) → (List Nat × List (Nat × Nat)) × Bool
  | [], g => (g, false)
  | n :: ns, (nodes, edges) =>
    if (edges.all (·.2 ≠ n)) || (edges.all (·.1 ≠ n)) then
      ((trimPass ns (nodes.erase n, edges.filter fun e => e.1 ≠ n && e.2 ≠ n)).1, true)
    else trimPass ns (nodes, edges)

/-- `trim_graph`, src/tup/graph.c:910-928: passes until nothing is removed.  Every pass but the last one
removes a node, so the number of nodes bounds the number of passes. -/
def trim : Nat → List Nat × List (Nat × Nat) → List Nat × List (Nat × Nat)
  | 0, g => g
  | fuel + 1, g =>
    let (g', removed) := trimPass g.1 g
    if removed then trim fuel g' else g'

/-- `group_circ_check`, src/tup/graph.c:1422-1444: `true` is the circular dependency error. -/
def groupCircular (nodes : List Nat) (edges : List (Nat × Nat)) : Bool :=
  (trim (nodes.length + 1) (nodes, edges)).1 ≠ []

/-- `nodes_are_connected`, src/tup/graph.c:678-731 (its callback `add_file_cb`, 643-676, does what
`make_edge` does here).  `none` is the error return. -/
def connLoop (ops : Nat → List Op) (src : Nat) (valid : Nat → Bool) : Nat → B → Option Bool
  | 0, b => match b.plist with
    | [] => some false
    | _ :: _ => none
  | fuel + 1, b => match b.plist with
    | [] => some false
    | n :: rest =>
      if n ≠ src ∧ valid n = true then some true
      else match b.st n with
        | .init => match addLinks (ops n) b with
          | none => none
          | some b => connLoop ops src valid fuel { b with st := upd b.st n .proc }
        | .proc => connLoop ops src valid fuel { b with plist := rest, nodeList := b.nodeList ++ [n],
                                                        st := upd b.st n .fin }
        | .fin => none

def nodesAreConnected (links : Nat → List Nat) (root : Nat) (U : List Nat) (src : Nat)
    (valid : Nat → Bool) : Option Bool :=
  match addLinks [⟨root, src, true⟩] (empty root) with
  | none => none
  | some b => connLoop (updateOps ⟨links, fun _ => []⟩) src valid (2 * U.length) b

/-- `add_graph_stickies`, src/tup/graph.c:619-642: for every command in the graph an edge from each of its
sticky inputs that is also in the graph.  `sticky n` is what `tup_db_get_inputs` reports. -/
def addStickies (isCmd : Nat → Bool) (sticky : Nat → List Nat) (nodes : List Nat) : List (Nat × Nat) :=
  (nodes.filter isCmd).flatMap fun n => ((sticky n).filter (· ∈ nodes)).map (·, n)

/-- The built graph as the executor sees it: `proc` is `state == STATE_PROCESSING`. -/
def toExec (b : B) (extra : List (Nat × Nat)) (trans : Nat → Tup.Exec.Trans) : Tup.Exec.Graph :=
  { nodeList := b.nodeList, plist := b.plist, edges := extra ++ b.edges,
    proc := fun n => b.st n = .proc, trans := trans }

/-- The node types that pruning distinguishes (`tent->type`, src/tup/db_types.h); `other` covers
generated files and everything else. -/
inductive Kind where
  | cmd | file | group | other
deriving DecidableEq, Repr

/-- What pruning knows about the nodes: type, being an exclusion (`tent->dt == exclusion_dt()`), and
`counted`. -/
structure Info where
  kind : Nat → Kind
  excl : Nat → Bool
  counted : Nat → Bool

/-- The nodes `mark_nodes` (src/tup/graph.c:736-770) goes on to from `n`: for a command its outputs,
except groups and exclusions, then everything pointing at `n`. -/
def markNbrs (i : Info) (edges : List (Nat × Nat)) (n : Nat) : List Nat :=
  (if i.kind n = .cmd then
    ((edges.filter (·.1 = n)).map (·.2)).filter fun d => i.kind d ≠ .group && !i.excl d
   else []) ++ (edges.filter (·.2 = n)).map (·.1)

/-- `mark_nodes`: the recursion written with an explicit list of calls still to be made (same order). -/
def mark (i : Info) (edges : List (Nat × Nat)) : Nat → List Nat → List Nat → List Nat
  | _, [], marked => marked
  | 0, _ :: _, marked => marked
  | fuel + 1, n :: todo, marked =>
    if n ∈ marked then mark i edges fuel todo marked
    else mark i edges fuel (markNbrs i edges n ++ todo) (n :: marked)

/-- A bound for the number of calls of `mark_nodes`: one per target and one per edge end. -/
def markFuel (i : Info) (edges : List (Nat × Nat)) (nodes targets : List Nat) : Nat :=
  targets.length + (nodes.map fun n => (markNbrs i edges n).length).sum

/-- Result of `prune_graph`. -/
structure Pruned where
  nodes : List Nat
  edges : List (Nat × Nat)
  trans : Nat → Tup.Exec.Trans
  scheduled : List Nat     -- added to the modify list

/-- `prune_graph`, src/tup/graph.c:817-908, when targets were given; `targets` are the graph nodes named
explicitly or lying below a named directory (that selection, and the parsing of the arguments, is not
modelled).  `prune_node` is 772-815: a pruned command is scheduled for the next update; a transient file
used by a pruned node is kept; normal files stay in the graph unless `all` (GRAPH_PRUNE_ALL).  The edges
and nodes are removed at the end instead of one by one. -/
def prune (i : Info) (all : Bool) (root : Nat) (nodes : List Nat) (edges : List (Nat × Nat))
    (trans : Nat → Tup.Exec.Trans) (targets : List Nat) : Pruned :=
  let marked := mark i edges (markFuel i edges nodes targets) targets []
  let unmarked := nodes.filter fun n => n ∉ marked && n ≠ root
  let gone := unmarked.filter fun n => all || i.kind n ≠ .file
  { nodes := nodes.filter (· ∉ gone)
    edges := edges.filter fun e => e.1 ∉ gone && e.2 ∉ gone
    trans := fun n => if edges.any (fun e => e.1 = n && e.2 ∈ unmarked) then .none else trans n
    scheduled := unmarked.filter i.counted }

end Tup.Graph
