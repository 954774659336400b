import Verif.Graph.Model

/-!
Model of the work graph of an update in a project with transient (`^t`) commands: the choice of the first nodes
(`process_update_nodes`, src/tup/updater.c:1638-1655, with the callbacks src/tup/graph.c:338-375) and
`attach_transient_nodes` (src/tup/graph.c:468-535) with the loop around it (575-590).  The loop in the middle is
`Tup.Graph.loop`.
-/

namespace Tup.Transient

open Tup.Graph
open Tup.Exec (upd)

/-- What the queries of the database report.

* `links`: `tup_db_select_node_by_link`, `groupLinks`: `tup_db_select_node_by_distinct_group_link`;
* `sticky n`: `tup_db_select_node_by_sticky_link`, src/tup/db.c:4448-4464, what has `n` as a declared input;
* `isCmd`: the type is TUP_NODE_CMD; `temp`: `is_transient_tent`, src/tup/entry.c:802-805;
* `modify`, `kept`: the tables modify_list and transient_list, in the order of the ids. -/
structure Db extends Links where
  sticky : Nat → List Nat
  isCmd : Nat → Bool
  temp : Nat → Bool
  modify : List Nat
  kept : List Nat

/-- `build_graph_non_transient_cb` for every node of the modify list, src/tup/graph.c:363-376.  The second
component is `g->transient_root`, a tree ordered by id; as the ids come in that order, it is the list of the
commands put in so far.  `none` is the circular dependency error. -/
def choose (d : Db) (root : Nat) : List Nat → B × List Nat → Option (B × List Nat)
  | [], s => some s
  | n :: ns, (b, t) =>
    if d.isCmd n && d.temp n then choose d root ns (b, t ++ [n])
    else match makeEdge ⟨root, n, true⟩ b with
      | none => none
      | some b => choose d root ns (b, t)

/-- `build_graph_transient_cb`, src/tup/graph.c:338-361. -/
def park (d : Db) (root n : Nat) (b : B) : Option B :=
  if d.isCmd n then makeEdge ⟨root, n, true⟩ b
  else if n ∈ b.nodes then some b
  else match makeEdge ⟨root, n, true⟩ b with
    | none => none
    | some b => some { b with plist := b.plist.erase n, nodeList := b.nodeList ++ [n], st := upd b.st n .fin }

/-- The callback for every node of the transient list, src/tup/updater.c:1653. -/
def parkAll (d : Db) (root : Nat) : List Nat → B → Option B
  | [], b => some b
  | n :: ns, b =>
    match park d root n b with
    | none => none
    | some b => parkAll d root ns b

/-- `remove_node_internal`, src/tup/graph.c:128-151.  The fields of the node are those of a new one afterwards,
as its id may get a new node later. -/
def removeNode (n : Nat) (b : B) : B :=
  { nodes := b.nodes.filter (· ≠ n), nodeList := b.nodeList.filter (· ≠ n), plist := b.plist.filter (· ≠ n)
    edges := b.edges.filter fun e => e.1 ≠ n && e.2 ≠ n
    st := upd b.st n .init, expanded := upd b.expanded n false }

/-- The loop over the outputs of a new command, src/tup/graph.c:489-507: edges to those users of an output that are
in the graph (`attach_transient_cb`, 324-336), until the command is found to be needed.  The second component is
`keep_cmd`. -/
def attachOuts (d : Db) : List Nat → B → Option (B × Bool)
  | [], b => some (b, false)
  | o :: os, b =>
    match addLinks (((d.sticky o).filter (· ∈ b.nodes)).map (⟨o, ·, true⟩)) b with
    | none => none
    | some b =>
      if o ∉ d.kept ∧ b.edges.any (·.1 = o) then some (b, true)
      else attachOuts d os b

/-- src/tup/graph.c:510-517: the outputs of a command that is kept go from plist to node_list.  `none` is the error
of `node_remove_list` (117-120) for a node that is not on plist. -/
def settle : List Nat → B → Option B
  | [], b => some b
  | o :: os, b =>
    if o ∈ b.plist then
      settle os { b with plist := b.plist.erase o, nodeList := b.nodeList ++ [o], st := upd b.st o .fin }
    else none

/-- src/tup/graph.c:518-524: the command itself gets an edge from the root and goes to node_list. -/
def enter (root c : Nat) (b : B) : Option B :=
  match makeEdge ⟨root, c, true⟩ b with
  | none => none
  | some b => some { b with plist := b.plist.erase c, nodeList := b.nodeList ++ [c] }

/-- src/tup/graph.c:526-532: the outputs go away, except those in the transient list, and the command. -/
def drop (d : Db) (c : Nat) (outs : List Nat) (b : B) : B :=
  removeNode c ((outs.filter (· ∉ d.kept)).foldl (fun b o => removeNode o b) b)

/-- How the loop body of `attach_transient_nodes` can end for one command. -/
inductive One where
  | kept (b : B) | dropped (b : B) | circular | internal

/-- The loop body of `attach_transient_nodes`, src/tup/graph.c:482-533, for a command that is not in the graph.
`create_node` puts it on node_list; `cmdnode->edges` has the newest edge first. -/
def attachOne (d : Db) (root c : Nat) (b : B) : One :=
  match addLinks ((d.links c).map (⟨c, ·, true⟩)) (findOrCreate c b) with
  | none => .circular
  | some b =>
    match attachOuts d (d.links c).reverse b with
    | none => .circular
    | some (b, true) =>
      match settle (d.links c).reverse b with
      | none => .internal
      | some b =>
        match enter root c b with
        | none => .circular
        | some b => .kept b
    | some (b, false) => .dropped (drop d c (d.links c).reverse b)

/-- How one call of `attach_transient_nodes` can end: the graph, what is left of `transient_root`, and the return
value (1 if a command was kept). -/
inductive Pass where
  | ok (b : B) (t : List Nat) (any : Bool) | circular | internal

/-- `attach_transient_nodes`, src/tup/graph.c:468-535. -/
def pass (d : Db) (root : Nat) : List Nat → B → Pass
  | [], b => .ok b [] false
  | c :: cs, b =>
    if c ∈ b.nodes then
      match pass d root cs b with
      | .ok b t any => .ok b (c :: t) any
      | r => r
    else match attachOne d root c b with
      | .circular => .circular
      | .internal => .internal
      | .kept b =>
        match pass d root cs b with
        | .ok b t _ => .ok b t true
        | r => r
      | .dropped b =>
        match pass d root cs b with
        | .ok b t any => .ok b (c :: t) any
        | r => r

/-- src/tup/graph.c:579-586: until nothing is added any more.  `more` means that the budget of the model ran out
(never happens, `c61_ends`). -/
def attachAll (d : Db) (root : Nat) : Nat → List Nat → B → Res
  | 0, _, _ => .more
  | fuel + 1, t, b =>
    match pass d root t b with
    | .circular => .circular
    | .internal => .internal
    | .ok b _ false => .ok b
    | .ok b t true => attachAll d root fuel t b

/-- `process_update_nodes` up to `build_graph` (src/tup/updater.c:1644-1656), without `add_graph_stickies`, which is
`Tup.Graph.addStickies`.  `U` are the nodes of the database. -/
def build (d : Db) (root : Nat) (U : List Nat) : Res :=
  match choose d root d.modify (empty root, []) with
  | none => .circular
  | some (b, t) =>
    match parkAll d root d.kept b with
    | none => .circular
    | some b =>
      match loop (updateOps d.toLinks) (2 * U.length) b with
      | .ok b => attachAll d root (t.length + 1) t b
      | r => r

end Tup.Transient
