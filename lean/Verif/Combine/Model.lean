import Verif.Text

/-!
Model of `tup graph`, as far as it prints a graph that has been built (C35 is about building it): `dump_graph` with and
without `--dirs` and `--combine`, src/tup/graph.c:953-1391.

The graph is given by the nodes in the order of `node_list` and by the edges (source, destination, style).  The order
of the edges of a node is not modelled; the lists `plist` are empty when a graph is printed.  Colours, shapes and styles
of the nodes are left out.
-/

namespace Tup.Combine

/-- The types of nodes as far as they matter: enum TUP_NODE_TYPE, src/tup/db_types.h. -/
inductive Kind where
  | file | generated | cmd | dir | generatedDir | other
deriving DecidableEq, Repr

/-- What a node tells: `struct tup_entry`. -/
structure Info where
  kind : Nat → Kind
  name : Nat → Str
  display : Nat → Option Str
  dir : Nat → Nat

/-- An edge: source, destination, style. -/
abbrev Edge := Nat × Nat × Nat

/-- `struct graph`; `root` is the node that is not printed. -/
structure G where
  root : Nat
  nodes : List Nat
  edges : List Edge
deriving DecidableEq

/-- `remove_node_internal`, src/tup/graph.c:128-138: the node goes with all its edges. -/
def removeNode (g : G) (x : Nat) : G :=
  { g with nodes := g.nodes.filter (· ≠ x), edges := g.edges.filter fun e => e.1 ≠ x ∧ e.2.1 ≠ x }

/-- Nodes that are not shown without `--dirs`: src/tup/graph.c:1344-1360. -/
def unshown (i : Info) (x : Nat) : Bool :=
  match i.kind x with
  | .dir | .generatedDir => true
  | .file => i.name x = "Tupfile".toList || i.name x = "Tupfile.lua".toList || i.name x = "Tupdefault.lua".toList
  | .generated => i.name x = ".gitignore".toList
  | _ => false

/-- The first loop of `dump_graph`, src/tup/graph.c:1342-1363. -/
def hideDirs (i : Info) (g : G) : G :=
  (g.nodes.filter (unshown i)).foldl removeNode g

/-! ### Combining -/

/-- `struct node_details`, src/tup/graph.c:967-972. -/
structure Nd where
  id : Nat
  hash : Int
  count : Nat
deriving DecidableEq

/-- The graph, and the entries that are in `hash_root` and `node_root`. -/
structure S where
  g : G
  reps : List Nd
deriving DecidableEq

/-- `find_edge` or `find_incoming_edge`, and else `create_edge_sorted`, src/tup/graph.c:1222-1244, 1316-1325. -/
def addEdge (l : List Edge) (e : Edge) : List Edge := if e ∈ l then l else l ++ [e]

/-- The edges of a command go over to another one, src/tup/graph.c:1309-1326. -/
def moveEdges (keep child : Nat) (l : List Edge) : List Edge :=
  let l := (l.filter fun e => e.1 = child).foldl (fun l e => addEdge l (keep, e.2.1, e.2.2)) l
  (l.filter fun e => e.2.1 = child).foldl (fun l e => addEdge l (e.1, keep, e.2.2)) l

/-- The body of the second loop of `combine_nodes`, src/tup/graph.c:1278-1330: the first node with a hash stays; of two
nodes with the same hash the one with the smaller name stays, and the new one if the names are equal. -/
def step (i : Info) (s : S) (x : Nat) (h : Int) : S :=
  match s.reps.find? fun r => r.hash = h with
  | none => { s with reps := s.reps ++ [⟨x, h, 1⟩] }
  | some o =>
    let keep := if i.name o.id < i.name x then o.id else x
    let child := if i.name o.id < i.name x then x else o.id
    let g := if i.kind x = .cmd then { s.g with edges := moveEdges keep child s.g.edges } else s.g
    ⟨removeNode g child, s.reps.map fun r => if r.hash = h then ⟨keep, h, o.count + 1⟩ else r⟩

/-- A node goes to its place in the tree `tmproot`: `tupid_tree_insert`, src/tup/graph.c:1273. -/
def insertId (x : Nat) : List Nat → List Nat
  | [] => [x]
  | y :: l => if x ≤ y then x :: y :: l else y :: insertId x l

/-- The tree `tmproot`, in the order in which `RB_FOREACH_SAFE` walks through it, src/tup/graph.c:1256-1279. -/
def sortIds (l : List Nat) : List Nat := l.foldr insertId []

/-- `combine_nodes`, src/tup/graph.c:1246-1333, for the commands or for the other nodes.  All hashes are computed before the
first node is removed, then the nodes are taken in the order of their ids. -/
def combineNodes (i : Info) (cmds : Bool) (hash : G → Nat → Int) (s : S) : S :=
  (sortIds (s.g.nodes.filter fun x => decide (i.kind x = .cmd) = cmds)).foldl (fun t x => step i t x (hash s.g x)) s

/-- The two calls, src/tup/graph.c:1366-1372. -/
def combine (i : Info) (cmdHash fileHash : G → Nat → Int) (g : G) : S :=
  combineNodes i false fileHash (combineNodes i true cmdHash ⟨g, []⟩)

/-! ### The hash of a command -/

/-- `get_hash`, src/tup/graph.c:1063-1066, with 64-bit numbers; `none`: an overflow, which is undefined behaviour. -/
def getHash (hash id style : Int) : Option Int :=
  let h := hash * 31
  let p := id * style
  if -9223372036854775808 ≤ h ∧ h ≤ 9223372036854775807 ∧ -9223372036854775808 ≤ h + p ∧ h + p ≤ 9223372036854775807 then some (h + p)
  else none

/-- The loop of `command_name_hash`, src/tup/graph.c:1068-1112, over the characters up to the first space, which are `char`s. -/
def nameHash (name : Str) (hash : Int) : Option Int :=
  (name.takeWhile (· ≠ ' ')).foldlM (fun h c => getHash h (if c.toNat < 128 then (c.toNat : Int) else (c.toNat : Int) - 256) 1) hash

/-! ### Printing -/

/-- `print_name`, src/tup/graph.c:953-965. -/
def printName : Str → Str
  | [] => []
  | c :: s => (if c = '"' then "\\\"".toList else if c = '\\' then "\\\\".toList else [c]) ++ printName s

/-- A line of the output. -/
inductive Line where
  /-- `node_x [label="…\n…" …]`, with the number behind the line break and the word behind the number -/
  | node (x : Nat) (label : Str) (number : Option Nat) (word : Str)
  /-- `node_x -> node_d`, to the directory -/
  | dir (x d : Nat)
  /-- `node_b -> node_a` for an edge from `a` to `b` -/
  | edge (b a style : Nat)
deriving DecidableEq

/-- `dump_node`, src/tup/graph.c:974-1061. -/
def dumpNode (i : Info) (g : G) (dirs : Bool) (reps : List Nd) (x : Nat) : List Line :=
  if x = g.root then []
  else
    let label := printName (match i.display x with | some d => d | none => i.name x)
    let data : Nat × Str :=
      match reps.find? fun r => r.id = x with
      | some r => (r.count, if i.kind x = .cmd then " commands".toList else " files".toList)
      | none => (x, [])
    let number := if data.1 = 1 then none else some data.1
    [.node x label number (if data.1 = 1 then [] else data.2)] ++
      (if dirs ∧ i.dir x ≠ 0 ∧ i.dir x ∈ g.nodes then [.dir x (i.dir x)] else []) ++
      (g.edges.filter fun e => e.1 = x).map fun e => .edge e.2.1 x e.2.2

/-- `dump_graph`, src/tup/graph.c:1335-1391. -/
def dumpGraph (i : Info) (cmdHash fileHash : G → Nat → Int) (dirs comb : Bool) (g : G) : List Line :=
  let g := if dirs then g else hideDirs i g
  let s := if comb then combine i cmdHash fileHash g else ⟨g, []⟩
  (s.g.nodes.filter fun x => decide (s.reps = []) || s.reps.any fun r => r.id = x).flatMap (dumpNode i s.g dirs s.reps)

end Tup.Combine
