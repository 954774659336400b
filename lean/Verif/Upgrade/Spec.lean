import Verif.Upgrade.Model

/-!
What an upgrade of the database should do, in terms of what the database says: its nodes, its
links and its lists.  Nothing here runs a statement.
-/

namespace Tup.Upgrade

/-- The columns and constraints of the table of nodes in each version. -/
def nodeAt (v : Nat) : Schema :=
  if v < 4 then ⟨[.id, .dir, .type, .name], some .id, [.id, .dir, .type], []⟩
  else if v < 9 then ⟨[.id, .dir, .type, .name, .sym], some .id, [.id, .dir, .type], []⟩
  else if v < 12 then ⟨[.id, .dir, .type, .name, .sym, .mtime], some .id, [.id, .dir, .type], []⟩
  else if v < 13 then ⟨[.id, .dir, .type, .sym, .mtime, .name], some .id, [.id, .dir, .type, .sym, .mtime], [[.dir, .name]]⟩
  else if v < 14 then ⟨[.id, .dir, .type, .mtime, .name], some .id, [.id, .dir, .type, .mtime], [[.dir, .name]]⟩
  else if v < 17 then ⟨[.id, .dir, .type, .mtime, .name, .srcid], some .id, [.id, .dir, .type, .mtime], [[.dir, .name]]⟩
  else if v < 19 then ⟨[.id, .dir, .type, .mtime, .name, .srcid, .display, .flags], some .id, [.id, .dir, .type, .mtime], [[.dir, .name]]⟩
  else ⟨[.id, .dir, .type, .mtime, .name, .srcid, .display, .flags, .mtimeNs], some .id, [.id, .dir, .type, .mtime], [[.dir, .name]]⟩

/-- A table of links from a node to a node. -/
def pairs : Schema := ⟨[.fromId, .toId], none, [], [[.fromId, .toId]]⟩

/-- The tables of each version. -/
def tablesAt (v : Nat) : Tab → Option Schema
  | .node => some (nodeAt v)
  | .nodeNew => none
  | .link => if v < 10 then some ⟨[.fromId, .toId, .style], none, [], []⟩ else if v < 15 then some ⟨[.fromId, .toId, .style], none, [], [[.fromId, .toId]]⟩ else none
  | .linkNew => none
  | .normalLink => if v < 15 then none else some pairs
  | .stickyLink => if v < 15 then none else some pairs
  | .groupLink => if v < 15 then none else some ⟨[.fromId, .toId, .cmdid], none, [], [[.fromId, .toId, .cmdid]]⟩
  | .var => some ⟨[.id, .value], some .id, [.id], []⟩
  | .config => some ⟨[.lval, .rval], none, [], [[.lval]]⟩
  | .configList => if v < 14 then none else some idList
  | .createList => some idList
  | .modifyList => some idList
  | .deleteList => if v < 11 then some idList else none
  | .ghostList => if v = 7 then some idList else none
  | .variantList => if v < 14 then none else some idList
  | .transientList => if v < 18 then none else some idList

/-- The indexes of each version. -/
def indexesAt (v : Nat) : Idx → Option (Tab × List Col)
  | .nodeDir => if v < 12 then some (.node, [.dir, .name]) else none
  | .nodeSym => if 6 ≤ v ∧ v < 13 then some (.node, [.sym]) else none
  | .link => if v < 5 then some (.link, [.fromId]) else if v < 10 then some (.link, [.fromId, .toId]) else none
  | .link2 => if v < 15 then some (.link, [.toId]) else none
  | .normal2 => if v < 15 then none else some (.normalLink, [.toId])
  | .sticky2 => if v < 15 then none else some (.stickyLink, [.toId])
  | .group2 => if v < 15 then none else some (.groupLink, [.cmdid])
  | .srcid => if v < 16 then none else some (.node, [.srcid])

/-- A database of a version with these rows. -/
def mk (v : Nat) (rows : Tab → List Row) : Db := ⟨fun t => (tablesAt v t).map fun s => ⟨s, rows t⟩, indexesAt v⟩

/-- The constraints of a table hold. -/
def Fits (s : Schema) (rows : List Row) : Prop :=
  (∀ r ∈ rows, s.missing r = false) ∧ rows.Pairwise (fun a b => s.clash a b = false)

/-- A database as tup of that version left it: the constraints hold, and so do those that the
versions 10 and 12 made explicit (one link between two nodes; one node with a name in a directory,
apart from a ghost beside a real one; no column of a node without a value but the name). -/
structure Sound (v : Nat) (rows : Tab → List Row) : Prop where
  fits : ∀ t s, tablesAt v t = some s → Fits s (rows t)
  links : v < 10 → (rows .link).Pairwise (fun a b => sameIn [.fromId, .toId] a b = false)
  names : v < 12 → (rows .node).Pairwise (fun a b => sameIn [.dir, .name] a b = true → (a .type = .int 5 ↔ b .type ≠ .int 5))
  sym : 4 ≤ v → v < 13 → ∀ r ∈ rows .node, r .sym ≠ .null
  mtime : 9 ≤ v → ∀ r ∈ rows .node, r .mtime ≠ .null

/-- What a database says about a node. -/
structure Node where
  id : Val
  dir : Val
  type : Val
  name : Val
  mtime : Val
  mtimeNs : Val
  srcid : Val
  display : Val
  flags : Val
  deriving DecidableEq, Repr

/-- What a database says. -/
structure Content where
  nodes : List Node
  normal : List (Val × Val)
  sticky : List (Val × Val)
  groups : List (Val × Val × Val)
  vars : List (Val × Val)
  create : List Val
  modify : List Val
  configs : List Val
  variants : List Val
  transient : List Val
  deriving DecidableEq

/-- What a row of the table of nodes means in a version: what older versions do not record is unknown. -/
def nodeOf (v : Nat) (r : Row) : Node where
  id := r .id
  dir := r .dir
  type := r .type
  name := r .name
  mtime := if v < 9 then .int (-1) else r .mtime
  mtimeNs := if v < 19 then .int 0 else r .mtimeNs
  srcid := if v < 14 then .int (-1) else r .srcid
  display := if v < 17 then .null else r .display
  flags := if v < 17 then .null else r .flags

/-- The ends of a link. -/
def ends (r : Row) : Val × Val := (r .fromId, r .toId)

/-- What the rows of a database of a version say.  Up to version 14 one table holds the links: style 1 is a normal link, 2 a sticky one, 3 both. -/
def content (v : Nat) (rows : Tab → List Row) : Content where
  nodes := (rows .node).map (nodeOf v)
  normal := if v < 15 then ((rows .link).filter fun r => r .style == .int 1 || r .style == .int 3).map ends else (rows .normalLink).map ends
  sticky := if v < 15 then ((rows .link).filter fun r => r .style == .int 2 || r .style == .int 3).map ends else (rows .stickyLink).map ends
  groups := if v < 15 then [] else (rows .groupLink).map fun r => (r .fromId, r .toId, r .cmdid)
  vars := (rows .var).map fun r => (r .id, r .value)
  create := (rows .createList).map (· .id)
  modify := (rows .modifyList).map (· .id)
  configs := if v < 14 then [] else (rows .configList).map (· .id)
  variants := if v < 14 then [] else (rows .variantList).map (· .id)
  transient := if v < 18 then [] else (rows .transientList).map (· .id)

/-- A ghost beside a real node of the same name (version 12 removes it). -/
def Shadow (nodes : List Node) (n : Node) : Prop :=
  n.type = .int 5 ∧ n.name ≠ .null ∧ ∃ o ∈ nodes, o.name = n.name ∧ o.dir = n.dir ∧ o.type ≠ .int 5

instance (nodes : List Node) (n : Node) : Decidable (Shadow nodes n) := by unfold Shadow; infer_instance

/-- Version 12: no ghost beside a real node. -/
def dropShadows (c : Content) : Content := { c with nodes := c.nodes.filter fun n => !decide (Shadow c.nodes n) }

/-- An id that no node has. -/
def newId (nodes : List Node) : Int := nodes.foldl (fun m n => match n.id with | .int k => max m k | _ => m) 0 + 1

/-- The `tup.config` at the top of the project. -/
def isTupConfig (n : Node) : Bool := n.dir == .int 1 && n.name == tupConfig

/-- The nodes with one for `tup.config`; a ghost if there was none. -/
def withTupConfig (nodes : List Node) : List Node :=
  if nodes.any isTupConfig then nodes
  else nodes ++ [⟨.int (newId nodes), .int 1, .int 5, tupConfig, .int (-1), .int 0, .int (-1), .null, .null⟩]

/-- Node 2 becomes the node `t` in a list; not possible if both are in it. -/
def moveId (t : Val) (l : List Val) : Option (List Val) :=
  if .int 2 ∈ l ∧ t ∈ l ∧ t ≠ .int 2 then none else some (l.map fun x => if x = .int 2 then t else x)

/-- Version 14: the variables, until now in the directory with number 2, are in `tup.config`, and there is no node 2. -/
def toTupConfig (c : Content) : Option Content :=
  match (withTupConfig c.nodes).find? isTupConfig with
  | none => none
  | some t =>
    if ∃ a ∈ withTupConfig c.nodes, a.dir = .int 2 ∧ ∃ b ∈ withTupConfig c.nodes, b.dir ≠ .int 2 ∧ b.dir = t.id ∧ b.name = a.name ∧ a.name ≠ .null then none
    else
      match moveId t.id c.create, moveId t.id c.modify with
      | some l1, some l2 =>
        some { c with
          nodes := ((withTupConfig c.nodes).map fun n => if n.dir = .int 2 then { n with dir := t.id } else n).filter fun n => n.id != .int 2
          create := l1, modify := l2 }
      | _, _ => none

/-- The ids of the directories. -/
def dirs (nodes : List Node) : List Val := (nodes.filter fun n => n.type == .int 2).map (·.id)

/-- All Tupfiles are to be parsed. -/
def parseAll (c : Content) : Content :=
  { c with create := c.create.filter (fun x => !(dirs c.nodes).contains x) ++ dirs c.nodes }

/-- Is this the id of a node of type 6? -/
def IsGroup (nodes : List Node) (x : Val) : Prop := x ≠ .null ∧ ∃ n ∈ nodes, n.type = .int 6 ∧ n.id = x

instance (nodes : List Node) (x : Val) : Decidable (IsGroup nodes x) := by unfold IsGroup; infer_instance

/-- Version 15: the nodes of groups and their sticky links go. -/
def dropGroups (c : Content) : Content :=
  { c with
    nodes := c.nodes.filter fun n => n.type != .int 6
    sticky := c.sticky.filter fun l => !decide (IsGroup c.nodes l.1) && !decide (IsGroup c.nodes l.2) }

/-- Version 16: the source of a generated file is its directory. -/
def setSources (c : Content) : Content :=
  { c with nodes := c.nodes.map fun n => if n.type = .int 4 then { n with srcid := n.dir } else n }

/-- What a database of version `v` should say after the upgrade; `none` if it cannot be upgraded. -/
def expected (v : Nat) (c : Content) : Option Content :=
  let c := if v < 12 then dropShadows c else c
  match (if v < 14 then toTupConfig c else some c) with
  | none => none
  | some c =>
    let c := if v < 15 then dropGroups c else c
    let c := if v < 16 then setSources c else c
    some (if v < 17 then parseAll c else c)

/-- The value of a setting in the table `config`. -/
def setting (rows : Tab → List Row) (k : Val) : Option Val := ((rows .config).find? fun r => r .lval == k).map (· .rval)

/-- The same node: all that a node is but its place and its source. -/
def Keeps (n n' : Node) : Prop :=
  n'.id = n.id ∧ n'.type = n.type ∧ n'.name = n.name ∧ n'.mtime = n.mtime ∧ n'.mtimeNs = n.mtimeNs ∧ n'.display = n.display ∧ n'.flags = n.flags

/-- The nodes that a database of version `v` may lose: ghosts beside a real node, node 2 (the directory of variables), and the nodes of groups. -/
def Dropped (v : Nat) (nodes : List Node) (n : Node) : Prop :=
  (v < 12 ∧ Shadow nodes n) ∨ (v < 14 ∧ n.id = .int 2) ∨ (v < 15 ∧ n.type = .int 6)

end Tup.Upgrade
