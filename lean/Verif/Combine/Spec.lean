import Verif.Combine.Model

/-! What the printed graph is, without the functions of the model. -/

namespace Tup.Combine

/-- A graph: each node is listed once, and the edges are between listed nodes. -/
structure Proper (g : G) : Prop where
  once : g.nodes.Nodup
  ends : ∀ e ∈ g.edges, e.1 ∈ g.nodes ∧ e.2.1 ∈ g.nodes

/-- Edges lead from commands to other nodes and from other nodes to commands. -/
def Bipartite (i : Info) (g : G) : Prop := ∀ e ∈ g.edges, ¬ (i.kind e.1 = .cmd ∧ i.kind e.2.1 = .cmd)

/-- A node that only says how the project is laid out. -/
def Layout (i : Info) (x : Nat) : Prop :=
  i.kind x = .dir ∨ i.kind x = .generatedDir ∨
    (i.kind x = .file ∧ (i.name x = "Tupfile".toList ∨ i.name x = "Tupfile.lua".toList ∨ i.name x = "Tupdefault.lua".toList)) ∨
    (i.kind x = .generated ∧ i.name x = ".gitignore".toList)

/-- `a` stands for the nodes in `l` that have the same hash: it is the one with the smallest name. -/
structure Stands (i : Info) (h : Nat → Int) (l : List Nat) (a : Nat) : Prop where
  mem : a ∈ l
  least : ∀ y ∈ l, h y = h a → i.name a ≤ i.name y

/-- How many nodes in `l` have that hash. -/
def size (h : Nat → Int) (l : List Nat) (v : Int) : Nat := (l.filter fun y => h y = v).length

/-- What the text in quotes says: a backslash stands for the character behind it, and for a line break before an `n`.  The
text ends at the quote. -/
def unquote : Str → Option (Str × Str)
  | '"' :: rest => some ([], rest)
  | '\\' :: 'n' :: s => (unquote s).map fun r => ('\n' :: r.1, r.2)
  | '\\' :: c :: s => (unquote s).map fun r => (c :: r.1, r.2)
  | ['\\'] => none
  | c :: s => (unquote s).map fun r => (c :: r.1, r.2)
  | [] => none

/-- `b` comes of `a` when commands are combined: another command with the same hash, or the same file. -/
def Same (i : Info) (h : Nat → Int) (a b : Nat) : Prop :=
  (i.kind a = .cmd ∧ i.kind b = .cmd ∧ h a = h b) ∨ (i.kind a ≠ .cmd ∧ a = b)

/-- What decides which nodes are taken for equal: for a command a hash of it in the graph, for another node a hash of it in the
graph that is left when commands have been combined. -/
structure Hashes (i : Info) (cmdHash fileHash : G → Nat → Int) (g : G) (h : Nat → Int) : Prop where
  cmd : ∀ x, i.kind x = .cmd → h x = cmdHash g x
  file : ∀ x, i.kind x ≠ .cmd → h x = fileHash (combineNodes i true cmdHash ⟨g, []⟩).g x

/-- The text that names a node. -/
def title (i : Info) (x : Nat) : Str := match i.display x with | some d => d | none => i.name x

/-- The node a line is about. -/
def Line.about : Line → Option Nat
  | .node x _ _ _ => some x
  | _ => none

end Tup.Combine
