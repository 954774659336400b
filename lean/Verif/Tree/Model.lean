import Verif.Basic

/-!
Model of the search trees of src/bsd/tree.h, as they are used for sets of node ids (src/tup/tupid_tree.c,
src/tup/tent_tree.c), sets of strings (src/tup/string_tree.c) and the variable store (src/tup/vardb.c).

The red-black trees of tree.h are binary search trees that are rotated after an insertion or a removal.  When
they are rotated is decided by the colours of the nodes, which is not modelled; instead every operation may be
followed by any rotations at all (`Rot`), so that what is proved holds for every colouring policy.
-/

namespace Tup.Tree

/-- A tree; the C structs have pointers to the left child, the right child and the parent
(src/bsd/tree.h:315-321). -/
inductive T (α : Type) where
  | nil
  | node (l : T α) (x : α) (r : T α)
deriving DecidableEq, Repr

variable {α : Type}

/-- The nodes in the order of `RB_MIN` and `RB_NEXT`, src/bsd/tree.h:669-689 and 713-726. -/
def T.toList : T α → List α
  | .nil => []
  | .node l x r => l.toList ++ x :: r.toList

/-- `RB_FIND`, src/bsd/tree.h:630-646; `cmp x` is the comparison of the key that is looked for with node `x`. -/
def find (cmp : α → Int) : T α → Option α
  | .nil => none
  | .node l x r => if cmp x < 0 then find cmp l else if cmp x > 0 then find cmp r else some x

/-- `RB_INSERT`, src/bsd/tree.h:599-628, without the rotations of `RB_INSERT_COLOR`; `none`: a node that
compares equal is already there and nothing is inserted. -/
def insert (cmp : α → Int) (e : α) : T α → Option (T α)
  | .nil => some (.node .nil e .nil)
  | .node l x r =>
    if cmp x < 0 then (insert cmp e l).map fun l => .node l x r
    else if cmp x > 0 then (insert cmp e r).map fun r => .node l x r
    else none

/-- The leftmost node of a non-empty tree, and the tree without it (its right child takes its place),
src/bsd/tree.h:542-558. -/
def popMin : T α → α → T α → α × T α
  | .nil, x, r => (x, r)
  | .node ll lx lr, x, r =>
    let (m, l) := popMin ll lx lr
    (m, .node l x r)

/-- `RB_REMOVE` of the root of a subtree, src/bsd/tree.h:531-598, without the rotations of
`RB_REMOVE_COLOR`. -/
def removeRoot : T α → T α → T α
  | .nil, r => r
  | l, .nil => l
  | l, .node rl rx rr =>
    let (m, r) := popMin rl rx rr
    .node l m r

/-- `RB_REMOVE` of the node that `RB_FIND` finds; unchanged if there is none. -/
def remove (cmp : α → Int) : T α → T α
  | .nil => .nil
  | .node l x r =>
    if cmp x < 0 then .node (remove cmp l) x r
    else if cmp x > 0 then .node l x (remove cmp r)
    else removeRoot l r

/-- Overwriting the payload of the node that `RB_FIND` finds (the C code changes it through the pointer). -/
def update (cmp : α → Int) (f : α → α) : T α → T α
  | .nil => .nil
  | .node l x r =>
    if cmp x < 0 then .node (update cmp f l) x r
    else if cmp x > 0 then .node l x (update cmp f r)
    else .node l (f x) r

/-- Any sequence of rotations anywhere in the tree, `RB_ROTATE_LEFT` and `RB_ROTATE_RIGHT`,
src/bsd/tree.h:345-384. -/
inductive Rot : T α → T α → Prop
  | refl (t) : Rot t t
  | trans {a b c} : Rot a b → Rot b c → Rot a c
  | left (a x b y c) : Rot (.node a x (.node b y c)) (.node (.node a x b) y c)
  | right (a x b y c) : Rot (.node (.node a x b) y c) (.node a x (.node b y c))
  | inl {l l' x r} : Rot l l' → Rot (.node l x r) (.node l' x r)
  | inr {l x r r'} : Rot r r' → Rot (.node l x r) (.node l x r')

/-- The value of a C `int` that a 64-bit number is converted to (two's complement, as on all supported
platforms). -/
def toInt32 (n : Int) : Int := (n + 2147483648) % 4294967296 - 2147483648

/-- `tupid_tree_cmp` and `tent_tree_cmp`, src/tup/tupid_tree.c:26-29, src/tup/tent_tree.c:27-30: the 64-bit
difference is returned as an `int`. -/
def idCmp (a b : Int) : Int := toInt32 (a - b)

/-- `strcmp` on byte strings without NUL bytes; only the sign of the result matters. -/
def strcmp : Str → Str → Int
  | [], [] => 0
  | [], _ :: _ => -1
  | _ :: _, [] => 1
  | a :: s, b :: t => if a.toNat < b.toNat then -1 else if a.toNat > b.toNat then 1 else strcmp s t

/-! ### Sets of ids -/

/-- What can be done with a set of ids. -/
inductive IdOp where
  /-- `tupid_tree_add`, `tent_tree_add`: fails if the id is there -/
  | add (id : Int)
  /-- `tupid_tree_add_dup`, `tent_tree_add_dup` -/
  | addDup (id : Int)
  /-- `tupid_tree_remove`, `tent_tree_remove` -/
  | remove (id : Int)
  /-- `tupid_tree_search`, `tent_tree_search` -/
  | search (id : Int)
deriving DecidableEq, Repr

def IdOp.id : IdOp → Int
  | .add i | .addDup i | .remove i | .search i => i

/-- A set of ids with the counter of `struct tent_entries` (src/tup/tent_tree.h). -/
structure IdSet where
  root : T Int
  count : Int
deriving DecidableEq, Repr

/-- One operation, before the rotations: the answer and the new tree.  src/tup/tupid_tree.c:33-98,
src/tup/tent_tree.c:40-116.  Simplified: memory allocation succeeds; the reference counts that `tent_tree`
keeps are left out. -/
def idStep (s : IdSet) : IdOp → Bool × IdSet
  | .add i =>
    match insert (idCmp i) i s.root with
    | some t => (true, ⟨t, s.count + 1⟩)
    | none => (false, s)
  | .addDup i =>
    match insert (idCmp i) i s.root with
    | some t => (true, ⟨t, s.count + 1⟩)
    | none => (true, s)
  | .remove i =>
    match find (idCmp i) s.root with
    | some _ => (true, ⟨Tree.remove (idCmp i) s.root, s.count - 1⟩)
    | none => (true, s)
  | .search i => ((find (idCmp i) s.root).isSome, s)

/-- A history: operations with their answers, each followed by rotations. -/
inductive IdRun : IdSet → List (IdOp × Bool) → IdSet → Prop
  | nil (s) : IdRun s [] s
  | cons {s op b t root l u} : idStep s op = (b, t) → Rot t.root root → IdRun ⟨root, t.count⟩ l u →
      IdRun s ((op, b) :: l) u

/-! ### Variable stores -/

/-- `struct var_entry`, src/tup/vardb.h:38-43, without `tent`; `vallen` is the length of the value. -/
structure Var where
  name : Str
  value : Option Str
deriving DecidableEq, Repr

/-- `struct vardb`, src/tup/vardb.h:33-36. -/
structure Vardb where
  root : T Var
  count : Int
deriving DecidableEq, Repr

/-- The comparison of a name with a node: `string_tree_cmp`, src/tup/string_tree.c:27-30, with `name_cmp`
being `strcmp` (src/tup/compat.h:48). -/
def varCmp (name : Str) (v : Var) : Int := strcmp name v.name

inductive VarOp where
  | set (name : Str) (value : Option Str)
  | append (name value : Str)
  | copy (name : Str)
  | get (name : Str)
deriving DecidableEq, Repr

/-- `vardb_set2`, src/tup/vardb.c:58-129.  Memory allocation succeeds. -/
def Vardb.set (v : Vardb) (name : Str) (value : Option Str) : Vardb :=
  match find (varCmp name) v.root with
  | some _ => { v with root := update (varCmp name) (fun e => { e with value := value }) v.root }
  | none =>
    match insert (varCmp name) ⟨name, value⟩ v.root with
    | some t => ⟨t, v.count + 1⟩
    | none => v

/-- `vardb_append`, src/tup/vardb.c:131-157; an entry without a value counts as one with an empty value. -/
def Vardb.append (v : Vardb) (name value : Str) : Vardb :=
  match find (varCmp name) v.root with
  | some _ =>
    ⟨update (varCmp name) (fun e => { e with value := some (e.value.getD [] ++ ' ' :: value) }) v.root, v.count⟩
  | none => v.set name (some value)

/-- What an operation answers: `vardb_copy` (159-172) the bytes it appends, `vardb_get` (174-184) the entry's
value if there is an entry, the others nothing. -/
inductive VarAns where
  | unit
  | bytes (s : Str)
  | entry (e : Option (Option Str))
deriving DecidableEq, Repr

def varStep (v : Vardb) : VarOp → VarAns × Vardb
  | .set n x => (.unit, v.set n x)
  | .append n x => (.unit, v.append n x)
  | .copy n =>
    match find (varCmp n) v.root with
    | some e => (.bytes (e.value.getD []), v)
    | none => (.bytes [], v)
  | .get n => (.entry ((find (varCmp n) v.root).map Var.value), v)

inductive VarRun : Vardb → List (VarOp × VarAns) → Vardb → Prop
  | nil (s) : VarRun s [] s
  | cons {s op b t root l u} : varStep s op = (b, t) → Rot t.root root → VarRun ⟨root, t.count⟩ l u →
      VarRun s ((op, b) :: l) u

/-! ### Walking two trees at once -/

/-- What the callbacks are called with. -/
inductive Diff (α : Type) where
  | onlyA (x : α)
  | onlyB (y : α)
  | both (x y : α)
deriving DecidableEq, Repr

/-- The calls that `vardb_compare` (src/tup/vardb.c:186-236) and `compare_tent_trees` (src/tup/db.c:5747-5784)
make while they walk two trees in order.  Simplified: no callback fails (a failing callback ends the walk).
`compare_tent_trees` makes no call for elements that are in both. -/
def walk (cmp : α → α → Int) : List α → List α → List (Diff α)
  | [], [] => []
  | [], y :: b => .onlyB y :: walk cmp [] b
  | x :: a, [] => .onlyA x :: walk cmp a []
  | x :: a, y :: b =>
    if cmp x y = 0 then .both x y :: walk cmp a b
    else if cmp x y < 0 then .onlyA x :: walk cmp a (y :: b)
    else .onlyB y :: walk cmp (x :: a) b
termination_by a b => a.length + b.length

end Tup.Tree
