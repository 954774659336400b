import Verif.Lookup.Model
import Verif.Db.Lemmas

/-!
Which files an input of a rule stands for, without the functions of the model: only the rows of the table of nodes are
used.
-/

namespace Tup.Lookup

open Tup.Db Tup.Names

/-- Node `i` is called `name` and lies in directory `d`. -/
def At (db : Db) (d : Nat) (name : Str) (i : Nat) : Prop := ∃ n, db.node i = some n ∧ n.dir = d ∧ n.name = name

/-- A variant is built and `d` is the image of directory `s` of the source tree. -/
def Image (cx : Cx) (db : Db) (d s : Nat) : Prop := cx.root = false ∧ ∃ n, db.node d = some n ∧ n.src = some s

/-- The node was put there by a rule of a Tupfile that is neither the one being read nor that of its own directory. -/
def Foreign (cx : Cx) (db : Db) (i : Nat) : Prop :=
  ∃ n s, db.node i = some n ∧ n.src = some s ∧ s ≠ cx.me ∧ s ≠ n.dir

def IsGhost (db : Db) (i : Nat) : Prop := ∃ n, db.node i = some n ∧ n.kind = .ghost

/-- What a pattern stands for. -/
def Matches (cx : Cx) (db : Db) (d : Nat) (pat : Str) (i : Nat) : Prop :=
  ∃ n, db.node i = some n ∧ (n.dir = d ∨ Image cx db d n.dir) ∧ (n.kind = .file ∨ n.kind = .generated) ∧
    cx.glob pat n.name = true ∧ cx.gone i = false ∧ ¬ Foreign cx db i

/-- A pattern contains `*`, `?` or `[`. -/
def Pattern (pat : Str) : Prop := '*' ∈ pat ∨ '?' ∈ pat ∨ '[' ∈ pat

/-- `db'` is `db` with one more row. -/
def Adds (db db' : Db) (i : Nat) (n : Node) : Prop :=
  db.node i = none ∧ db'.node i = some n ∧ ∀ j, j ≠ i → db'.node j = db.node j

/-- The rule is a `!tup_preserve` rule in a variant: its inputs are only looked up in the source tree. -/
def OnlySource (cx : Cx) (copy : Bool) : Prop := copy = true ∧ cx.root = false

/-- The node that a name is found to be, before it is known whether it can be used. -/
inductive Found (cx : Cx) (db : Db) (d : Nat) (name : Str) (copy : Bool) : Db → Nat → Prop
  /-- a node of the directory; a ghost only if there is no source directory to look into -/
  | own {i} : ¬ OnlySource cx copy → At db d name i → (IsGhost db i → ∀ s, ¬ Image cx db d s) →
      Found cx db d name copy db i
  /-- a node of the source directory if there is none (or a ghost) in the directory -/
  | source {s i} : Image cx db d s → At db s name i →
      ((∀ j, ¬ At db d name j) ∧ name.head? ≠ some '<' ∨ (OnlySource cx copy ∧ name.head? ≠ some '<') ∨
        (¬ OnlySource cx copy ∧ ∃ j, At db d name j ∧ IsGhost db j)) →
      Found cx db d name copy db i
  /-- groups are never looked up in the source directory -/
  | group {i n} : OnlySource cx copy → name.head? = some '<' → At db d name i → db.node i = some n → n.kind = .group →
      Found cx db d name copy db i
  /-- the first use of a group makes it -/
  | newGroup {db' i} : name.head? = some '<' → (∀ j, ¬ At db d name j) →
      Adds db db' i { dir := d, kind := .group, name } → db' = (db.insertNode { dir := d, kind := .group, name }).1 →
      Found cx db d name copy db' i
  /-- something else was called like the group -/
  | converted {db' j i n} : OnlySource cx copy → name.head? = some '<' → At db d name j → db.node j = some n →
      n.kind ≠ .group → cx.convert db j = some (db', i) → Found cx db d name copy db' i
  /-- with dependencies on files outside of the project: the file was never used before -/
  | outside {db' i t} : cx.fullDeps = true → name.head? ≠ some '<' → (∀ j, ¬ At db d name j) →
      (∀ s, Image cx db d s → ∀ j, ¬ At db s name j) → cx.lstat = some t →
      Adds db db' i { dir := d, kind := .ghost, name, mtime := t } →
      db' = (db.insertNode { dir := d, kind := .ghost, name, mtime := t }).1 → Found cx db d name copy db' i

/-- The node that a name finally stands for. -/
def Stands (cx : Cx) (db : Db) (d : Nat) (name : Str) (copy : Bool) (db' : Db) (j : Nat) : Prop :=
  ∃ i n, Found cx db d name copy db' i ∧ db'.node i = some n ∧ (n.kind = .ghost → n.mtime.1 ≠ -1) ∧
    (cx.gone i = false ∧ j = i ∨
      cx.gone i = true ∧ ∃ s, Image cx db d s ∧ At db' s name j ∧ ¬ IsGhost db' j) ∧ ¬ Foreign cx db' j

/-- What is assumed about making a group of another node: afterwards it is a group with that name, and the table is
still one with unique names. -/
def Converts (cx : Cx) : Prop :=
  ∀ db i n db' j, Bounded db → Unique db → db.node i = some n → cx.convert db i = some (db', j) →
    Bounded db' ∧ Unique db' ∧ ∃ m, db'.node j = some m ∧ m.kind = .group ∧ m.dir = n.dir ∧ m.name = n.name

/-- The entry in the list of inputs says which node it is, what the path to it is, and which of the paths of the rule
it comes from. -/
def Describes (cx : Cx) (db : Db) (orderid : Nat) (e : Entry) (i : Nat) : Prop :=
  e.tent = some i ∧ cx.rel db i = some e.path ∧ e.orderid = orderid

end Tup.Lookup
