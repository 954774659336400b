import Verif.Ghosts.Model
import Verif.Db.Lemmas

/-! Which entries are needed. -/

namespace Tup.Ghosts

open Db

/-- Node `j` is the reason to keep entry `i`: it is in the directory, comes from the directory, or uses it; a group is
also kept by its members and by the commands that are declared to use it, and an exclusion is kept by the commands
that have it among their outputs. -/
inductive Needs (ex : Nat) (db : Db) (j i : Nat) : Prop
  | inDir {n m} : db.node i = some n → n.dir ≠ ex → n.kind ≠ .group → db.node j = some m → m.dir = i → Needs ex db j i
  | fromDir {n m} : db.node i = some n → n.dir ≠ ex → n.kind ≠ .group → db.node j = some m → m.src = some i → Needs ex db j i
  | uses {n} : db.node i = some n → n.dir ≠ ex → db.normal i j = true → Needs ex db j i
  | member {n} : db.node i = some n → n.dir ≠ ex → n.kind = .group → db.normal j i = true → Needs ex db j i
  | declares {n} : db.node i = some n → n.dir ≠ ex → n.kind = .group → db.sticky i j = true → Needs ex db j i
  | excludes {n} : db.node i = some n → n.dir = ex → db.normal j i = true → Needs ex db j i

/-- An entry that stands for something that is not there: a missing file, a group, or a directory that tup made. -/
def Placeholder (db : Db) (i : Nat) : Prop :=
  ∃ n, db.node i = some n ∧ (n.kind = .ghost ∨ n.kind = .group ∨ n.kind = .generatedDir) ∧ n.name ≠ "tup.config".toList

/-- An entry that can go: a placeholder that only entries that can go are a reason to keep. -/
inductive Dead (ex : Nat) (db : Db) : Nat → Prop
  | mk {i} : Placeholder db i → (∀ j, Needs ex db j i → Dead ex db j) → Dead ex db i

/-- A consistent database: links are between nodes, and declared links do not end at placeholders; groups and
exclusions are not directories; what is on the list is a placeholder (or a `tup.config` that is missing). -/
structure Sound (ex : Nat) (db : Db) : Prop where
  bounded : Bounded db
  normal : ∀ a b, db.normal a b = true → (db.node a).isSome = true ∧ (db.node b).isSome = true
  sticky : ∀ a b, db.sticky a b = true → (db.node a).isSome = true ∧ (db.node b).isSome = true ∧ db.ghosty b = false
  leaf : ∀ i n, db.node i = some n → (n.kind = .group ∨ n.dir = ex) →
    ∀ j m, db.node j = some m → m.dir ≠ i ∧ m.src ≠ some i
  exclusion : ∀ i n, db.node i = some n → n.dir = ex → n.kind ≠ .group
  listed : ∀ i, db.ghosts i = true → db.ghosty i = true

/-- Every placeholder that nothing needs is on the list. -/
def Covered (ex : Nat) (db : Db) : Prop :=
  ∀ i, Placeholder db i → (∀ j, ¬ Needs ex db j i) → db.ghosts i = true

end Tup.Ghosts
