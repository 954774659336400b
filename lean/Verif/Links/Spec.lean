import Verif.Links.Inputs
import Verif.Graph.Spec
import Verif.Db.Lemmas

/-! Vocabulary for the properties about links. -/

namespace Tup.Links

open Tup.Db

/-- The tables refer to existing ids only, and 0 is not one. -/
structure Sound (db : Db) : Prop where
  node : ∀ a n, db.node a = some n → 0 < a ∧ a < db.top
  normal : ∀ a b, db.normal a b = true → (db.node a).isSome ∧ (db.node b).isSome
  sticky : ∀ a b, db.sticky a b = true → (db.node a).isSome ∧ (db.node b).isSome

/-- Node `b` depends on node `a` directly: a command on a file it reads, a file on the command that writes it, a group
on its members. -/
def Feeds (db : Db) (a b : Nat) : Prop := db.normal a b = true

/-- No node depends on itself. -/
def Acyclic (db : Db) : Prop := ∀ n, ¬ Tup.Graph.Plus (Feeds db) n n

/-- A generated file that the command has read though neither the file nor anything made from it is a
declared input of the command. -/
structure Missing (db : Db) (cmd : Nat) (outputs read : List Nat) (a : Nat) : Prop where
  read : a ∈ read
  generated : db.isKind .generated a = true
  notOutput : a ∉ outputs
  undeclared : ∀ v, db.sticky v cmd = true → ¬ Tup.Graph.Star (Feeds db) a v

/-- A declared environment variable with a recorded dependency. -/
def EnvLink (db : Db) (env cmd a : Nat) : Prop :=
  db.normal a cmd = true ∧ db.sticky a cmd = true ∧ inDir db env a = true

/-- A dependency that was recorded before and is not there any more. -/
def Unused (db : Db) (env cmd : Nat) (read : List Nat) (a : Nat) : Prop :=
  db.normal a cmd = true ∧ ¬ EnvLink db env cmd a ∧ a ∉ read

/-- The list of read nodes is a set of existing nodes. -/
structure ReadSet (db : Db) (read : List Nat) : Prop where
  asc : Asc read
  node : ∀ a ∈ read, (db.node a).isSome

end Tup.Links
