import Verif.VarStore.Model
import Verif.Db.Lemmas
import Verif.Config.Spec

/-! What it means for a configuration to be stored, and for its users to be scheduled. -/

namespace Tup.VarStore

open Db

/-- Variable `n` of configuration `d` has the stored value `v`. -/
def Value (db : Db) (d : Nat) (n v : Str) : Prop :=
  ∃ i nd, db.node i = some nd ∧ nd.dir = d ∧ nd.name = n ∧ db.vars i = some (some v)

/-- Node `i` stands for the variable `n` of configuration `d` (set or not). -/
def Names (db : Db) (d : Nat) (n : Str) (i : Nat) : Prop := ∃ nd, db.node i = some nd ∧ nd.dir = d ∧ nd.name = n

/-- `t` (a directory whose Tupfile was parsed, or a command that was run) used the variable `n`. -/
def Uses (db : Db) (d : Nat) (n : Str) (t : Nat) : Prop := ∃ i, Names db d n i ∧ db.normal i t = true

/-- The variable `n` has been added, removed, or given another value by a file that says `bs`. -/
def Changed (db : Db) (d : Nat) (bs : List (Str × Str)) (n : Str) : Prop :=
  ¬ ∀ v, Value db d n v ↔ Config.Last bs n v

/-- The next update parses directory `t`: it is on the list, or something that it depends on is (the update follows
the links from everything on the list). -/
def Parses (db : Db) (t : Nat) : Prop := db.create t = true ∨ ∃ i, db.create i = true ∧ db.normal i t = true

/-- The next update runs command `t`. -/
def Runs (db : Db) (t : Nat) : Prop := db.modify t = true ∨ ∃ i, db.modify i = true ∧ db.normal i t = true

/-- The state of a database in which `d` is a configuration: the directory holds variables (which have a value) and
ghosts (which have none), and nothing else. -/
structure Proper (db : Db) (d : Nat) : Prop where
  bounded : Bounded db
  unique : Unique db
  kinds : ∀ i nd, db.node i = some nd → nd.dir = d →
    (nd.kind = .var ∧ ∃ v, db.vars i = some (some v)) ∨ (nd.kind = .ghost ∧ db.vars i = none)

end Tup.VarStore
