import Verif.DirInputs.Model
import Verif.Lookup.Spec
import Verif.Links.Spec

/-! What a directory depends on, without the functions of the model. -/

namespace Tup.DirInputs

open Tup.Db Tup.Links Tup.Lookup

/-- The names lead from node `d` to node `a`. -/
inductive Leads (db : Db) : Nat → List Str → Nat → Prop where
  | here (d : Nat) : Leads db d [] d
  | down {d i a : Nat} {name : Str} {path : List Str} : At db d name i → Leads db i path a → Leads db d (name :: path) a

/-- Something that a directory can depend on: not a directory, and no time of 0 seconds. -/
def Tracked (db : Db) (a : Nat) : Prop :=
  ∃ n, db.node a = some n ∧ n.kind ≠ .dir ∧ n.kind ≠ .generatedDir ∧ n.mtime.1 ≠ 0 ∧ n.name ≠ ".gitignore".toList

/-- The tables of a project, as far as they matter here: they refer to existing ids, names are unique in a directory. -/
structure Good (db : Db) : Prop where
  sound : Sound db
  unique : Unique db

/-- `db'` has the rows of `db`, and besides only ghosts for names that had no row. -/
structure OnlyGhosts (db db' : Db) : Prop where
  kept : ∀ i n, db.node i = some n → db'.node i = some n
  new : ∀ i n, db'.node i = some n → db.node i = none →
    n.kind = .ghost ∧ n.mtime = (-1, 0) ∧ ∀ j, ¬ At db n.dir n.name j

/-- Node `a` is one of the files that were read or looked for, or one of the variables. -/
def Used (db : Db) (vardt : Nat) (reads vars : List (List Str)) (a : Nat) : Prop :=
  (∃ p ∈ reads, p ≠ [] ∧ Leads db 1 p a) ∨ ∃ p ∈ vars, p ≠ [] ∧ Leads db vardt p a

/-- Row `i` is on the way of one of the paths from `d`. -/
def OnWay (db : Db) (d : Nat) (paths : List (List Str)) (i : Nat) : Prop :=
  ∃ p ∈ paths, ∃ q r, p = q ++ r ∧ q ≠ [] ∧ Leads db d q i

/-- `db1` is `db` with a ghost for each name that was looked for and has no row: each path leads somewhere now, the
new rows are ghosts on the way of these paths, and nothing but rows has changed. -/
structure Made (db : Db) (vardt : Nat) (reads vars : List (List Str)) (db1 : Db) : Prop where
  ghosts : OnlyGhosts db db1
  read : ∀ p ∈ reads, ∃ a, Leads db1 1 p a
  var : ∀ p ∈ vars, ∃ a, Leads db1 vardt p a
  way : ∀ i, (db1.node i).isSome → db.node i = none → OnWay db1 1 reads i ∨ OnWay db1 vardt vars i

/-- What the directory is to depend on: what the parser says itself, and what was used and can be tracked. -/
def Input (db1 : Db) (vardt : Nat) (root : List Nat) (reads vars : List (List Str)) (a : Nat) : Prop :=
  a ∈ root ∨ (Used db1 vardt reads vars a ∧ Tracked db1 a)

/-- Each node but those at the top lies in a directory that has a row. -/
def Rooted (db : Db) : Prop := ∀ i n, db.node i = some n → n.dir = 0 ∨ (db.node n.dir).isSome

end Tup.DirInputs
