import Verif.GraphCmd.Model

namespace Tup.GraphCmd

/-- A node that may be in the graph: ghosts only with `--ghosts`, environment variables only with `--env`. -/
def May (db : Db) (o : Opts) (x : Nat) : Prop :=
  (db.kind x = .ghost → o.ghosts = true) ∧ (x = db.env ∨ db.dir x = db.env → o.env = true)

/-- A directory. -/
def IsDir (db : Db) (x : Nat) : Prop := db.kind x = .dir ∨ db.kind x = .generatedDir

/-- `b` is made from `a`, or uses it: an arrow of the graph.  From group to group there are arrows too. -/
inductive Arrow (db : Db) (o : Opts) (a b : Nat) : Prop
  | link : b ∈ db.links a → May db o b → (IsDir db b → o.dirs = true) → Arrow db o a b
  | group : db.kind a = .group → b ∈ db.groupLinks a → Arrow db o a b

/-- What the graph shows for the given nodes: all that depends on them, and for a directory all that is in it (but not the variables in
tup.config). -/
inductive Shows (db : Db) (o : Opts) (from' : Nat → Prop) : Nat → Prop
  | given {x} : from' x → Shows db o from' x
  | arrow {a b} : Shows db o from' a → Arrow db o a b → Shows db o from' b
  | inside {d x} : Shows db o from' d → db.name d ≠ "tup.config".toList → x ∈ db.inDir d → May db o x → Shows db o from' x

/-- The nodes to begin with: those that are named, else those that the next update has to look at. -/
def From (db : Db) (o : Opts) (args : List Nat) (x : Nat) : Prop :=
  (args ≠ [] ∧ x ∈ args) ∨ (args = [] ∧ (x ∈ db.create ∨ x ∈ db.modify) ∧ May db o x ∧ (IsDir db x → o.dirs = true))

/-- A node that only says how the project is laid out. -/
def Layout (db : Db) (x : Nat) : Prop :=
  IsDir db x ∨
    (db.kind x = .file ∧ (db.name x = "Tupfile".toList ∨ db.name x = "Tupfile.lua".toList ∨ db.name x = "Tupdefault.lua".toList)) ∨
    (db.kind x = .generated ∧ db.name x = ".gitignore".toList)

/-- The options of the command line. -/
def flags : List Str := ["--dirs".toList, "--ghosts".toList, "--env".toList, "--combine".toList, "--stickies".toList]

/-- The ids in the database are positive, and there are only those of `U`. -/
structure Within (db : Db) (U : List Nat) : Prop where
  zero : 0 ∉ U
  links : ∀ {a b}, b ∈ db.links a → b ∈ U
  groups : ∀ {a b}, b ∈ db.groupLinks a → b ∈ U
  dirs : ∀ {a b}, b ∈ db.inDir a → b ∈ U
  create : ∀ {b}, b ∈ db.create → b ∈ U
  modify : ∀ {b}, b ∈ db.modify → b ∈ U

end Tup.GraphCmd
