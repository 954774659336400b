import Verif.GenDir.Model
import Verif.Scan.Spec
import Verif.Ghosts.Spec

/-! What is said about directories that are there only for outputs, in terms of the tree of nodes. -/

namespace Tup.GenDir

open Tup.Db Tup.Scan

/-- The directories form a tree with the top directory, 1, as its root. -/
structure Tree (r : Nat → Nat) (db : Db) : Prop where
  bounded : Bounded db
  ranked : Ranked r db
  rooted : Rooted db
  zero : db.node 0 = none
  one : ∀ j n, db.node j = some n → n.dir = 0 → j = 1

/-- Node `c` is in directory `d`. -/
def Child (db : Db) (d c : Nat) (m : Node) : Prop := db.node c = some m ∧ m.dir = d

/-- `x` is `d`, or a directory of the user in `d`, at any depth. -/
inductive Within (db : Db) (d : Nat) : Nat → Prop
  | self : Within db d d
  | sub {x c m} : Within db d x → Child db x c m → m.kind = .dir → Within db d c

/-- In directory `x` there is something that its own Tupfile does not make: a file of a rule of another Tupfile, or a directory. -/
def Foreign (db : Db) (x : Nat) : Prop :=
  ∃ c m, Child db x c m ∧ m.src ≠ some x ∧ (m.kind = .generated ∨ m.kind = .generatedDir ∨ m.kind = .dir)

/-- `d` is a directory of the user that is there only for outputs: neither it nor any directory of the user in it has a file of the user, each of them has something foreign, and the innermost ones have
just been parsed. -/
structure OnlyOutputs (db : Db) (parsed : Nat → Bool) (d : Nat) : Prop where
  dir : db.isKind .dir d = true
  noFile : ∀ x, Within db d x → ∀ c m, Child db x c m → m.kind ≠ .file
  foreign : ∀ x, Within db d x → Foreign db x
  innermost : ∀ x, Within db d x → parsed x = true ∨ ∃ c m, Child db x c m ∧ m.kind = .dir

/-- What belongs to the user lies in directories of the user, and the directories for outputs lie in directories. -/
structure Clean (db : Db) : Prop where
  user : ∀ d c m n, Child db d c m → m.kind = .file ∨ m.kind = .dir → db.node d = some n → n.kind = .dir
  gen : ∀ d c m n, Child db d c m → m.kind = .generatedDir → db.node d = some n → n.kind = .dir ∨ n.kind = .generatedDir

/-- A directory, of the user or generated. -/
def AnyDir (db : Db) (d : Nat) : Prop := db.isKind .dir d = true ∨ db.isKind .generatedDir d = true

/-- `a` is the directory of `i`, or above it. -/
inductive Above (db : Db) (a : Nat) : Nat → Prop
  | here {i n} : db.node i = some n → n.dir = a → Above db a i
  | up {i n} : db.node i = some n → Above db a n.dir → Above db a i

/-- Going up `k` directories from `d` leads to `e`. -/
inductive Up (db : Db) : Nat → Nat → Nat → Prop
  | zero {d} : Up db 0 d d
  | succ {k d n e} : db.node d = some n → (db.node n.dir).isSome = true → Up db k n.dir e → Up db (k + 1) d e

/-- The names lead from `d` to `e`, through directories. -/
inductive Down (db : Db) : Nat → List Str → Nat → Prop
  | nil {d} : Down db d [] d
  | cons {d a l c m e} : Child db d c m → m.name = a → m.kind = .dir ∨ m.kind = .generatedDir → Down db c l e → Down db d (a :: l) e

/-- On the way from `d` along the names there is something that cannot be a directory. -/
inductive Blocked (db : Db) : Nat → List Str → Prop
  | here {d a l c m} : Child db d c m → m.name = a → m.kind ≠ .dir → m.kind ≠ .generatedDir → m.kind ≠ .ghost → Blocked db d (a :: l)
  | deeper {d a l c m} : Child db d c m → m.name = a → Blocked db c l → Blocked db d (a :: l)

/-- The directories on the way from the top to `i` are on the disk, or will be made when they are needed; `k` is their number. -/
inductive Path (db : Db) (disk : Disk) : Nat → Nat → Prop
  | top {n} : db.node 1 = some n → Path db disk 0 1
  | step {k i n} : i ≠ 1 → db.node i = some n → disk.place i = some n.dir ∨ n.kind = .generatedDir → Path db disk k n.dir → Path db disk (k + 1) i

/-- The disk is as the database says: what is there is recorded at its place, as something that can be there; the directories above a generated directory are there or generated (and there are less than `fuel` of them). -/
structure InStep (fuel : Nat) (db : Db) (disk : Disk) : Prop where
  known : ∀ j p, disk.place j = some p → ∃ n, db.node j = some n ∧ n.dir = p ∧ n.kind ≠ .ghost ∧ n.kind ≠ .group
  way : ∀ i n, db.node i = some n → n.kind = .generatedDir → i ≠ 1 ∧ ∃ k, k < fuel ∧ Path db disk k i

end Tup.GenDir
