import Verif.Scan.Model
import Verif.Db.Lemmas

/-! What lies in a directory, and what it means for the rest of the database to be left alone. -/

namespace Tup.Scan

open Db

/-- `j` is `i` or lies somewhere below it. -/
inductive Below (db : Db) (i : Nat) : Nat → Prop
  | refl : Below db i i
  | step {j n} : db.node j = some n → Below db i n.dir → Below db i j

/-- `j` is `i`, or lies below it in directories (a ghost can be a directory that does not exist; there is no file in
it).  `b` says whether one of these directories has been made by the user, not by tup. -/
inductive Inside (db : Db) (i : Nat) : Bool → Nat → Prop
  | refl : Inside db i false i
  | dir {b j n d} : db.node j = some n → Inside db i b n.dir → db.node n.dir = some d → d.kind = .dir →
      d.name ≠ "tup.config".toList → Inside db i true j
  | generated {b j n d} : db.node j = some n → Inside db i b n.dir → db.node n.dir = some d → d.kind = .generatedDir →
      d.name ≠ "tup.config".toList → Inside db i b j

/-- The directories form a forest. -/
def Ranked (h : Nat → Nat) (db : Db) : Prop := ∀ i n, db.node i = some n → h n.dir < h i

/-- Every node lies in a node, except for the top directories (the parent of "." is 0). -/
def Rooted (db : Db) : Prop := ∀ i n, db.node i = some n → n.dir = 0 ∨ (db.node n.dir).isSome

/-- Nothing outside `B` has been touched, except that more can be scheduled; inside nodes may be gone or have become
ghosts. -/
structure Eff (B : Nat → Prop) (db db' : Db) : Prop where
  top : db'.top = db.top
  outside : ∀ j, ¬ B j → db'.node j = db.node j
  sub : ∀ j n', db'.node j = some n' → ∃ n, db.node j = some n ∧ n'.dir = n.dir ∧ n'.name = n.name ∧
    (n'.kind = n.kind ∧ n'.src = n.src ∨ n'.kind = .ghost)
  create : ∀ j, ¬ B j → db.create j = true → db'.create j = true
  modify : ∀ j, ¬ B j → db.modify j = true → db'.modify j = true
  config : ∀ j, ¬ B j → db.config j = true → db'.config j = true
  normal : ∀ a b, ¬ B a → ¬ B b → db.normal a b = true → db'.normal a b = true
  normal' : ∀ a b, db'.normal a b = true → db.normal a b = true
  rooted : Bounded db → Rooted db → Rooted db'

/-- The entry is gone, or only a ghost is left of it. -/
def Gone (db : Db) (i : Nat) : Prop := ∀ n, db.node i = some n → n.kind = .ghost

/-- The commands and groups outside `B` that read `f` are scheduled to run. -/
def ReadersRun (B : Nat → Prop) (db db' : Db) (f : Nat) : Prop :=
  ∀ j, ¬ B j → db.normal f j = true → (db.isKind .cmd j = true ∨ db.isKind .group j = true) → db'.modify j = true

/-- The directories outside `B` whose Tupfiles read `f` are scheduled to be parsed, and the configurations that do are
scheduled to be read. -/
def ReadersParsed (B : Nat → Prop) (db db' : Db) (f : Nat) : Prop :=
  (∀ j, ¬ B j → db.normal f j = true → db.isKind .dir j = true → db'.create j = true) ∧
  ∀ j, ¬ B j → db.normal f j = true → db.isKind .file j = true → db'.config j = true

/-- The commands outside `B` that produce `f` are scheduled to run. -/
def ProducersRun (B : Nat → Prop) (db db' : Db) (f : Nat) : Prop :=
  ∀ j, ¬ B j → db.normal j f = true → db'.modify j = true

/-- The directory outside `B` whose Tupfile makes `f` is scheduled to be parsed. -/
def SourceParsed (B : Nat → Prop) (db db' : Db) (n : Node) : Prop :=
  ∀ s, n.src = some s → ¬ B s → db.isKind .dir s = true → db'.create s = true

/-- What has to happen for a node `f` (with the row `n`) that is gone, because `i`, in which it lies, is gone. `hard`
says that tup does not make it again by running the same commands. -/
structure Claim (B : Nat → Prop) (db db' : Db) (i f : Nat) (n : Node) (hard : Bool) : Prop where
  gone : (n.kind ≠ .group ∧ n.kind ≠ .generated ∧ n.kind ≠ .generatedDir) ∨ (n.kind ≠ .group ∧ hard = true) → Gone db' f
  runs : n.kind = .file ∨ (n.kind = .generated ∧ hard = true) → ReadersRun B db db' f
  parses : n.kind = .file ∨ n.kind = .dir → ReadersParsed B db db' f
  parent : n.kind = .dir → ¬ B n.dir → db.isKind .dir n.dir = true → db'.create n.dir = true
  source : n.kind = .generated → hard = true → f ≠ i → SourceParsed B db db' n
  again : n.kind = .generated → hard = false → n.name ≠ ".gitignore".toList → ProducersRun B db db' f
  kept : n.kind = .group ∨ (hard = false ∧ (n.kind = .generated ∨ n.kind = .generatedDir)) → db'.node f = some n

end Tup.Scan
