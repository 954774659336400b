import Verif.Variants.Model

/-! The variants that should be in use, and the histories. -/

namespace Tup.Variants

/-- If there is a `tup.config` in a directory other than the top, the variants in use are all directories with one, except for the top; otherwise the only one is the top,
with or without that file. -/
def Wanted (file : Nat → Bool) (d : Nat) : Prop := (d ≠ dot ∧ file d = true) ∨ (d = dot ∧ ∀ b, b ≠ dot → file b = false)

/-- The events of an update are those of a project in which variants are only removed if they are directly in the top directory, and in which a directory of a variant that was
removed and made again has its tup.config again. -/
structure Careful (db after : Db) (evs : List Event) : Prop where
  nested : ∀ d ∈ db.var, db.nested d = true → after.file d = true
  again : ∀ d ∈ db.var, .mkdir d ∈ evs → after.file d = true

/-- A new project. -/
structure Initial (db : Db) : Prop where
  dot : db.dir dot = true
  file : ∀ d, db.file d = true → d ∈ db.flag
  dir : ∀ d, db.file d = true → db.dir d = true
  var : db.var = []

/-- What can happen to the tables, if the user is careful.  An update that fails leaves what its scan has found. -/
inductive Reach : Db → Prop where
  | init {db : Db} : Initial db → Reach db
  | scan {db : Db} (ord : List Nat → List Nat) (evs : List Event) : Reach db → (∀ l, (ord l).Perm l) → Reach (scan evs (db, load ord db)).1
  | update {db : Db} {ord ord' : List Nat → List Nat} {ok : Nat → Bool} {evs : List Event} {r : Result} : Reach db → (∀ l, (ord l).Perm l) → (∀ l, (ord' l).Perm l) →
      Careful db (Variants.scan evs (db, load ord db)).1 evs → Variants.update ord ord' ok evs db = some r → Reach r.db

/-- The variant is in use: it is in the list and enabled. -/
def Active (r : Result) (d : Nat) : Prop := (d, true) ∈ r.loaded

end Tup.Variants
