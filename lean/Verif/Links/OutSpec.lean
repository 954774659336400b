import Verif.Links.Outputs
import Verif.Links.Spec

/-! Vocabulary for the property about outputs. -/

namespace Tup.Links

open Tup.Db

/-- A written file counts unless it is hidden or matches an exclusion. -/
def Counts (w : Written) : Prop := w.hidden = false ∧ w.excluded = false

/-- The command has written the file of node `i`. -/
def Wrote (db : Db) (written : List Written) (i : Nat) : Prop := ∃ w ∈ written, Counts w ∧ nodeOf db w = some i

/-- The command has written a file that nobody knows. -/
def Stray (db : Db) (written : List Written) (w : Written) : Prop := w ∈ written ∧ Counts w ∧ nodeOf db w = none

/-- What is known about a written file depends on its path, and different paths are different files. -/
structure Paths (written : List Written) : Prop where
  same : ∀ w ∈ written, ∀ w' ∈ written, w.path = w'.path → w = w'
  other : ∀ w ∈ written, ∀ w' ∈ written, w.dir.isSome → w.dir = w'.dir → w.name = w'.name → w = w'

/-- The files that match exclusions are plain files or not known yet. -/
def Excludable (db : Db) (written : List Written) : Prop :=
  ∀ w ∈ written, w.excluded = true → w.hidden = false → ∀ d, w.dir = some d → ∀ i n, db.select d w.name = some i →
    db.node i = some n → n.kind = .ghost ∨ (w.outside = false ∧ n.kind = .file)

/-- The temporary files: one for each name, not assigned to nodes yet. -/
structure Mapped (maps : List Map) : Prop where
  names : (maps.map (·.real)).Nodup
  fresh : ∀ m ∈ maps, m.node = none

end Tup.Links
