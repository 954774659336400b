import Verif.Mirror.Model

/-! What C73 says, apart from the functions of the model. -/

namespace Tup.Mirror

/-- A directory of the sources: in no build directory. -/
def Source (s : St) (p : Path) : Prop := ∀ t ∈ s.tops, ¬ t <+: p

/-- Every build directory holds one directory for each directory of the sources, with the same path below it, and no other directory that stands for one. -/
def Mirrors (s : St) : Prop :=
  ∀ t ∈ s.tops, ∀ p i,
    (∃ r ∈ s.rows, r.path = t ++ p ∧ r.src = .of i) ↔ (∃ q ∈ s.rows, q.path = p ∧ q.id = i ∧ Source s p)

/-- There is no directory at the place of `p` in a build directory. -/
def Free (s : St) (p : Path) : Prop := ∀ t ∈ s.tops, ∀ r ∈ s.rows, r.path ≠ t ++ p

/-- What can happen between updates, and updates, from the empty project: a scan finds directories and misses directories, in the sources and in the build directories; directories are to be
parsed again for other reasons; build directories right below the top come and go.  When a directory of the sources comes up, there is no directory at its place in a build directory. -/
inductive Hist : St → Prop
  | init : Hist init
  | mkdir {s p id s'} : Hist s → (Source s p → Free s p) → mkdir s p id true = some s' → Hist s'
  | rmdir {s p s'} : Hist s → rmdir s p = some s' → Hist s'
  | touch {s i s'} : Hist s → touch s i = some s' → Hist s'
  | newVariant {s n s'} : Hist s → newVariant s [n] = some s' → Hist s'
  | dropVariant {s t b s'} : Hist s → (b = true → Free s t) → dropVariant s t b = some s' → Hist s'
  | update {s} : Hist s → Hist (update s)

end Tup.Mirror
