import Verif.Update.Model
import Verif.Exec.Spec

/-! Vocabulary for the update properties. -/

namespace Tup.Update

variable (π : Proj)

/-- Assumptions on a project: ids are consistent (the parser guarantees this: C27, C50), commands behave as
a function of the files they read, and read only files known to the database. -/
structure Proj.Ok : Prop where
  root : π.root ∉ π.nodes
  nodup : π.nodes.Nodup
  rootNoCmd : π.isCmd π.root = false
  outsIn : ∀ c, π.isCmd c = true → ∀ o ∈ π.outs c, o ∈ π.nodes ∧ π.isCmd o = false
  unique : ∀ c ∈ π.nodes, ∀ d ∈ π.nodes, π.isCmd c = true → π.isCmd d = true →
    ∀ o, o ∈ π.outs c → o ∈ π.outs d → c = d
  stickyIn : ∀ c, π.root ∉ π.sticky c
  stickyFile : ∀ c, π.isCmd c = true → ∀ p ∈ π.sticky c, π.isCmd p = false
  readsIn : ∀ c v, ∀ p ∈ (π.beh c v).reads, p ∈ π.nodes ∧ π.isCmd p = false
  det : ∀ c v v', (∀ p ∈ (π.beh c v).reads, v p = v' p) → π.beh c v' = π.beh c v

/-- Everything is up to date: every command, run now, would succeed and write exactly what its output files
contain. -/
def UpToDate (w : Content) : Prop :=
  ∀ c ∈ π.nodes, π.isCmd c = true →
    (π.beh c (mask π c w)).ok = true ∧ ∀ o ∈ π.outs c, (w o).isSome = true ∧ w o = (π.beh c (mask π c w)).out o

/-- Every command uses only generated files it declares. -/
def Declares (w : Content) : Prop :=
  ∀ c ∈ π.nodes, π.isCmd c = true →
    ∀ p ∈ (π.beh c (mask π c w)).reads, p ∉ π.outs c → π.gen p = true → p ∈ π.sticky c

/-- The declared dependencies are not circular. -/
def Ranked : Prop := ∃ r : Nat → Nat, ∀ c ∈ π.nodes, ∀ d ∈ π.nodes, π.isCmd c = true → π.isCmd d = true →
  ∀ p ∈ π.sticky c, p ∈ π.outs d → d ≠ c → r d < r c

/-- In state `s` of an update, the work for `x` has been completed successfully. -/
def Done (s : Tup.Exec.S D) (x : Nat) : Prop := x ∈ s.popped ∨ (x, true) ∈ s.fin

end Tup.Update
