import Verif.UpdateRules.Model

/-! Vocabulary for changes of the rules. -/

namespace Tup.Update

/-- Command `d` of the rules `π` has the output `p`. -/
def Writes (π : Proj) (d p : Nat) : Prop := d ∈ π.nodes ∧ π.isCmd d = true ∧ p ∈ π.outs d

/-- Where an output that a failed command may have left differs from what its users saw, the new rules do not
compare it with a new version: if a scheduled command without ^o wrote `p` and a command with ^o is to write
it now, then no version of `p` is recorded. -/
def NoNewO (π π' : Proj) (w : W) : Prop :=
  ∀ p d d', Writes π d p → Writes π' d' p → w.db.modify d = true → π.optO d = false →
    π'.optO d' = false ∨ w.db.known p = none

/-- No rule has the ^o flag. -/
def NoO (π : Proj) : Prop := ∀ x, π.optO x = false

end Tup.Update
