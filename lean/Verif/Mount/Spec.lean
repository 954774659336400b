import Verif.Mount.Model
import Verif.Fuse.Spec

/-! What a command asks for and what it gets. -/

namespace Tup.Mount

open Tup.Fuse (Fs Node Op)

variable {C : Type}

/-- The requests of one job among all events. -/
def ops (id : Nat) : List (Ev C) → List (Op C)
  | [] => []
  | .call j o :: es => if j = id then o :: ops id es else ops id es
  | _ :: es => ops id es

/-- The answers to one job among all answers. -/
def answers (id : Nat) : List (Nat × Bool) → List Bool
  | [] => []
  | (j, b) :: l => if j = id then b :: answers id l else answers id l

/-- The job neither starts nor ends. -/
def Running (id : Nat) (es : List (Ev C)) : Prop := ∀ e ∈ es, e ≠ .start id ∧ ∀ keep, e ≠ .finish id keep

/-- What the job asks for does not change in the tree. -/
def Still (m : Mount C) (id : Nat) (es : List (Ev C)) : Prop :=
  ∀ a b, es = a ++ b → ∀ o ∈ ops id es, ∀ f ∈ o.names, (run m a).1.real f = m.real f

/-- What the job sees at a path. -/
def sees (m : Mount C) (id : Nat) (f : Str) : Option (Option (Node C)) := (m.jobs id).map fun s => Fuse.lookup m.real (load m s) f

/-- The states that can be reached. -/
def Reachable (m : Mount C) : Prop := ∃ real es, m = (run { real := real } es).1

end Tup.Mount
