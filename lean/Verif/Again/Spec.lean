import Verif.Again.Model

/-! What C105 speaks of: the names that a command has removed or renamed at some time. -/

namespace Tup.Again

open Tup (Str)
open Tup.Fuse

variable {C : Type}

/-- The operation has removed the name, or given what was there another one. -/
def gone (f : Str) : Ask C × Answer C → Prop
  | (.op (.unlink g), .done true) => g = f
  | (.op (.rename g _), .done true) => g = f
  | _ => False

/-- Names that the command removed or renamed at some time. -/
def Moved (f : Str) (tr : List (Ask C × Answer C)) : Prop := ∃ e ∈ tr, gone f e

/-- The names that a request is about. -/
def Ask.names : Ask C → List Str
  | .op (.read f) | .op (.put f _) | .op (.unlink f) | .op (.mkdir f) | .op (.rmdir f) | .op (.truncate f _) => [f]
  | .op (.rename f g) => [f, g]
  | .list d => [d]

end Tup.Again
