import Verif.Tree.Model

/-! Sets and maps, as mathematics has them. -/

namespace Tup.Tree

/-- The same operations on a set of ids. -/
def setStep (S : Int → Bool) : IdOp → Bool × (Int → Bool)
  | .add i => (!S i, fun j => S j || j = i)
  | .addDup i => (true, fun j => S j || j = i)
  | .remove i => (true, fun j => S j && j ≠ i)
  | .search i => (S i, S)

/-- A history of a set: the answers are the right ones, and what is in the set in the end. -/
def setRun (S : Int → Bool) : List (IdOp × Bool) → Option (Int → Bool)
  | [] => some S
  | (op, b) :: l => if (setStep S op).1 = b then setRun (setStep S op).2 l else none

/-- The same operations on a map from names to values (a value can be missing: `none`). -/
def mapStep (M : Str → Option (Option Str)) : VarOp → VarAns × (Str → Option (Option Str))
  | .set n x => (.unit, fun m => if m = n then some x else M m)
  | .append n x => (.unit, fun m =>
      if m = n then
        match M n with
        | none => some (some x)
        | some none => some (some (' ' :: x))
        | some (some y) => some (some (y ++ ' ' :: x))
      else M m)
  | .copy n =>
    (.bytes (match M n with
      | some (some x) => x
      | _ => []), M)
  | .get n => (.entry (M n), M)

def mapRun (M : Str → Option (Option Str)) : List (VarOp × VarAns) → Option (Str → Option (Option Str))
  | [] => some M
  | (op, b) :: l => if (mapStep M op).1 = b then mapRun (mapStep M op).2 l else none

/-- The element a call is about. -/
def Diff.elem {α : Type} : Diff α → α
  | .onlyA x => x
  | .onlyB y => y
  | .both x _ => x

end Tup.Tree
