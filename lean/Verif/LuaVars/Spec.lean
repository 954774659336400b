import Verif.LuaVars.Model

/-! What C86 says of variables and of `+=`. -/

namespace Tup.LuaVars

open Tup (Str)

variable {α : Type}

/-- What all Tupfiles have in common. -/
structure Shared (α : Type) where
  globals : Vars α
  environ : Vars α

/-- What a Tupfile leaves behind for all others. -/
def leaves : Script α → Shared α → Shared α
  | .done, g => g
  | .set k v r, g => leaves r (if g.environ k ≠ none then { g with environ := upd g.environ k v } else g)
  | .get _ r, g => leaves r g
  | .rawset k v r, g => leaves r { g with environ := upd g.environ k v }
  | .setVar _ _ r, g => leaves r g
  | .getVar _ r, g => leaves r g
  | .import_ k _ t r, g => leaves r { g with globals := upd g.globals k t }
  | .ext v r, g => leaves r { g with globals := upd g.globals "match".toList v }
  | .other i r, g => leaves r (leaves i g)

/-- What a Tupfile reads: `own` are its own variables.  Another Tupfile does nothing to them. -/
def reads (env : α) : Script α → Shared α → Vars α → List (Option α)
  | .done, _, _ => []
  | .set k v r, g, own => if g.environ k ≠ none then reads env r { g with environ := upd g.environ k v } own else reads env r g (upd own k v)
  | .get k r, g, own =>
    (if g.environ k ≠ none then g.environ k else if k = "_G".toList then some env else if own k ≠ none then own k else g.globals k) :: reads env r g own
  | .rawset k v r, g, own => reads env r { g with environ := upd g.environ k v } own
  | .setVar k v r, g, own => reads env r g (upd own k v)
  | .getVar k r, g, own => own k :: reads env r g own
  | .import_ k w t r, g, own => reads env r { g with globals := upd g.globals k t } (upd own k w)
  | .ext v r, g, own => reads env r { g with globals := upd g.globals "match".toList v } own
  | .other i r, g, own => reads env r (leaves i g) own

/-- The own variables at the end. -/
def keeps : Script α → Shared α → Vars α → Vars α
  | .done, _, own => own
  | .set k v r, g, own => if g.environ k ≠ none then keeps r { g with environ := upd g.environ k v } own else keeps r g (upd own k v)
  | .get _ r, g, own => keeps r g own
  | .rawset k v r, g, own => keeps r { g with environ := upd g.environ k v } own
  | .setVar k v r, g, own => keeps r g (upd own k v)
  | .getVar _ r, g, own => keeps r g own
  | .import_ k w t r, g, own => keeps r { g with globals := upd g.globals k t } (upd own k w)
  | .ext v r, g, own => keeps r { g with globals := upd g.globals "match".toList v } own
  | .other i r, g, own => keeps r (leaves i g) own

/-- A script that only reads and assigns variables: no `rawset`, `tup.import` or `tup.ext`. -/
def Clean : Script α → Prop
  | .done => True
  | .set _ _ r => Clean r
  | .get _ r => Clean r
  | .rawset _ _ _ => False
  | .setVar _ _ r => Clean r
  | .getVar _ r => Clean r
  | .import_ _ _ _ _ => False
  | .ext _ _ => False
  | .other i r => Clean i ∧ Clean r

/-- The script without the parsing of other Tupfiles. -/
def alone : Script α → Script α
  | .done => .done
  | .set k v r => .set k v (alone r)
  | .get k r => .get k (alone r)
  | .rawset k v r => .rawset k v (alone r)
  | .setVar k v r => .setVar k v (alone r)
  | .getVar k r => .getVar k (alone r)
  | .import_ k w t r => .import_ k w t (alone r)
  | .ext v r => .ext v (alone r)
  | .other _ r => alone r

/-- All other Tupfiles that are parsed meanwhile are clean. -/
def OthersClean : Script α → Prop
  | .done => True
  | .set _ _ r => OthersClean r
  | .get _ r => OthersClean r
  | .rawset _ _ r => OthersClean r
  | .setVar _ _ r => OthersClean r
  | .getVar _ r => OthersClean r
  | .import_ _ _ _ r => OthersClean r
  | .ext _ r => OthersClean r
  | .other i r => Clean i ∧ OthersClean r

/-- `q` behind `p`. -/
def andThen : Script α → Script α → Script α
  | .done, q => q
  | .set k v r, q => .set k v (andThen r q)
  | .get k r, q => .get k (andThen r q)
  | .rawset k v r, q => .rawset k v (andThen r q)
  | .setVar k v r, q => .setVar k v (andThen r q)
  | .getVar k r, q => .getVar k (andThen r q)
  | .import_ k w t r, q => .import_ k w t (andThen r q)
  | .ext v r, q => .ext v (andThen r q)
  | .other i r, q => .other i (andThen r q)

/-- The script itself does not assign or import `k`; others may. -/
def Leaves (k : Str) : Script α → Prop
  | .done => True
  | .set k' _ r => k' ≠ k ∧ Leaves k r
  | .get _ r => Leaves k r
  | .rawset _ _ r => Leaves k r
  | .setVar k' _ r => k' ≠ k ∧ Leaves k r
  | .getVar _ r => Leaves k r
  | .import_ k' _ _ r => k' ≠ k ∧ Leaves k r
  | .ext _ r => Leaves k r
  | .other _ r => Leaves k r

/-- Nobody uses `rawset` for `k`. -/
def NoRaw (k : Str) : Script α → Prop
  | .done => True
  | .set _ _ r => NoRaw k r
  | .get _ r => NoRaw k r
  | .rawset k' _ r => k' ≠ k ∧ NoRaw k r
  | .setVar _ _ r => NoRaw k r
  | .getVar _ r => NoRaw k r
  | .import_ _ _ _ r => NoRaw k r
  | .ext _ r => NoRaw k r
  | .other i r => NoRaw k i ∧ NoRaw k r

/-- Nobody puts `k` into what is common: no `rawset` or `tup.import` of `k`, and for `match` no `tup.ext`. -/
def Quiet (k : Str) : Script α → Prop
  | .done => True
  | .set _ _ r => Quiet k r
  | .get _ r => Quiet k r
  | .rawset k' _ r => k' ≠ k ∧ Quiet k r
  | .setVar _ _ r => Quiet k r
  | .getVar _ r => Quiet k r
  | .import_ k' _ _ r => k' ≠ k ∧ Quiet k r
  | .ext _ r => "match".toList ≠ k ∧ Quiet k r
  | .other i r => Quiet k i ∧ Quiet k r

/-- What Tupfiles read that are parsed one after the other. -/
def readsAll (env : α) : List (Script α) → Shared α → List (List (Option α))
  | [], _ => []
  | p :: l, g => reads env p g (fun _ => none) :: readsAll env l (leaves p g)

/-- The elements of a value of `+=`: nil has none, a string is one. -/
def Elems (h : Lua.Heap) (v : Lua.Val) (l : List Lua.Val) : Prop :=
  (v = .nil ∧ l = []) ∨ (∃ s, v = .str s ∧ l = [.str s]) ∨ ∃ (i : Nat) (t : Lua.Tab), v = .ref i ∧ h[i]? = some t ∧ t.arr = l

end Tup.LuaVars
