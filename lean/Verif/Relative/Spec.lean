import Verif.Relative.Model
import Verif.Pel.Spec

/-! What the relative path should be: following it from the one place one arrives at the other (`Pel.Leads`). -/

namespace Tup.Relative

open Tup.Pel

/-- `Place T id p`: the node `id` is found by going down the names `p` from the top directory. -/
inductive Place (T : Table) : Nat → List Str → Prop
  | top {id n} : T id = some ⟨n, none⟩ → Place T id []
  | child {id n d p} : T id = some ⟨n, some d⟩ → Place T d p → Place T id (p ++ [n])

/-- What the database guarantees: there is one top directory, and no two nodes in one directory have the same name
(`unique(dir, name)`, db.c:313).  The names are those of files and directories in the project. -/
structure Proper (T : Table) : Prop where
  top : ∀ {i j n m}, T i = some ⟨n, none⟩ → T j = some ⟨m, none⟩ → i = j
  unique : ∀ {i j n}, T i = some n → T j = some n → i = j
  names : ∀ {i n d}, T i = some ⟨n, some d⟩ → Name n

/-- The places where there is a node. -/
def Exists (T : Table) (p : List Str) : Prop := ∃ id, Place T id p

end Tup.Relative
