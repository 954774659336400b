import Verif.LuaNames.Model

/-! What C87 says of file names. -/

namespace Tup.LuaNames

open Tup (Str)

/-- A directory as it stands before a name: nothing, or something that ends with a slash or a backslash. -/
def IsDir (d : Str) : Prop := d = [] ∨ ∃ (e : Str) (c : Char), d = e ++ [c] ∧ (c = '/' ∨ c = '\\')

/-- A name without directories. -/
def IsName (n : Str) : Prop := ∀ c, c ∈ n → c ≠ '/' ∧ c ≠ '\\'

instance (n : Str) : Decidable (IsName n) := by unfold IsName; infer_instance

/-- Letters and digits only. -/
def Alnum (x : Str) : Prop := ∀ c, c ∈ x → c.isAlphanum = true

instance (n : Str) : Decidable (Alnum n) := by unfold Alnum; infer_instance

end Tup.LuaNames
