import Verif.Environ.Model

/-! What the environment of a command should be. -/

namespace Tup.Environ

def text (s : String) : Bytes := s.toList.map Char.toNat

/-- The inputs of a command: the names of exported variables, and other things. -/
abbrev Inputs := List (Option Bytes)

/-- The entries of the inputs when the variables have the values of the environment in which tup runs. -/
def entries (getenv : Bytes → Option Bytes) (is : Inputs) : List Ent :=
  is.map (fun i => match i with
    | some n => .var (full n (getenv n))
    | none => .other)

/-- The variables that are set, as they are handed to a process. -/
def exported (getenv : Bytes → Option Bytes) (is : Inputs) : List Bytes :=
  is.filterMap (fun i => i.bind (fun n => (getenv n).map (fun v => n ++ eq :: v)))

/-- What a process finds for a name in its environment: the text behind `name=` in the first string that begins so. -/
def lookup : List Bytes → Bytes → Option Bytes
  | [], _ => none
  | s :: l, n => if (n ++ [eq]) <+: s then some (s.drop (n.length + 1)) else lookup l n

/-- Names and values are strings. -/
def Strings (getenv : Bytes → Option Bytes) (is : Inputs) : Prop :=
  (∀ n, some n ∈ is → 0 ∉ n) ∧ ∀ n v, getenv n = some v → 0 ∉ v

end Tup.Environ
