import Verif.Config.Model

/-! What a `tup.config` means, and what `tup varsed` should write. -/

namespace Tup.Config

/-- Nothing but white space. -/
def Blank (s : Str) : Prop := ∀ c ∈ s, isSpace c = true

/-- `Line l b`: the line `l` (without its newline) is in order and sets what `b` says. -/
inductive Line : Str → Option (Str × Str) → Prop
  | blank {w} : Blank w → Line w none
  | comment {t} : (¬ ∃ u, t = " CONFIG_".toList ++ u) → Line ('#' :: t) none
  | unset {x t} : ' ' ∉ x → ¬ Blank t → Line ("# CONFIG_".toList ++ x ++ ' ' :: t) (some (x, "n".toList))
  | plain {x v w} : '=' ∉ x → (∀ c, v.head? = some c → c ≠ '"') → (∀ c, v.getLast? = some c → isSpace c = false) →
      Blank w → Line ("CONFIG_".toList ++ x ++ '=' :: v ++ w) (some (x, v))
  | quoted {x v t} : '=' ∉ x → '"' ∉ v → Line ("CONFIG_".toList ++ x ++ "=\"".toList ++ v ++ '"' :: t) (some (x, v))

/-- `File s bs`: `s` consists of lines that are in order, each ended by a newline, and they set `bs`, in this order. -/
inductive File : Str → List (Str × Str) → Prop
  | nil : File [] []
  | cons {l t b bs} : '\n' ∉ l → Char.ofNat 0 ∉ l → Line l b → File t bs → File (l ++ '\n' :: t) (b.toList ++ bs)

/-- The last binding of `n` in the list is `v`. -/
def Last (bs : List (Str × Str)) (n v : Str) : Prop := ∃ a b, bs = a ++ (n, v) :: b ∧ n ∉ b.map (·.1)

/-- What is written in place of `@n@`: the value if there is one, but in binary mode 1 for `y` and 0 for `n`. -/
inductive Subst (look : Str → Option Str) (bin : Bool) (n : Str) : Str → Prop
  | absent : look n = none → Subst look bin n []
  | yes : look n = some "y".toList → bin = true → Subst look bin n "1".toList
  | no : look n = some "n".toList → bin = true → Subst look bin n "0".toList
  | value {v} : look n = some v → (bin = true → v ≠ "y".toList ∧ v ≠ "n".toList) → Subst look bin n v

/-- Letters, digits and underscores. -/
def Word (n : Str) : Prop := ∀ c ∈ n, c.isAlphanum = true ∨ c = '_'

/-- `Sub s t`: going through `s` from the left, every `@NAME@` is replaced and everything else is kept. -/
inductive Sub (look : Str → Option Str) (bin : Bool) : Str → Str → Prop
  | nil : Sub look bin [] []
  | byte {c s t} : c ≠ '@' → Sub look bin s t → Sub look bin (c :: s) (c :: t)
  | var {n v s t} : Word n → Subst look bin n v → Sub look bin s t → Sub look bin ('@' :: n ++ '@' :: s) (v ++ t)
  | at {s t} : (¬ ∃ n u, Word n ∧ s = n ++ '@' :: u) → Sub look bin s t → Sub look bin ('@' :: s) ('@' :: t)

end Tup.Config
