import Verif.Rules.Model

/-! What the parts of a rule and of a command string are. -/

namespace Tup.Rules

/-- Only white space. -/
def Blank (s : Str) : Prop := ∀ c ∈ s, isSpace c = true

/-- No white space at either end. -/
def Tight (s : Str) : Prop := (∀ c, s.head? = some c → isSpace c = false) ∧ ∀ c, s.getLast? = some c → isSpace c = false

/-- `t` is `s` without the white space around it. -/
def Trims (s t : Str) : Prop := Tight t ∧ ∃ a b, Blank a ∧ Blank b ∧ s = a ++ t ++ b

/-- A bin begins here: an opening brace at the beginning of the outputs, or behind white space. -/
def BinAt (before after : Str) : Prop :=
  after.head? = some '{' ∧ (before = [] ∨ ∃ d, before.getLast? = some d ∧ isSpace d = true)

/-- How a command string is written.  `flags` has no space and no caret in it. -/
inductive Written : Str → CommandSplit → Prop
  | plain {w c} : (w ++ c).head? ≠ some '^' → Blank w → (∀ d, c.head? = some d → isSpace d = false) →
      Written (w ++ c) ⟨[], none, c⟩
  | flags {f w c} : ' ' ∉ f → '^' ∉ f → Blank w → (∀ d, c.head? = some d → isSpace d = false) →
      Written ("^".toList ++ f ++ "^".toList ++ w ++ c) ⟨f, none, c⟩
  | display {f w' d w c} : ' ' ∉ f → '^' ∉ f → Blank w' → '^' ∉ d → (∀ x, d.head? = some x → isSpace x = false) →
      Blank w → (∀ x, c.head? = some x → isSpace x = false) →
      Written ("^".toList ++ f ++ " ".toList ++ w' ++ d ++ "^".toList ++ w ++ c) ⟨f, some d, c⟩

/-- Empty inputs are no inputs. -/
def nonEmpty (s : Str) : Option Str := if s = [] then none else some s

/-- How a rule is written (behind the colon), and what its parts are. -/
inductive RuleForm : Str → Parts → Prop
  | plain {I i C c w o} : ¬ Occurs "|>".toList I → ¬ Occurs "|>".toList C → Trims I i → Trims C c → Blank w →
      (∀ x, o.head? = some x → isSpace x = false) → (∀ a b, o = a ++ b → ¬ BinAt a b) →
      RuleForm (I ++ "|>".toList ++ C ++ "|>".toList ++ w ++ o) ⟨nonEmpty i, c, o, none⟩
  | bin {I i C c w o w' b} : ¬ Occurs "|>".toList I → ¬ Occurs "|>".toList C → Trims I i → Trims C c → Blank w →
      Tight o → Blank w' → (o ≠ [] → w' ≠ []) → (∀ a b, o = a ++ b → ¬ BinAt a b) → '}' ∉ b →
      RuleForm (I ++ "|>".toList ++ C ++ "|>".toList ++ w ++ o ++ w' ++ "{".toList ++ b ++ "}".toList)
        ⟨nonEmpty i, c, o, some b⟩

end Tup.Rules
