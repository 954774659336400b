import Verif.Assign.Model
import Verif.Eval.Spec

namespace Tup.Assign

open Tup.Eval

/-- How an assignment is written: the operator, what is to its left and what is to its right.  An operator is
looked for in the order `+=`, `:=`, `=`, each time in the whole line. -/
inductive Assigns : Str → Op → Str → Str → Prop
  | append {a b} : ¬ Occurs "+=".toList a → Assigns (a ++ "+=".toList ++ b) .append a b
  | define {a b} : ¬ Occurs "+=".toList (a ++ ":=".toList ++ b) → ¬ Occurs ":=".toList a →
      Assigns (a ++ ":=".toList ++ b) .set a b
  | set {a b} : ¬ Occurs "+=".toList (a ++ "=".toList ++ b) → ¬ Occurs ":=".toList (a ++ "=".toList ++ b) →
      '=' ∉ a → Assigns (a ++ "=".toList ++ b) .set a b

/-- A value as it is read back: behind a space, further white space is dropped. -/
def collapse : Bool → Str → Str
  | _, [] => []
  | true, c :: t => if isSpace c then collapse true t else c :: collapse false t
  | false, c :: t => c :: collapse (c = ' ') t

/-- The value of a variable as a string, if it is set. -/
def Store.value (st : Store) (n : Str) : Option Str := (st.vars n).map joinWords

/-- All variables have at least one word, as assignments leave them. -/
def Store.Wf (st : Store) : Prop := ∀ n, st.vars n ≠ some []

end Tup.Assign
