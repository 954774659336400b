import Verif.LnCmd.Model
import Verif.Relative.Spec

/-! Words for C90. -/

namespace Tup.LnCmd

open Tup (Str isSpace)

/-- A word: not empty, without white space. -/
def Word (s : Str) : Prop := s ≠ [] ∧ ∀ c, c ∈ s → isSpace c = false

/-- White space, at least one. -/
def Gap (s : Str) : Prop := s ≠ [] ∧ ∀ c, c ∈ s → isSpace c = true

/-- The text has at most one word, and nothing behind it. -/
def OneWord (s : Str) : Prop := ∃ w u, s = w ++ u ∧ (∀ c, c ∈ w → isSpace c = true) ∧ ∀ c, c ∈ u → isSpace c = false

end Tup.LnCmd
