import Verif.Basic

/-
What C21 and C58 say.
-/

namespace Tup.Gitignore

open Tup (Str)

/-- The line that separates the text of the user from the one of tup. -/
def separator : Str := "##### TUP GITIGNORE #####\n".toList

/-- A text that a user can have in the file: the separator is nowhere in it, and its last line is complete or has no `#`. -/
structure UserText (u : Str) : Prop where
  noSeparator : ∀ a b, u ≠ a ++ separator ++ b
  lastLine : ∀ a b, u = a ++ '#' :: b → '\n' ∈ b

/-- The lines of a text, without their ends. -/
def linesOf (s : Str) : List Str := s.splitOn '\n'

/-- What git ignores because of a pattern of a .gitignore, for the patterns without brackets (gitignore(5), fnmatch(3)). -/
inductive Glob : Str → Str → Prop where
  | nil : Glob [] []
  | char {c p s} : c ≠ '\\' → c ≠ '*' → c ≠ '?' → c ≠ '[' → Glob p s → Glob (c :: p) (c :: s)
  | escaped {c p s} : Glob p s → Glob ('\\' :: c :: p) (c :: s)
  | any {c p s} : c ≠ '/' → Glob p s → Glob ('?' :: p) (c :: s)
  | none {p s} : Glob p s → Glob ('*' :: p) s
  | more {c p s} : c ≠ '/' → Glob ('*' :: p) s → Glob ('*' :: p) (c :: s)

end Tup.Gitignore
