import Verif.Readdir.Model
import Verif.Fuse.Spec

/-! What a list of a directory should be, in terms of what the command sees. -/

namespace Tup.Readdir

open Tup (Str)
open Tup.Fuse

variable {C : Type}

/-- A name that a directory entry can have, other than `.`, `..` and tup's own directory. -/
structure Plain (n : Str) : Prop where
  noSlash : '/' ∉ n
  nonempty : n ≠ []
  noDot : n ≠ ".".toList
  noDots : n ≠ "..".toList
  noTup : n ≠ ".tup".toList

/-- The path of an entry of a directory. -/
def inDir (d n : Str) : Str := d ++ '/' :: n

/-- The tree that is really there: what is in a directory that is not there is not there either, and readdir() gives the names of
exactly what is in a directory, once each. -/
structure Tree (real : Str → Option (Node C)) (ents : Str → Option (List Str)) : Prop where
  closed : ∀ d n, real d = none → real (inDir d n) = none
  lists : ∀ d, real d = some .dir → ∃ l, ents d = some l ∧ l.Nodup ∧ ∀ n, Plain n → (n ∈ l ↔ real (inDir d n) ≠ none)

/-- All the names that the command uses are absolute paths without `.`, `..`, `.tup` or empty parts below directory `d`. -/
def Proper (d : Str) (r : Own C) : Prop := ∀ n, r.made (inDir d n) → '/' ∉ n → Plain n

end Tup.Readdir
