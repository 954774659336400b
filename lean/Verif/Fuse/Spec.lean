import Verif.Fuse.Model

/-
What C22 says: a command works in a file system of its own, on top of the tree that was there when it began.  The command can change and
remove what it has made, and only that.  Nothing here refers to mappings, temporary files or lists of accesses.
-/

namespace Tup.Fuse

open Tup (Str)

variable {C : Type}

/-- What the command has made and has not removed: files with their content, and directories. -/
structure Own (C : Type) where
  files : Str → Option C := fun _ => none
  dirs : Str → Prop := fun _ => False

/-- What the command finds at a path: what it has made, else what was there before. -/
inductive Sees (real : Str → Option (Node C)) (r : Own C) (f : Str) : Option (Node C) → Prop where
  | dir : r.dirs f → Sees real r f (some .dir)
  | file (c) : ¬ r.dirs f → r.files f = some c → Sees real r f (some (.file c))
  | other : ¬ r.dirs f → r.files f = none → Sees real r f (real f)

/-- Has the command made what is at the path? -/
def Own.made (r : Own C) (f : Str) : Prop := r.dirs f ∨ r.files f ≠ none

/-- The path of something in directory `d`, at any depth. -/
def Inside (d f : Str) : Prop := ∃ rest, f = d ++ '/' :: rest

/-- Change one file. -/
def Own.set (r : Own C) (f : Str) (c : Option C) : Own C := { r with files := fun x => if x = f then c else r.files x }

/-- Add or remove one directory. -/
def Own.setDir (r : Own C) (f : Str) (p : Prop) : Own C := { r with dirs := fun x => if x = f then p else r.dirs x }

/-- Has the command made something in the directory? -/
def Own.full (r : Own C) (d : Str) : Prop := ∃ f, Inside d f ∧ r.made f

/-- What an operation does to the private file system, and whether it succeeds. -/
inductive Does (real : Str → Option (Node C)) (r : Own C) : Op C → Bool → Own C → Prop where
  | read (f n) : Sees real r f n → Does real r (.read f) n.isSome r
  /-- a new file -/
  | create (f c) : Sees real r f none → Does real r (.put f c) true (r.set f (some c))
  /-- a file that the command has made gets another content -/
  | change (f c c₀) : Sees real r f (some (.file c₀)) → r.made f → Does real r (.put f c) true (r.set f (some c))
  | noPut (f c n) : Sees real r f (some n) → (n = .dir ∨ ¬ r.made f) → Does real r (.put f c) false r
  | unlink (f c) : Sees real r f (some (.file c)) → r.made f → Does real r (.unlink f) true (r.set f none)
  | noUnlink (f n) : Sees real r f n → (¬ (∃ c, n = some (.file c)) ∨ ¬ r.made f) → Does real r (.unlink f) false r
  /-- a file gets another name; a file that has that name is replaced -/
  | rename (f g c n) : f ≠ g → Sees real r f (some (.file c)) → r.made f → Sees real r g n → n ≠ some .dir → ¬ Inside f g →
      Does real r (.rename f g) true ((r.set f none).set g (some c))
  /-- an empty directory gets another name -/
  | renameDir (f g) : f ≠ g → r.dirs f → ¬ r.full f → Sees real r g none → ¬ Inside f g →
      Does real r (.rename f g) true ((r.setDir f False).setDir g True)
  /-- from a name to itself: nothing to do -/
  | renameSame (f n) : Sees real r f n → Does real r (.rename f f) n.isSome r
  | noRename (f g n m) : f ≠ g → Sees real r f n → Sees real r g m →
      (n = none ∨ ¬ r.made f ∨ Inside f g ∨ (n = some .dir ∧ ∃ c, m = some (.file c)) ∨ ((∃ c, n = some (.file c)) ∧ m = some .dir)) →
      Does real r (.rename f g) false r
  | mkdir (f) : Sees real r f none → Does real r (.mkdir f) true (r.setDir f True)
  | noMkdir (f n) : Sees real r f (some n) → Does real r (.mkdir f) false r
  | rmdir (f) : r.dirs f → ¬ r.full f → Does real r (.rmdir f) true (r.setDir f False)
  | noRmdir (f) : ¬ r.dirs f ∨ r.full f → Does real r (.rmdir f) false r
  | truncate (f c c₀) : Sees real r f (some (.file c₀)) → r.made f → Does real r (.truncate f c) true (r.set f (some c))
  | noTruncate (f c n) : Sees real r f n → (¬ (∃ c, n = some (.file c)) ∨ ¬ r.made f) → Does real r (.truncate f c) false r

/-- The operations for which tup keeps to the private file system.  Left out: writing into or truncating a file that the command has not
made; giving the name of a file that the command has made to something that it has not made; giving another name to a directory that
is not empty, or giving a directory the name of another directory. -/
def Usual (real : Str → Option (Node C)) (r : Own C) : Op C → Prop
  | .put f _ | .truncate f _ => (∃ c, Sees real r f (some (.file c))) → r.made f
  | .rename f g =>
    f ≠ g → (¬ r.made f → (∃ n, Sees real r f (some n)) → r.files g = none) ∧ (r.dirs f → ¬ r.full f ∧ ¬ Sees real r g (some .dir))
  | _ => True

/-- Any number of operations in a row, all of them usual. -/
inductive Runs (real : Str → Option (Node C)) : Own C → List (Op C) → List Bool → Own C → Prop where
  | nil (r) : Runs real r [] [] r
  | cons (r o b r' os bs r'') : Usual real r o → Does real r o b r' → Runs real r' os bs r'' → Runs real r (o :: os) (b :: bs) r''

/-- The names in an operation. -/
def Op.names : Op C → List Str
  | .read f | .put f _ | .unlink f | .mkdir f | .rmdir f | .truncate f _ => [f]
  | .rename f g => [f, g]

end Tup.Fuse
