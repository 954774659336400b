import Verif.Symlink.Model
import Verif.Pel.Spec

/-! How the kernel follows a path. -/

namespace Tup.Symlink

open Tup.Pel (Comps Name)

/-- A file system: the root, the parent of each directory, the entries of the directories, and the texts of the symbolic
links. -/
structure Fs where
  root : Nat
  parent : Nat → Nat
  entry : Nat → Str → Option Nat
  link : Nat → Option Str

variable (fs : Fs)

/-- Where a path starts, seen from a directory. -/
def Fs.start (d : Nat) (s : Str) : Nat := if s.head? = some '/' then fs.root else d

/-- The components lead from one object to another; all symbolic links are followed. -/
inductive Walk : Nat → List Str → Nat → Prop where
  | here (d : Nat) : Walk d [] d
  | dot {d q : Nat} {l : List Str} : Walk d l q → Walk d (".".toList :: l) q
  | up {d q : Nat} {l : List Str} : Walk (fs.parent d) l q → Walk d ("..".toList :: l) q
  | down {d i q : Nat} {n : Str} {l : List Str} : Name n → fs.entry d n = some i → fs.link i = none → Walk i l q → Walk d (n :: l) q
  | link {d i j q : Nat} {n t : Str} {lt l : List Str} : Name n → fs.entry d n = some i → fs.link i = some t → t ≠ [] → Comps t lt →
      Walk (fs.start d t) lt j → Walk j l q → Walk d (n :: l) q

/-- Opening the path from directory `d` opens the object `q`. -/
def Opens (d : Nat) (s : Str) (q : Nat) : Prop := ∃ l, Comps s l ∧ Walk fs (fs.start d s) l q

/-- The path `s` is `u` and a last name `n`, and `u` leads to the directory `D`. -/
structure Last (d : Nat) (s u n : Str) (D : Nat) : Prop where
  eq : s = u ++ n
  name : Name n
  dir : u = [] ∨ u.getLast? = some '/'
  opens : Opens fs d u D

/-- `readlinkat` from directory `top`: the text of the link that the path names.  The links before the last name are
followed. -/
def Reads (top : Nat) (readlink : Str → Option Str) : Prop :=
  ∀ s t, readlink s = some t ↔ ∃ u n D i, Last fs top s u n D ∧ fs.entry D n = some i ∧ fs.link i = some t ∧ t ≠ []

/-- The path names the object `q` itself, not a link to it. -/
def Names (top : Nat) (s : Str) (q : Nat) : Prop :=
  ∃ u n D, Last fs top s u n D ∧ fs.entry D n = some q ∧ fs.link q = none

end Tup.Symlink
