import Verif.MkVariant.Model

/-! What a disk must be like, and what the kernel does on it. -/

namespace Tup.MkVariant

open Tup.Symlink (Fs Opens)
open Tup.Pel (Name)

/-- A disk as there are. -/
structure Disk.Good (k : Disk) : Prop where
  root : k.fs.root < k.next
  top : k.top < k.next
  topDir : k.isDir k.top = true
  parentLt : ∀ i, i < k.next → k.fs.parent i < k.next
  parent : ∀ d n i, k.fs.entry d n = some i → k.isDir i = true → k.fs.parent i = d
  entryLt : ∀ d n i, k.fs.entry d n = some i → d < k.next ∧ i < k.next
  linkLt : ∀ i t, k.fs.link i = some t → i < k.next ∧ k.isDir i = false
  dirLt : ∀ i, k.isDir i = true → i < k.next
  names : ∀ d n, n ∈ k.names d ↔ (k.fs.entry d n).isSome = true

/-- `chdir` goes where the path leads, if that is a directory. -/
def Kernel (chdir : Disk → Str → Option Nat) : Prop :=
  ∀ k s q, chdir k s = some q ↔ Opens k.fs k.top s q ∧ k.isDir q = true

/-- The second disk has all that the first one has. -/
structure Ext (k k' : Disk) : Prop where
  root : k'.fs.root = k.fs.root
  top : k'.top = k.top
  next : k.next ≤ k'.next
  parent : ∀ i, i < k.next → k'.fs.parent i = k.fs.parent i
  link : ∀ i, i < k.next → k'.fs.link i = k.fs.link i
  isDir : ∀ i, i < k.next → k'.isDir i = k.isDir i
  entry : ∀ d n i, k.fs.entry d n = some i → k'.fs.entry d n = some i

/-- The name up to its first dot, of what follows the last slash. -/
def Stem (config stem : Str) : Prop :=
  ∃ u f, config = u ++ f ∧ (u = [] ∨ u.getLast? = some '/') ∧ '/' ∉ f ∧ '.' ∉ stem ∧ (f = stem ∨ ∃ r, f = stem ++ '.' :: r)

end Tup.MkVariant
