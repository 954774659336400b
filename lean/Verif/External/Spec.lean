import Verif.External.Model
import Verif.Db.Lemmas

/-!
What the scan of the outside files should do.  A path is the list of its names, from `/` on.
-/

namespace Tup.External

open Tup.Db

/-- The directory that one name in a directory leads to, if it is a directory that tup may open. -/
def Disk.enter (d : Disk) (i : Nat) (name : Str) : Option Nat :=
  if d.isDir i name then
    match d.openat i name with
    | .fd k => some k
    | _ => none
  else none

/-- The directory that a path from the directory `i` leads to, if it is one. -/
def Disk.leads (d : Disk) : Nat → List Str → Option Nat
  | i, [] => some i
  | i, name :: path =>
    match d.enter i name with
    | none => none
    | some k => d.leads k path

/-- What is to be recorded for a path below the directory `i`: the time of the object there, or that there is none. -/
def Disk.timeAt (d : Disk) : Nat → List Str → Time
  | _, [] => dirTime
  | i, [name] =>
    match d.lookup i name with
    | none => gone
    | some j => (d.obj j).time
  | i, name :: name' :: path =>
    match d.enter i name with
    | none => gone
    | some k => d.timeAt k (name' :: path)

/-- What is to be recorded for a path. -/
def Disk.time (d : Disk) (path : List Str) : Time := d.timeAt d.root path

/-- Is there a directory at that path (or a symbolic link to one)? -/
def Disk.dirAt (d : Disk) : Nat → List Str → Bool
  | _, [] => true
  | i, [name] => d.isDir i name
  | i, name :: name' :: path =>
    match d.enter i name with
    | none => false
    | some k => d.dirAt k (name' :: path)

def Disk.dir (d : Disk) (path : List Str) : Bool := d.dirAt d.root path

/-- The node `i` of the database stands for the path `p` outside of the project. -/
inductive Below (db : Db) (slash : Nat) : Nat → List Str → Prop
  | top : Below db slash slash []
  | sub {i a p n} : Below db slash a p → db.node i = some n → n.dir = a → Below db slash i (p ++ [n.name])

/-- All outside paths in the database are recorded as they are on the disk. -/
def InStep (db : Db) (slash : Nat) (d : Disk) : Prop :=
  ∀ i p n, Below db slash i p → p ≠ [] → db.node i = some n → n.mtime = d.time p

/-- The database is what its constraints make it: rows below the bound, and a directory is older than what is in
it, so that ids grow on the way down. -/
structure Wf (db : Db) : Prop where
  bounded : Bounded db
  down : ∀ i n, db.node i = some n → n.dir < i

/-- Between the first and the second disk, a path that stops being a directory shows another time.  For a directory
this is so, since it has the time 0, and no time if it is gone; for a symbolic link to a directory it need not be. -/
def Honest (d d' : Disk) : Prop := ∀ p, d.dir p = true → d'.dir p = false → d.time p ≠ d'.time p

/-- Nothing is recorded below a path that is not a directory, as far as the path itself is recorded correctly. -/
def Settled (db : Db) (slash : Nat) (d : Disk) : Prop :=
  ∀ i p n, Below db slash i p → p ≠ [] → db.node i = some n → d.dir p = false → n.mtime = d.time p →
    ∀ j q m, Below db i j q → q ≠ [] → db.node j = some m → m.mtime = gone

/-- Files and links have real times: not the ones that stand for a directory and for a missing file. -/
def RealTimes (d : Disk) : Prop := ∀ i t, d.obj i = .file t ∨ d.obj i = .link t → t ≠ dirTime ∧ t ≠ gone

/-- No symbolic link leads to a directory. -/
def NoDirLinks (d : Disk) : Prop := ∀ i t k, d.obj i = .link t → d.target i = some k → d.obj k ≠ .dir

/-- The nodes that become scheduled when the recorded times of outside paths turn from those of the database to those
of the disk: the ones that have an input whose time changes. -/
def Reads (db : Db) (slash : Nat) (d : Disk) (j : Nat) : Prop :=
  ∃ i p n, Below db slash i p ∧ p ≠ [] ∧ db.node i = some n ∧ n.mtime ≠ d.time p ∧ db.normal i j = true

end Tup.External
