import Verif.FullScan.Watch

/-! What it means for the database to be in step with the disk, in terms of paths. -/

namespace Tup.FullScan

open Tup.Db Tup.Scan

/-- What is on the disk under a path. -/
inductive Thing where
  | file (mtime : Int × Int)
  | dir
  | other

/-- There is such a thing under this path. -/
inductive Listing.Has : Listing → List Str → Thing → Prop
  | file {a t rest} : Has (.file a t rest) [a] (.file t)
  | dir {a sub rest} : Has (.dir a sub rest) [a] .dir
  | other {a rest} : Has (.other a rest) [a] .other
  | inside {a sub rest p w} : Has sub p w → Has (.dir a sub rest) (a :: p) w
  | afterFile {a t rest p w} : Has rest p w → Has (.file a t rest) p w
  | afterDir {a sub rest p w} : Has rest p w → Has (.dir a sub rest) p w
  | afterOther {a rest p w} : Has rest p w → Has (.other a rest) p w

/-- The path leads to or through something that the scan passes over: a name that is ignored, or something that is neither a
file nor a directory. -/
def Passed (l : Listing) (p : List Str) : Prop :=
  ∃ q a r w, p = q ++ a :: r ∧ l.Has (q ++ [a]) w ∧ (w = .other ∨ Pel.ignored a = true)

/-- The path lies in one of the directories that are not on the disk: `$`, `/` and `^`. -/
def Virtual (p : List Str) : Prop := ∃ a r, p = a :: r ∧ (a = ['$'] ∨ a = ['/'] ∨ a = ['^'])

/-- The directory of the project is there, and has no directory above. -/
def Top (db : Db) : Prop := ∃ m, db.node 1 = some m ∧ isDir m ∧ m.dir = 0 ∧ m.name ≠ tupConfig

/-- The project before a scan: the database is sound, a name occurs only once in a directory on the disk, and nothing on the
disk has the name of a group. -/
structure Start (db : Db) (l : Listing) : Prop where
  good : Good db
  top : Top db
  distinct : l.Distinct
  free : NoGroup db l.all

/-- The database is exactly what is on the disk: nothing is missing on either side. -/
def Exact (db : Db) : Nat → Listing → List Str → Prop
  | k, .nil, seen => ∀ i n, db.node i = some n → n.dir = k → isVirtual n = false →
      n.kind = .file ∨ n.kind = .dir ∨ n.kind = .generated ∨ n.kind = .generatedDir → n.name ∈ seen
  | k, .file a t rest, seen => (Pel.ignored a = true ∨ ∃ f n, db.node f = some n ∧ n.dir = k ∧ n.name = a ∧
      (n.kind = .file ∨ n.kind = .generated) ∧ n.mtime = t) ∧ Exact db k rest (a :: seen)
  | k, .dir a sub rest, seen => (Pel.ignored a = true ∨ ∃ f n, db.node f = some n ∧ n.dir = k ∧ n.name = a ∧
      isDir n ∧ n.transient = false ∧ Exact db f sub []) ∧ Exact db k rest (a :: seen)
  | k, .other a rest, seen => Exact db k rest (a :: seen)

end Tup.FullScan
