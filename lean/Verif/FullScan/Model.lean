import Verif.Links.Create
import Verif.Pel.Model

/-!
Model of the scan of all files, src/tup/path.c:42-169, 316-327: `tup_scan` walks over the directories of the project and
brings the database in step with what is there.
-/

namespace Tup.FullScan

open Tup.Db Tup.Scan

/-- What is in a directory, in the order in which `readdir` returns it: files (and symbolic links) with their
modification times, directories with what is in them, and other things (sockets, devices). -/
inductive Listing where
  | nil
  | file (name : Str) (mtime : Int × Int) (rest : Listing)
  | dir (name : Str) (sub : Listing) (rest : Listing)
  | other (name : Str) (rest : Listing)
deriving DecidableEq, Repr

/-- The names in a directory. -/
def Listing.names : Listing → List Str
  | .nil => []
  | .file a _ rest => a :: rest.names
  | .dir a _ rest => a :: rest.names
  | .other a rest => a :: rest.names

/-- `is_virtual_tent`, src/tup/db.c:5349-5360; `DOT_DT` is 1. -/
def isVirtual (n : Node) : Bool :=
  decide (n.dir = 1) && (decide (n.name = ['$']) || decide (n.name = ['/']) || decide (n.name = ['^']))

/-- `tup_entry_get_dir_tree`, src/tup/entry.c:655-668: the entries of a directory that should be on the disk.  The code goes
through the entries in memory, which are the files and directories of the database (`load_existing_nodes`,
src/tup/db.c:5379-5466); nodes of other types that happen to be in memory are groups, for which `tup_file_missing` does
nothing. -/
def dirTree (db : Db) (d : Nat) : List Nat :=
  (List.range db.top).filter fun i =>
    match db.node i with
    | some n => decide (n.dir = d) && !isVirtual n &&
        (decide (n.kind = .file) || decide (n.kind = .dir) || decide (n.kind = .generated) || decide (n.kind = .generatedDir))
    | none => false

/-- `tup_entry_find_name_in_dir` and `tupid_tree_remove`, src/tup/path.c:112-116: this entry is on the disk. -/
def strike (db : Db) (d : Nat) (name : Str) (root : List Nat) : List Nat :=
  match db.select d name with
  | some j => root.filter fun i => decide (i ≠ j)
  | none => root

/-- The last loop of `watch_path_internal`, src/tup/path.c:130-141: these entries are not on the disk.  The code takes them in an
order that depends on how the tree has been built. -/
def missing (sort : List (Nat × Kind) → List (Nat × Kind)) (fuel : Nat) : Db → List Nat → Option Db
  | db, [] => some db
  | db, i :: l =>
    match fileMissing sort fuel db i with
    | some db => missing sort fuel db l
    | none => none

/-- `watch_path_internal`, src/tup/path.c:42-147, for the things in the directory `d` one after the other (the loop of
109-123), with `root`, the entries of `d` that have not been found yet.  `sort` and `order` are the orders in which SQLite
returns entries, and in which the tree of missing entries is emptied; `fuel` bounds the depth of the recursion in
`tup_del_id_type` (`none`: it is too small, or there is an error).  The callback of the monitor is not modelled, and no file
changes or goes away during the scan. -/
def watch (sort : List (Nat × Kind) → List (Nat × Kind)) (order : List Nat → List Nat) (fuel : Nat) :
    Db → Nat → List Nat → Listing → Option (Db × List Nat)
  | db, _, root, .nil => some (db, root)
  | db, d, root, .file name t rest =>
    if Pel.ignored name then watch sort order fuel db d (strike db d name root) rest
    else
      match fileMod sort fuel db d name t false false with
      | some (db', _, _) => watch sort order fuel db' d (strike db d name root) rest
      | none => none
  | db, d, root, .dir name sub rest =>
    if Pel.ignored name then watch sort order fuel db d (strike db d name root) rest
    else
      match Links.createNode sort fuel db d name .dir none false with
      | none => none
      | some (db1, k) =>
        match watch sort order fuel db1 k (dirTree db1 k) sub with
        | none => none
        | some (db2, left) =>
          match missing sort fuel db2 (order left) with
          | none => none
          | some db3 => watch sort order fuel db3 d (strike db d name root) rest
  | db, d, root, .other name rest => watch sort order fuel db d (strike db d name root) rest

/-- `tup_scan`, src/tup/path.c:316-327, with `watch_path(0, ".")`: the scan of the directory of the project, which has the id 1
(`DOT_DT`).  The files outside of the project (`scan_full_deps`, 277-314) are not modelled. -/
def scan (sort : List (Nat × Kind) → List (Nat × Kind)) (order : List Nat → List Nat) (fuel : Nat) (db : Db) (l : Listing) :
    Option Db :=
  match watch sort order fuel db 1 (dirTree db 1) l with
  | none => none
  | some (db, left) => missing sort fuel db (order left)

end Tup.FullScan
