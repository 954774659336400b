import Verif.Db.Model

/-!
Model of how tup follows files outside of the project when the option `updater.full_deps` is set: the scan of the part
of the database that lies below the virtual directory `/` (src/tup/path.c:170-327), the entries that are made for
outside files that a command has read (src/tup/create_name_file.c:561-713, src/tup/file.c:334-401), and what happens
when the option is switched on or off (src/tup/updater.c:586-609, src/tup/db.c:1782-1824, 2439-2482).

The disk is a set of objects with numbers (inodes).  Only names in directories that can be searched are looked up, so
that a name that is not found does not exist (`ENOENT`, `ENOTDIR`); a symbolic link leads to an object or to nothing
(loops of links are not modelled).  Windows is not modelled (`is_full_path` in path.c:209 is false for a name without
a slash).
-/

namespace Tup.External

open Tup.Db

/-- A time as `stat` reports it, seconds and nanoseconds (on Linux the time of the last change, compat.h:62). -/
abbrev Time := Int × Int

/-- `INVALID_MTIME`, src/tup/db.c:152. -/
def gone : Time := (-1, 0)

/-- `EXTERNAL_DIRECTORY_MTIME`, src/tup/db.c:153. -/
def dirTime : Time := (0, 0)

/-- What `fstatat` with `AT_SYMLINK_NOFOLLOW` tells: the type of the object, and the time unless it is a directory. -/
inductive Obj where
  | dir
  | file (t : Time)
  | link (t : Time)
deriving DecidableEq, Repr

/-- A disk: the object `/`, the entries of the directories, the objects, what each symbolic link leads to in the end
(`none`: nothing), and whether tup may open the object for reading. -/
structure Disk where
  root : Nat
  entry : Nat → Str → Option Nat
  obj : Nat → Obj
  target : Nat → Option Nat
  may : Nat → Bool

variable (d : Disk)

/-- The object with that name in a directory: `fstatat(dfd, name, …, AT_SYMLINK_NOFOLLOW)`.  Nothing is found in an
object that is not a directory (`ENOTDIR`). -/
def Disk.lookup (i : Nat) (name : Str) : Option Nat :=
  if d.obj i = .dir then d.entry i name else none

/-- The object after symbolic links have been followed: `fstatat(dfd, name, …, 0)`, `openat`. -/
def Disk.follow (j : Nat) : Option Nat :=
  match d.obj j with
  | .link _ => d.target j
  | _ => some j

/-- `S_ISDIR` of `fstatat(dfd, name, …, 0)`. -/
def Disk.isDir (i : Nat) (name : Str) : Bool :=
  match d.lookup i name with
  | none => false
  | some j =>
    match d.follow j with
    | none => false
    | some k => decide (d.obj k = .dir)

/-- What `openat(dfd, name, O_RDONLY)` can give: a descriptor, `ENOENT` or `ENOTDIR`, or `EACCES`. -/
inductive Open where
  | fd (i : Nat)
  | absent
  | denied
deriving DecidableEq, Repr

/-- `openat(dfd, name, O_RDONLY)`. -/
def Disk.openat (i : Nat) (name : Str) : Open :=
  match d.lookup i name with
  | none => .absent
  | some j =>
    match d.follow j with
    | none => .absent
    | some k => if d.may k then .fd k else .denied

/-- The time that is stored for an object, src/tup/path.c:222-242 and src/tup/create_name_file.c:694-702. -/
def Obj.time : Obj → Time
  | .dir => dirTime
  | .file t => t
  | .link t => t

/-- What `full_scan_dir` finds out about one entry, src/tup/path.c:199-256: the time, the descriptor for the
directory behind it (`none`: -1), and `scan_subdir`. -/
def look (dfd : Option Nat) (name : Str) : Time × Option Nat × Bool :=
  match dfd with
  | none => (gone, none, false)
  | some i =>
    match d.lookup i name with
    | none => (gone, none, false)
    | some j =>
      if d.obj j = .dir ∨ d.isDir i name = true then
        ((d.obj j).time, (match d.openat i name with | .fd k => some k | _ => none), true)
      else ((d.obj j).time, none, false)

/-- `tup_db_select_node_dir`, src/tup/db.c:1320-1385, statement 1326: the nodes in a directory, in some order. -/
def children (db : Db) (dt : Nat) : List Nat :=
  (List.range db.top).filter fun i =>
    match db.node i with
    | some n => decide (n.dir = dt)
    | none => false

/-- The part of `full_scan_dir` for an entry whose time differs, src/tup/path.c:261-272. -/
def touch (db : Db) (i : Nat) (t : Time) : Db := ((db.modifyByInput i).dependentFlags i).setMtime i t

/-- The loop of `full_scan_dir`, src/tup/path.c:197-283.  The whole scan uses one list, `full`; new cells are only
put at its head, so that the cells behind the current one, `rest`, stay what they are.  `scan` is the call of
`full_scan_dir` itself.  An entry that is not in the database cannot be in the list (`none`). -/
def loop (scan : Db → List Nat → Option Nat → Nat → Option (Db × List Nat)) (dfd : Option Nat) (dt : Nat) :
    Db → List Nat → List Nat → Option (Db × List Nat)
  | db, full, [] => some (db, full)
  | db, full, i :: rest =>
    match db.node i with
    | none => none
    | some n =>
      if n.dir ≠ dt then some (db, full)
      else
        let (t, fd, sub) := look d dfd n.name
        let changed := decide (n.mtime ≠ t)
        let db := if changed then touch db i t else db
        if changed || sub then
          match scan db full fd i with
          | none => none
          | some (db, full) => loop scan dfd dt db full rest
        else loop scan dfd dt db full rest

/-- `full_scan_dir`, src/tup/path.c:179-285, with `full_scan_cb` (170-177) that puts an entry at the head of the list.
`sort` is the order in which SQLite returns the entries.  `none`: the recursion is deeper than the first argument, or
an entry is not in the database.  The code that closes descriptors is left out. -/
def scanDir (sort : List Nat → List Nat) : Nat → Db → List Nat → Option Nat → Nat → Option (Db × List Nat)
  | 0, _, _, _, _ => none
  | fuel + 1, db, l, dfd, dt =>
    let full := (sort (children db dt)).foldl (fun l i => i :: l) l
    loop d (scanDir sort fuel) dfd dt db full full

/-- `scan_full_deps`, src/tup/path.c:287-314, for the option `updater.full_deps` and the id of the virtual directory
`/`.  `none`: the scan fails, since `/` cannot be opened. -/
def scanFullDeps (sort : List Nat → List Nat) (fullDeps : Bool) (slash : Nat) (db : Db) : Option Db :=
  if fullDeps then
    if d.may d.root then (scanDir d sort (db.top + 1) db [] (some d.root) slash).map (·.1) else none
  else some db

/-- `tup_entry_open` for an entry below `/`, src/tup/entry.c:354-394: each directory on the way is opened.  Simplified:
`path` are the names of the entry and its parents, which the code takes from the entries; a generated directory,
which the code would create, does not occur below `/`. -/
def openPath : Nat → List Str → Open
  | i, [] => .fd i
  | i, name :: path =>
    match d.openat i name with
    | .fd k => openPath k path
    | r => r

/-- `get_outside_tup_mtime`, src/tup/create_name_file.c:664-713.  `none` is the error, when a directory on the way
exists but cannot be opened. -/
def outsideMtime (parent : List Str) (name : Str) : Option Time :=
  if d.may d.root then
    match openPath d d.root parent with
    | .denied => none
    | .absent => some gone
    | .fd i =>
      match d.lookup i name with
      | none => some gone
      | some j => some (d.obj j).time
  else none

/-- One element of a path outside of the project: the loop in `find_dir_tupid_dt_pg`, src/tup/create_name_file.c:603-657
with `SOTGV_CREATE_GHOSTS`, and the last element in `add_node_to_tree`, src/tup/file.c:359-379.  The node with that
name in the directory `cur` (whose own path is `parent`), which is made if there is none. -/
def addElement (db : Db) (cur : Nat) (parent : List Str) (name : Str) : Option (Db × Nat) :=
  match db.select cur name with
  | some i => some (db, i)
  | none =>
    match outsideMtime d parent name with
    | none => none
    | some t => some (db.insertNode { dir := cur, kind := .ghost, name, mtime := t })

/-- All elements of the path from the directory `cur` on. -/
def addElements : Db → Nat → List Str → List Str → Option (Db × Nat)
  | db, cur, _, [] => some (db, cur)
  | db, cur, parent, name :: path =>
    match addElement d db cur parent name with
    | none => none
    | some (db, i) => addElements db i (parent ++ [name]) path

/-- `add_node_to_tree`, src/tup/file.c:334-401, for a path outside of the project, given as its names (normalised,
so without `.` and `..`; C11).  The result is the database and the node that becomes an input of the command, which
none does if it is a directory or has time 0. -/
def addNode (fullDeps : Bool) (slash : Nat) (db : Db) (path : List Str) : Option (Db × Option Nat) :=
  if fullDeps then
    match path with
    | [] => some (db, none)
    | _ :: _ =>
      match addElements d db slash [] path with
      | none => none
      | some (db, i) =>
        match db.node i with
        | none => none
        | some n =>
          if n.kind = .dir ∨ n.kind = .generatedDir ∨ n.mtime.1 = 0 then some (db, none) else some (db, some i)
  else some (db, none)

/-- `tup_db_rebuild_all`, src/tup/db.c:2439-2473, statement 2443. -/
def rebuildAll (db : Db) : Db := { db with modify := fun i => db.modify i || db.isKind .cmd i }

/-- `delete_node`, src/tup/db.c:1582-1620, with the removal from the cache. -/
def dropNode (db : Db) (i : Nat) : Db := { db with node := fun j => if j = i then none else db.node j }

/-- The loop of `recurse_delete_ghost_tree`, src/tup/db.c:1809-1822. -/
def dropAll (drop : Db → Nat → Option Db) : Db → List Nat → Option Db
  | db, [] => some db
  | db, i :: l =>
    match db.node i with
    | none => none
    | some n =>
      if n.kind ≠ .ghost then none
      else
        match drop db i with
        | none => none
        | some db => dropAll drop (dropNode db i) l

/-- `recurse_delete_ghost_tree(tupid, 0)`, src/tup/db.c:1782-1824.  `none`: an entry is not a ghost, which is an
internal error, or the recursion is deeper than the first argument. -/
def dropTree (sort : List Nat → List Nat) : Nat → Db → Nat → Option Db
  | 0, _, _ => none
  | fuel + 1, db, i =>
    let l := sort (children db i)
    dropAll (dropTree sort fuel) (db.deleteLinks i) l

/-- `check_full_deps_rebuild`, src/tup/updater.c:586-609, with `tup_db_delete_slash` (db.c:2475-2482).  `old` is the
value stored in the database (-1 if there is none), `new` the option; the result is the database and the value that is
stored now. -/
def checkFullDeps (sort : List Nat → List Nat) (slash : Nat) (db : Db) (old : Int) (new : Bool) :
    Option (Db × Int) :=
  let val : Int := if new then 1 else 0
  if old = 0 ∧ new = true then some (rebuildAll db, val)
  else if old = 1 ∧ new = false then (dropTree sort (db.top + 1) db slash).map (·, val)
  else some (db, val)

end Tup.External
