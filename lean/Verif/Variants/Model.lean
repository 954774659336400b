/-!
Which variants are in use: the processing of the list of changed `tup.config` files at the beginning of an update.
src/tup/updater.c:796-1150, src/tup/variant.c:36-150, src/tup/db.c:1048-1066, src/tup/create_name_file.c:199-230.

A node `tup.config` is identified by its directory.  Directory 1 is the top of the project; its variant is the build in the tree itself.
Not modelled: the variables in the files (C15, C16), the nodes and files of the trees that are deleted or made, moves of directories by the monitor,
and the programs `tup generate` and `tup parse`, which make variants of their own.
-/

namespace Tup.Variants

/-- `DOT_DT`, src/tup/db.h. -/
def dot : Nat := 1

/-- The tables, as far as they matter here: is the node `tup.config` of a directory there and not a ghost; is the directory one, and not a ghost; the tables
`config_list` and `variant_list`, src/tup/db.c:319-322.  `nested` are the directories that are not directly in the top of the project. -/
structure Db where
  file : Nat → Bool
  dir : Nat → Bool
  nested : Nat → Bool
  flag : List Nat
  var : List Nat

/-- `insert or ignore`, src/tup/db.c:2648, 2806. -/
def insert (d : Nat) (l : List Nat) : List Nat := if d ∈ l then l else d :: l

/-- `delete from ... where id=?`, src/tup/db.c:3018, 3134. -/
def delete (d : Nat) (l : List Nat) : List Nat := l.filter fun e => !decide (e = d)

/-- `variant_list` in memory, src/tup/variant.c:31: the directory and whether it is enabled. -/
abbrev Loaded := List (Nat × Bool)

/-- `variant_load` with `load_cb`, src/tup/variant.c:36-50.  `ord` is the order of the table in the list. -/
def load (ord : List Nat → List Nat) (db : Db) : Loaded := (ord db.var).map fun d => (d, true)

/-- `variant_search`, src/tup/variant.c:149-157. -/
def search (d : Nat) (l : Loaded) : Option Bool := (l.find? fun v => decide (v.1 = d)).map Prod.snd

/-- `variant_rm`, src/tup/variant.c:118-140.  The file with the variables, which is unlinked, is not modelled. -/
def remove (d : Nat) (l : Loaded) : Loaded := l.filter fun v => !decide (v.1 = d)

/-- What the scan or the monitor may see. -/
inductive Event where
  | write (d : Nat)
  | unlink (d : Nat)
  | mkdir (d : Nat)
  | rmdir (d : Nat)
deriving DecidableEq

/-- A tup.config was deleted: `check_rm_tup_config`, src/tup/create_name_file.c:214-230. -/
def unlinked (d : Nat) (db : Db) : Db :=
  if db.file d then { db with file := fun e => db.file e && !decide (e = d), flag := insert d db.flag } else db

/-- A tup.config was created or changed, src/tup/create_name_file.c:199-209; it was deleted; a directory was found where there was a ghost, or nothing
(src/tup/db.c:1048-1066: if it is that of a loaded variant the variant is removed from the list in memory); a directory was removed, with all that was in it
(`tup_del_id_type`, src/tup/create_name_file.c:319-489).  An event that cannot happen does nothing. -/
def event : Event → Db × Loaded → Db × Loaded
  | .write d, (db, l) =>
    if db.dir d then ({ db with file := fun e => db.file e || decide (e = d), flag := insert d db.flag }, l) else (db, l)
  | .unlink d, (db, l) => (unlinked d db, l)
  | .mkdir d, (db, l) =>
    if db.dir d then (db, l)
    else ({ db with dir := fun e => db.dir e || decide (e = d) }, remove d l)
  | .rmdir d, (db, l) =>
    if d = dot then (db, l)
    else ({ unlinked d db with dir := fun e => db.dir e && !decide (e = d) }, l)

/-- A scan, or the work of the monitor. -/
def scan (evs : List Event) (s : Db × Loaded) : Db × Loaded := evs.foldl (fun s e => event e s) s

/-- The variables of `process_config_nodes`, and `g.node_list` (`fresh`).  `gone` are the variants whose trees were deleted. -/
structure State where
  db : Db
  loaded : Loaded
  removed : Bool := false
  new : Bool := false
  fresh : List Nat := []
  gone : List Nat := []

/-- The first loop, src/tup/updater.c:929-943: `using_variants` and `using_in_tree`. -/
def inUse (file : Nat → Bool) : Loaded → Bool × Bool
  | [] => (false, false)
  | (d, _) :: l =>
    if d = dot then (false, true)
    else if file d then (true, false)
    else inUse file l

/-- One round of the main loop, src/tup/updater.c:952-1081.  `ok` says for which files what is done about them succeeds: `recurse_delete_variant`, or `check_empty_variant`,
`delete_variant_dirs` and `tup_db_read_vars`.  `none`: the update fails.  For a variant that is in the list but not enabled, `variant_enable` would put it there a second
time and fail (src/tup/variant.c:142-148, 52-66). -/
def process (ok : Nat → Bool) (d : Nat) (s : State) : Option State :=
  if !ok d then none
  else if !s.db.file d && decide (d ≠ dot) then
    match search d s.loaded with
    | some _ =>
      if s.db.nested d then
        some { s with loaded := remove d s.loaded, removed := true, db := { s.db with flag := delete d s.db.flag } }
      else
        some { s with loaded := remove d s.loaded, removed := true, gone := d :: s.gone,
                      db := { s.db with flag := delete d s.db.flag, var := delete d s.db.var } }
    | none => some { s with db := { s.db with flag := delete d s.db.flag } }
  else
    match search d s.loaded with
    | none =>
      some { s with loaded := (d, true) :: s.loaded, new := s.new || decide (d ≠ dot), fresh := d :: s.fresh,
                    db := { s.db with flag := delete d s.db.flag, var := insert d s.db.var } }
    | some true => some { s with db := { s.db with flag := delete d s.db.flag } }
    | some false => none

/-- The main loop. -/
def processAll (ok : Nat → Bool) : List Nat → State → Option State
  | [], s => some s
  | d :: l, s =>
    match process ok d s with
    | none => none
    | some s => processAll ok l s

/-- What the update does. -/
structure Result where
  db : Db
  loaded : Loaded
  deleteInTree : Bool
  reparse : Bool
  duplicated : List Nat
  gone : List Nat

/-- After the loop, src/tup/updater.c:1097-1140. -/
def conclude (using_ inTree : Bool) (s : State) : Result :=
  let reparse := !using_ && s.removed
  let dup := s.fresh.filter fun d => decide (d ≠ dot)
  match search dot s.loaded with
  | none =>
    { db := if s.loaded.isEmpty then { s.db with var := insert dot s.db.var } else s.db,
      loaded := (dot, s.loaded.isEmpty) :: s.loaded, deleteInTree := false, reparse := reparse, duplicated := dup, gone := s.gone }
  | some _ =>
    if using_ || s.new then
      { db := { s.db with var := delete dot s.db.var }, loaded := s.loaded.map fun v => if v.1 = dot then (dot, false) else v,
        deleteInTree := inTree && s.new, reparse := reparse, duplicated := dup, gone := s.gone }
    else { db := s.db, loaded := s.loaded, deleteInTree := inTree && s.new, reparse := reparse, duplicated := dup, gone := s.gone }

/-- `process_config_nodes`, src/tup/updater.c:895-1150, without the environment.  `ord` is the order of the list of changed files. -/
def config (ord : List Nat → List Nat) (ok : Nat → Bool) (s : Db × Loaded) : Option Result :=
  match processAll ok (ord s.1.flag) { db := s.1, loaded := s.2 } with
  | none => none
  | some t => some (conclude (inUse s.1.file s.2).1 (inUse s.1.file s.2).2 t)

/-- An update: the variants are loaded (src/tup/db.c:5363-5371, updater.c:638-648), the files are scanned, and the list of changed files is processed. -/
def update (ord ord' : List Nat → List Nat) (ok : Nat → Bool) (evs : List Event) (db : Db) : Option Result :=
  config ord' ok (scan evs (db, load ord db))

end Tup.Variants
