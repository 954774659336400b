import Verif.Db.Model

/-!
Model of what tup does when it finds that a file is new, has changed, or is gone: src/tup/create_name_file.c:44-500,
737-754, and the parts of src/tup/db.c that it uses.  Variants (build directories with a `tup.config`) are not
modelled: there is only the root variant.  Warnings are not modelled.
-/

namespace Tup.Scan

open Db

/-- `TUP_CONFIG`, src/tup/config.h. -/
def tupConfig : Str := "tup.config".toList
def gitignore : Str := ".gitignore".toList
def tupfile : Str := "Tupfile".toList

/-- `tup_db_set_srcid_dir_flags`, src/tup/db.c:4243-4317: the directories whose Tupfiles write into this one are
parsed again.  A generated node always has a `srcid` (it is made with one, parser.c); one without would be an error
in the code and is skipped here. -/
def srcidDirFlags (db : Db) (d : Nat) : Db :=
  { db with create := fun s => db.create s ||
      (db.isKind .dir s && decide (s ≠ d) &&
        db.anyNode fun _ n => decide (n.dir = d) && decide (n.kind = .generated) && decide (n.src = some s)) }

/-- `get_dir_entries`, src/tup/db.c:3204-3260, in some order. -/
def entries (db : Db) (d : Nat) : List (Nat × Kind) :=
  (List.range db.top).filterMap fun i =>
    match db.node i with
    | some n => if n.dir = d then some (i, n.kind) else none
    | none => none

/-- The loops in `tup_db_delete_dir` and `tup_db_flag_generated_dir`, src/tup/db.c:1637-1653, 1688-1695. -/
def eachEntry (f : Db → Nat → Kind → Option Db) : Db → List (Nat × Kind) → Option Db
  | db, [] => some db
  | db, (i, k) :: l =>
    match f db i k with
    | some db => eachEntry f db l
    | none => none

/-- The end of `tup_del_id_type`, src/tup/create_name_file.c:464-487, for a file or generated file. -/
def delFile (db : Db) (i : Nat) (n : Node) (kind : Kind) (force : Bool) : Db :=
  let db := if kind = .file then db.dependentFlags i else db
  let db := db.modifyByInput i
  let db := if force then db else db.addCreate n.dir
  db.deleteNameFile i

/-- The directories that read the `Tupfile` of directory `i` are parsed again, src/tup/create_name_file.c:383-389. -/
def tupfileReaders (db : Db) (i : Nat) : Db :=
  match db.select i tupfile with
  | some t => db.createByInput t
  | none => db

/-- The middle of `tup_del_id_type`, src/tup/create_name_file.c:383-408 and 464-467, 485, for a directory whose entries
have been dealt with. -/
def delDir (db : Db) (i : Nat) (n : Node) : Db :=
  let db := tupfileReaders db i
  let db := if db.isKind .dir n.dir then db.addCreate n.dir else db
  (db.dependentFlags i).deleteNameFile i

/-- A generated file that is missing, src/tup/create_name_file.c:416-460. -/
def missingGenerated (db : Db) (i : Nat) (n : Node) : Db :=
  if n.name = gitignore then db.addCreate n.dir
  else (db.modifyByOutput i).unflagModify i

/-- `tup_del_id_type`, src/tup/create_name_file.c:319-489, with `tup_db_delete_dir` (db.c:1622-1656) and
`tup_db_flag_generated_dir` (1658-1697), which call it again for what is in the directory.  `sort` is the order in
which SQLite returns the entries.  `none`: the recursion is deeper than the first argument, or the node does not
exist. -/
def del (sort : List (Nat × Kind) → List (Nat × Kind)) : Nat → Db → Nat → Kind → Bool → Option Db
  | 0, _, _, _, _ => none
  | fuel + 1, db, i, kind, force =>
    match db.node i with
    | none => none
    | some n =>
      if n.name = tupConfig then some ((db.setKind i .ghost).addConfig i)
      else
        match kind with
        | .ghost => some db
        | .group => some db
        | .generatedDir =>
          let db := if force then ((srcidDirFlags db i).setKind i .ghost).addGhost i else db
          eachEntry (fun db j k => del sort fuel db j k force) db (sort (entries db i))
        | .dir =>
          let db := srcidDirFlags db i
          match eachEntry (fun db j k => del sort fuel db j k (force || decide (k ≠ .dir))) db (sort (entries db i)) with
          | some db => some (delDir db i n)
          | none => none
        | .generated => if force then some (delFile db i n kind force) else some (missingGenerated db i n)
        | .file => some (delFile db i n kind force)
        | _ => some (db.deleteNameFile i)

/-- The loop of `make_dirs_normal`, src/tup/create_name_file.c:72-81; the result is the first parent that is not a
generated directory. -/
def normalLoop : Nat → Db → Nat → Option (Db × Nat)
  | 0, _, _ => none
  | fuel + 1, db, d =>
    match db.node d with
    | none => some (db, d)
    | some n => if n.kind = .generatedDir then normalLoop fuel ((db.setKind d .dir).delGhost d) n.dir else some (db, d)

/-- `make_dirs_normal`, src/tup/create_name_file.c:72-95. -/
def makeDirsNormal (fuel : Nat) (db : Db) (d : Nat) : Option Db :=
  match normalLoop fuel db d with
  | none => none
  | some (db, d) =>
    match db.select d gitignore with
    | some g => some (if db.isKind .generated g then db.addCreate d else db)
    | none => some db

/-- `create_name_file`, src/tup/create_name_file.c:44-57. -/
def createNameFile (fuel : Nat) (db : Db) (d : Nat) (file : Str) (mtime : Int × Int) : Option (Db × Nat) :=
  let (db, i) := db.insertNode { dir := d, kind := .file, name := file, mtime := mtime }
  match makeDirsNormal fuel (db.addCreate d) d with
  | some db => some (db, i)
  | none => none

/-- `ghost_to_file`, src/tup/create_name_file.c:737-750. -/
def ghostToFile (db : Db) (i : Nat) (d : Nat) : Db :=
  let db := (db.delGhost i).setKind i .file
  let db := if db.isKind .dir d then db.addCreate d else db
  db.addModify i

/-- The flags for a file that has changed, src/tup/create_name_file.c:172-196. -/
def changedFile (db : Db) (i : Nat) (mtime : Int × Int) : Db :=
  let db := if db.isKind .generated i then db.modifyByOutput i else db
  ((db.addModify i).dependentFlags i).setMtime i mtime

/-- The end of `tup_file_mod_mtime`, src/tup/create_name_file.c:199-209. -/
def configFlag (db : Db) (file : Str) (i : Nat) (b : Bool) : Db :=
  if b && decide (file = tupConfig) then db.addConfig i else db

/-- The change of an entry that is there, from line 172 on, after it has become a file. -/
def finish (db : Db) (file : Str) (i : Nat) (mtime : Int × Int) (changed : Bool) : Db × Nat × Bool :=
  let db := if changed then changedFile db i mtime else db
  (configFlag db file i changed, i, changed)

/-- `tup_file_mod_mtime`, src/tup/create_name_file.c:118-212: the file exists and has this time.  The result is the
database, the id, and `*modified`. -/
def fileMod (sort : List (Nat × Kind) → List (Nat × Kind)) (fuel : Nat) (db : Db) (d : Nat) (file : Str)
    (mtime : Int × Int) (force ignoreGenerated : Bool) : Option (Db × Nat × Bool) :=
  match db.select d file with
  | none =>
    match createNameFile fuel db d file mtime with
    | some (db, i) => some (configFlag db file i true, i, true)
    | none => none
  | some i =>
    match db.node i with
    | none => none
    | some n =>
      let force := force && !(ignoreGenerated && decide (n.kind = .generated))
      let changed := decide (n.mtime ≠ mtime) || force
      match n.kind with
      | .ghost => some (finish (ghostToFile db i n.dir) file i mtime changed)
      | .file => some (finish db file i mtime changed)
      | .generated => some (finish db file i mtime changed)
      | k =>
        match del sort fuel db i k true with
        | none => none
        | some db =>
          match db.select d file with
          | none =>
            match createNameFile fuel db d file mtime with
            | none => none
            | some (db, j) =>
              let db := if changed then changedFile db j mtime else db
              some (configFlag db file j true, j, true)
          | some j =>
            if db.isKind .ghost j then some (finish (ghostToFile db j d) file j mtime changed)
            else none

/-- `tup_file_missing`, src/tup/create_name_file.c:263-285 (without variants): the file of a node is gone. -/
def fileMissing (sort : List (Nat × Kind) → List (Nat × Kind)) (fuel : Nat) (db : Db) (i : Nat) : Option Db :=
  match db.node i with
  | some n => del sort fuel db i n.kind false
  | none => none

end Tup.Scan
