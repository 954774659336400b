import Verif.Scan.Model
import Verif.Ghosts.Model
import Verif.Links.Create

/-!
Model of the directories that are there only for outputs: how they come up (src/tup/create_name_file.c:561-660), when a directory of the user turns into one
(src/tup/updater.c:1550-1592, src/tup/db.c:3712-3721, 3942-4093) and back (`make_dirs_normal`, in `Verif/Scan`), and how they are made and removed on the disk (src/tup/entry.c:353-391, src/tup/db.c:1500-1526, 7080-7148).
-/

namespace Tup.GenDir

open Tup.Db

/-- An element `..` of a path, src/tup/create_name_file.c:597. -/
def dotdot : Str := ['.', '.']

/-- The loop of `find_dir_tupid_dt_pg` with `SOTGV_CREATE_DIRS`, src/tup/create_name_file.c:595-657: the directory of an output, from directory `d`, where `path` are the elements before the last.
`none` is an error: "Unable to output to a different directory because … is a …" (629-634), or a path that leads out of the project (598-611, which the caller makes an error,
src/tup/parser.c:2518-2523). -/
def outDir : Db → Nat → List Str → Option (Db × Nat)
  | db, d, [] => some (db, d)
  | db, d, a :: path =>
    if a = dotdot then
      match db.node d with
      | none => none
      | some n => if (db.node n.dir).isSome then outDir db n.dir path else none
    else
      match db.select d a with
      | some j =>
        if db.isKind .ghost j then outDir ((db.setKind j .generatedDir).addModify j) j path
        else if db.isKind .dir j || db.isKind .generatedDir j then outDir db j path
        else none
      | none =>
        let (db, j) := db.insertNode { dir := d, kind := .generatedDir, name := a }
        outDir db j path

/-- `tup_db_is_generated_dir`, src/tup/db.c:4072-4093, with the statements 3947 and 4012 of `is_generated_dir1` and `is_generated_dir2`: there is no file or directory of the user in it, and there is a file
that the Tupfile of another directory makes, or a generated directory. -/
def isGeneratedDir (db : Db) (d : Nat) : Bool :=
  (!db.anyNode fun _ n => decide (n.dir = d) && (decide (n.kind = .file) || decide (n.kind = .dir))) &&
    db.anyNode fun _ n => decide (n.dir = d) && decide (n.src ≠ some d) && (decide (n.kind = .generated) || decide (n.kind = .generatedDir))

/-- `tup_db_normal_dir_to_generated`, src/tup/db.c:3712-3721: `add_ghost_checks` (7049-7054), `delete_normal_links` (3488-3530), and the type. -/
def toGenerated (db : Db) (d : Nat) : Db :=
  ({ db with
      ghosts := fun j => db.ghosts j || (db.normal j d && db.ghosty j)
      normal := fun a b => db.normal a b && !decide (a = d) && !decide (b = d) } : Db).setKind d .generatedDir

/-- The state of the loop in `process_create_nodes`: the database, `normal_dir_root`, `parse_gitignore_root` and what is put into `gen_delete_root`, src/tup/updater.c:1551-1592. -/
structure Conv where
  db : Db
  todo : Nat → Bool
  ignores : Nat → Bool
  deletes : Nat → Bool

/-- What one round of the loop can do.  A directory without a parent gives a null pointer that `tent_tree_add_dup` follows, src/tup/updater.c:1573. -/
inductive Round where
  | done (s : Conv)
  | crash
  | next (s : Conv)

/-- The `.gitignore` that tup made in that directory, src/tup/updater.c:1584-1590. -/
def madeIgnore (db : Db) (d : Nat) : Option Nat :=
  match db.select d Tup.Scan.gitignore with
  | some g => if db.isKind .generated g then some g else none
  | none => none

/-- One round of the loop, src/tup/updater.c:1553-1592, with the first directory in `normal_dir_root`.  The text that `remove_tup_gitignore` takes out of the `.gitignore` (1588) is in `Verif/Gitignore`; it is supposed
to succeed. -/
def round (s : Conv) : Round :=
  match (List.range s.db.top).find? s.todo with
  | none => .done s
  | some d =>
    let todo := fun j => s.todo j && !decide (j = d)
    if isGeneratedDir s.db d then
      match s.db.node d with
      | none => .crash
      | some n =>
        if (s.db.node n.dir).isSome then
          .next {
            db := toGenerated s.db d
            todo := fun j => todo j || decide (j = n.dir)
            ignores := fun j => s.ignores j || decide (j = n.dir)
            deletes := fun j => s.deletes j || decide (madeIgnore s.db d = some j) }
        else .crash
    else .next { s with todo := todo }

/-- The loop, for at most that many rounds; `none`: more are needed. -/
def loop : Nat → Conv → Option Round
  | 0, _ => none
  | k + 1, s =>
    match round s with
    | .next s => loop k s
    | r => some r

/-- The loop, src/tup/updater.c:1551-1592, after the directories in `parsed` have been parsed (src/tup/parser.c:192-198). -/
def Converts (db : Db) (parsed : Nat → Bool) (s : Conv) : Prop :=
  ∃ k, loop k ⟨db, parsed, fun _ => false, fun _ => false⟩ = some (.done s)

/-- What is on the disk, as far as the database has a node for it: `place j` is the directory in which the file or directory of node `j` is, if it is there; `other d` says that something that tup does not know is in
directory `d`: an ignored name, a socket, a pipe (src/tup/path.c:117-120, 152-155).  Simplified: what is there for a node of a directory is a directory. -/
structure Disk where
  place : Nat → Option Nat
  other : Nat → Bool

/-- `entry_openat_internal`, src/tup/entry.c:353-391: a generated directory that is missing is made. -/
def openDir : Nat → Db → Disk → Nat → Option Disk
  | 0, _, _, _ => none
  | fuel + 1, db, disk, i =>
    match db.node i with
    | none => none
    | some n =>
      if i = 1 then some disk
      else
        match openDir fuel db disk n.dir with
        | none => none
        | some disk =>
          if (disk.place i).isSome then some disk
          else if n.kind = .generatedDir then some { disk with place := fun j => if j = i then some n.dir else disk.place j }
          else none

/-- `rm_generated_dir`, src/tup/db.c:1500-1526; `unlinkat` fails if the directory is not empty. -/
def rmDir (fuel : Nat) (db : Db) (disk : Disk) (i : Nat) (n : Node) : Option Disk :=
  if n.kind = .generatedDir then
    match openDir fuel db disk n.dir with
    | none => none
    | some disk =>
      if (disk.place i).isSome then
        if disk.other i || Ghosts.anyId db fun j => decide (disk.place j = some i) then none
        else some { disk with place := fun j => if j = i then none else disk.place j }
      else some disk
  else some disk

/-- The entry that a round of `reclaim_ghosts` removes, src/tup/db.c:7100-7122. -/
def target (ex : Nat) (db : Db) : Option (Nat × Node) :=
  match (List.range db.top).find? db.ghosts with
  | none => none
  | some i =>
    match db.node i with
    | none => none
    | some n => if Ghosts.reclaimable ex (db.delGhost i) i n && decide (n.name ≠ Ghosts.tupConfig) then some (i, n) else none

/-- What a round does to the disk, src/tup/db.c:7133-7134.  The second call from `tup_db_delete_node` (1571) finds nothing to do. -/
def diskRound (ex fuel : Nat) (db : Db) (disk : Disk) : Option Disk :=
  match target ex db with
  | none => some disk
  | some (i, n) => rmDir fuel db disk i n

/-- `reclaim_ghosts`, src/tup/db.c:7080-7148, with the directories on the disk: the loop for at most so many rounds (`none`: more are needed); `some none` is an error, after which `tup_db_commit` does not commit (778-779). -/
def reclaim (ex fuel : Nat) : Nat → Db → Disk → (Nat → Bool) → Option (Option (Db × Disk))
  | 0, _, _, _ => none
  | k + 1, db, disk, tmp =>
    match Ghosts.round ex db tmp with
    | .done db => some (some (db, disk))
    | .internalError => some none
    | .next db' tmp' =>
      match diskRound ex fuel db disk with
      | none => some none
      | some disk' => reclaim ex fuel k db' disk' tmp'

/-- The whole of `reclaim_ghosts`, src/tup/db.c:7080-7148: `none` is an error. -/
def Ends (ex fuel : Nat) (db : Db) (disk : Disk) (r : Option (Db × Disk)) : Prop := ∃ k, reclaim ex fuel k db disk (fun _ => false) = some r

end Tup.GenDir
