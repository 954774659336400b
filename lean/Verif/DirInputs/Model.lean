import Verif.Links.Outputs

/-!
Model of what is recorded when a directory has been parsed: the files that were read, looked for or written while the
Tupfile was parsed (by the parser, by a Tupfile.lua and by run scripts) become the inputs of the directory
(src/tup/file.c:334-401, 495-546, src/tup/db.c:6448-6498, src/tup/parser.c:339-357).

A path is given by the names on it, after C11: without ".", ".." and "//", seen from the top of the project.  Paths
that are hidden or outside of the project are ignored by the code without `updater.full_deps` and are left out here;
C68 is about them.
-/

namespace Tup.DirInputs

open Tup.Db Tup.Links

/-- The loop of `find_dir_tupid_dt_pg` with `SOTGV_CREATE_GHOSTS`, src/tup/create_name_file.c:599-659, and the last name
of the path, src/tup/file.c:358-377: a name that is not known becomes a ghost.  The code takes the last name
apart from the others; it does the same for it. -/
def walk : Db → Nat → List Str → Db × Nat
  | db, i, [] => (db, i)
  | db, i, name :: path =>
    match db.select i name with
    | some j => walk db j path
    | none =>
      let (db, j) := db.insertNode { dir := i, kind := .ghost, name := name }
      walk db j path

/-- src/tup/file.c:383: dependencies on directories are not recorded.  Directories outside of the project are
recognised by a time of 0 seconds, so that a file with that time passes for a directory as well. -/
def skipped (db : Db) (i : Nat) : Bool :=
  match db.node i with
  | some n => decide (n.kind = .dir) || decide (n.kind = .generatedDir) || decide (n.mtime.1 = 0)
  | none => true

/-- `add_node_to_tree`, src/tup/file.c:334-401.  The path "." has no last element: nothing is added. -/
def addNode (d : Nat) (s : Db × List Nat) (path : List Str) : Db × List Nat :=
  if path = [] then s
  else
    let r := walk s.1 d path
    (r.1, if skipped r.1 r.2 then s.2 else addId r.2 s.2)

/-- The first two loops of `add_parser_files_locked`, src/tup/file.c:506-518: the files that were read, from the top,
then the @-variables, which are nodes in the tup.config of the variant. -/
def touched (db : Db) (vardt : Nat) (reads vars : List (List Str)) : Db × List Nat :=
  vars.foldl (addNode vardt) (reads.foldl (addNode 1) (db, []))

/-- The third loop, src/tup/file.c:519-523: a file called .gitignore is not an input. -/
def gitignore (db : Db) (i : Nat) : Bool :=
  match db.node i with
  | some n => decide (n.name = ".gitignore".toList)
  | none => false

/-- The third loop, src/tup/file.c:519-523: what was touched is added to what the parser itself has put into
`input_root`. -/
def gather (db : Db) (root tmp : List Nat) : List Nat :=
  tmp.foldl (fun root i => if gitignore db i then root else addId i root) root

/-- `gimme_tent`, src/tup/create_name_file.c:712-735: is there a node for the path?  (If a directory on the path has no
node the function fails, which is an error as well.) -/
def known : Db → Nat → List Str → Bool
  | _, _, [] => true
  | db, i, name :: path =>
    match db.select i name with
    | some j => known db j path
    | none => false

/-- `add_dir_link`, src/tup/db.c:6448-6462. -/
def addDirLink (d : Nat) (db : Db) (a : Nat) : Option Db :=
  if db.isKind .generated a then none else insertLink db a d

/-- `rm_dir_link`, src/tup/db.c:6464-6474. -/
def rmDirLink (d : Nat) (db : Db) (a : Nat) : Option Db :=
  some (removeLink (db.addGhost a) a d)

/-- `tup_db_write_dir_inputs`, src/tup/db.c:6476-6498. -/
def writeDirInputs (db : Db) (d : Nat) (root : List Nat) : Option Db :=
  if stickyInputs db d ≠ [] then none
  else compare (addDirLink d) (rmDirLink d) root (normalInputs db d) db

/-- The end of `parse`, src/tup/parser.c:339-357, when no line of the Tupfile had an error: `add_parser_files` and
`tup_db_write_dir_inputs`.  `root` is `input_root`, `writes` are the files that were opened for writing.  `none` is an
error; the code goes on after an error of the first function, but the transaction is rolled back. -/
def afterParse (db : Db) (d vardt : Nat) (root : List Nat) (reads vars writes : List (List Str)) : Option Db :=
  let r := touched db vardt reads vars
  let root := gather r.1 root r.2
  if writes.all (known r.1 1) then writeDirInputs r.1 d root else none

end Tup.DirInputs
