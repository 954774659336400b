import Verif.DoRule.Spec

/-!
What is deleted when Tupfiles have been parsed: the files and commands that no rule has any more.  src/tup/parser.c:173-250, 498-518,
3647-3674, src/tup/updater.c:679-767, 1384-1620.  Variants are not modelled, and neither is what happens to the files `.gitignore`
(src/tup/parser.c:297-323, updater.c:1530-1570), which no rule makes: here no directory has that directive.
-/

namespace Tup.Deletes

open Tup.Db Tup.Links Tup.DoRule

/-- The state of the parser, and `g->gen_delete_root` and `g->save_root`, src/tup/graph.h. -/
structure State where
  p : Parse
  gen : Nat → Bool
  save : Nat → Bool

/-- `tup_db_srcid_to_tree` for generated files, src/tup/db.c:3803-3865: is the node one that a Tupfile of directory `d` has made? -/
def owned (db : Db) (d i : Nat) : Bool :=
  match db.node i with
  | some n => decide (n.kind = .generated) && decide (n.src = some d)
  | none => false

/-- A directory of the list that is a ghost, i.e. was removed, and the file is one of those it has made elsewhere,
src/tup/updater.c:1411-1424. -/
def gone (db : Db) (i : Nat) : Bool :=
  (List.range db.top).any fun d => db.create d && db.isKind .ghost d && owned db d i && !inDir db d i

/-- The beginning of `process_create_nodes`, src/tup/updater.c:1384-1507. `dirs` are the nodes of the graph.  The node itself has
to exist, so that the search can be limited to the ids below `top`. -/
def start (dirs : Nat → Bool) (db : Db) : State :=
  { p := beginUpdate dirs db, gen := gone db, save := fun _ => false }

/-- Would `tent_tree_add`, src/tup/tent_tree.c:40-59, find the entry there already?  Then it is an error. -/
def duplicate (s : State) (d : Nat) : Bool :=
  (List.range s.p.db.top).any fun i => owned s.p.db d i && (if s.p.db.modify i then s.save i else s.gen i)

/-- The beginning of `parse`, src/tup/parser.c:173-246, with `split_roots`, 498-518, called by `create_work`,
src/tup/updater.c:2084-2112, for directories: the files that the directory has made are to be deleted, or, if they have been changed,
to be kept as ordinary files. -/
def parseDir (d : Nat) (s : State) : Option State :=
  if !s.p.db.isKind .dir d || duplicate s d then none
  else
    match beginParse d s.p with
    | none => none
    | some p =>
      some { p := p,
             gen := fun i => s.gen i || (owned s.p.db d i && !s.p.db.modify i),
             save := fun i => s.save i || (owned s.p.db d i && s.p.db.modify i) }

/-- The nodes of `onl` and `extra_onl` in `do_rule`, src/tup/parser.c:3522-3535. -/
def outputsOf (excl : Nat) (r : Spec) (p : Parse) : List Nat :=
  match addOuts excl p r r.outputs { db := p.db } with
  | none => []
  | some m =>
    match addOuts excl p r r.extra m with
    | none => []
    | some s => s.outputs

/-- `do_rule` with the removal of the outputs from the two trees, src/tup/parser.c:3650-3674. -/
def rule (excl : Nat) (r : Spec) (s : State) : Option State :=
  match doRule excl r s.p with
  | none => none
  | some p =>
    some { p := p,
           gen := fun i => s.gen i && !decide (i ∈ outputsOf excl r s.p),
           save := fun i => s.save i && !decide (i ∈ outputsOf excl r s.p) }

/-- The first loop of `delete_files`, src/tup/updater.c:685-698.  `ok` says for which files `delete_file`,
src/tup/delete_name_file.c:48-82, succeeds: `unlinkat` does, or there is no such file.  The files for which it has succeeded are
the second component, in order. -/
def deleteGen (ok : Nat → Bool) : List Nat → Db → Option Db × List Nat
  | [], db => (some db, [])
  | i :: l, db =>
    if ok i then
      match Scan.del id 1 db i .generated true with
      | none => (none, [i])
      | some db => ((deleteGen ok l db).1, i :: (deleteGen ok l db).2)
    else (none, [])

/-- The second loop, src/tup/updater.c:707-720. -/
def deleteCmds : List Nat → Db → Option Db
  | [], db => some db
  | i :: l, db =>
    match Scan.del id 1 db i .cmd true with
    | none => none
    | some db => deleteCmds l db

/-- The third loop, src/tup/updater.c:726-757.  `make_dirs_normal` (src/tup/create_name_file.c:72-96), which makes the generated
directories above the file ordinary ones, is left out. -/
def saveFiles : List Nat → Db → Option Db
  | [], db => some db
  | i :: l, db => if db.isKind .generated i then saveFiles l (saveFile db i) else none

/-- The elements of a tree, in the order in which they are taken out of it (`RB_ROOT`), which depends on its shape. -/
def elements (sort : List Nat → List Nat) (s : State) (f : Nat → Bool) : List Nat := sort ((List.range s.p.db.top).filter f)

/-- `delete_files`, src/tup/updater.c:679-767.  A signal (`server_is_dead`) is not modelled. -/
def deleteFiles (sort : List Nat → List Nat) (ok : Nat → Bool) (s : State) : Option Db × List Nat :=
  let r := deleteGen ok (elements sort s s.gen) s.p.db
  match r.1 with
  | none => (none, r.2)
  | some db =>
    match deleteCmds (elements sort s s.p.doomed) db with
    | none => (none, r.2)
    | some db => (saveFiles (elements sort s s.save) db, r.2)

/-- The rest of `process_create_nodes`, src/tup/updater.c:1527-1620: `parsed` is what the parsing has led to, `none` if it has
failed (`rc != 0`), and `circular` whether `group_circ_check` finds a cycle.  The result has the database, the files that were
deleted, and whether all went well; if not, the transaction has been rolled back.  The change of directories into generated
ones (1528-1572) is left out. -/
def finish (sort : List Nat → List Nat) (ok : Nat → Bool) (circular : Bool) (db : Db) (parsed : Option State) : Db × List Nat × Bool :=
  match parsed with
  | none => (db, [], false)
  | some s =>
    match (deleteFiles sort ok s).1 with
    | none => (db, (deleteFiles sort ok s).2, false)
    | some db' => if circular then (db, (deleteFiles sort ok s).2, false) else (db', (deleteFiles sort ok s).2, true)

end Tup.Deletes
