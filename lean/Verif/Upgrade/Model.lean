import Verif.Upgrade.Sql

/-!
Opening a database that an older version of tup has written: src/tup/db.c:274-287 (`tup_db_open`),
373-438 (`db_backup`), 467-738 (`version_check`), and the tables of a new one, 307-371.

Simplified: databases of version 0, 1 and 2 are told apart (`tooOld`) but their upgrades are not
modelled, since the tables of version 1 are not in the sources and the upgrade to version 3 needs
SQLite's rule for a bare column beside an aggregate.  `init_virtual_dirs` (db.c:282) and stopping
the monitor (db.c:681-694) are left out.  A transaction that is not committed when tup exits leaves
the file as it was.
-/

namespace Tup.Upgrade

/-- `DB_VERSION`, src/tup/db.c:52. -/
def dbVersion : Nat := 19
/-- `PARSER_VERSION`, src/tup/db.c:53. -/
def parserVersion : Int := 16

/-- A table of ids: `(id integer primary key not null)`. -/
def idList : Schema := ⟨[.id], some .id, [.id], []⟩

/-- The text `tup.config`, `TUP_CONFIG` in src/tup/db.h:32. -/
def tupConfig : Val := .text ['t', 'u', 'p', '.', 'c', 'o', 'n', 'f', 'i', 'g']
/-- The key of the version of the database, src/tup/db.c:667. -/
def keyVersion : Val := .text ['d', 'b', '_', 'v', 'e', 'r', 's', 'i', 'o', 'n']
/-- The key of the version of the parser, src/tup/db.c:724. -/
def keyParser : Val := .text ['p', 'a', 'r', 's', 'e', 'r', '_', 'v', 'e', 'r', 's', 'i', 'o', 'n']

/-- `insert or replace into create_list select id from node where type=2`: src/tup/db.c:628, 645, 7461. -/
def reparse : Stmt := .insertSelect .replace .createList .node [.id] (.eq .type (.int 2))

/-- The statements that lead to a version: src/tup/db.c:508-663. -/
def upgrade : Nat → List Stmt
  | 4 => [.addColumn .node .sym (.int (-1))]
  | 5 => [.dropIndex .link, .createIndex .link .link [.fromId, .toId]]
  | 6 => [.createIndex .nodeSym .node [.sym]]
  | 7 => [.createTable .ghostList idList]
  | 8 => [.dropTable .ghostList]
  | 9 => [.addColumn .node .mtime (.int (-1))]
  | 10 => [
      .createTable .linkNew ⟨[.fromId, .toId, .style], none, [], [[.fromId, .toId]]⟩,
      .insertSelect .ignore .linkNew .link [.fromId, .toId, .style] .all,
      .dropIndex .link,
      .dropIndex .link2,
      .dropTable .link,
      .rename .linkNew .link,
      .createIndex .link2 .link [.toId]]
  | 11 => [.dropTable .deleteList]
  | 12 => [
      .delete .node (.and (.eq .type (.int 5)) (.existsOther .node [.name, .dir] .type (.int 5))),
      .dropIndex .nodeDir,
      .createTable .nodeNew ⟨[.id, .dir, .type, .sym, .mtime, .name], some .id, [.id, .dir, .type, .sym, .mtime], [[.dir, .name]]⟩,
      .insertSelect .ignore .nodeNew .node [.id, .dir, .type, .sym, .mtime, .name] .all,
      .dropIndex .nodeSym,
      .dropTable .node,
      .rename .nodeNew .node,
      .createIndex .nodeSym .node [.sym]]
  | 13 => [
      .createTable .nodeNew ⟨[.id, .dir, .type, .mtime, .name], some .id, [.id, .dir, .type, .mtime], [[.dir, .name]]⟩,
      .insertSelect .ignore .nodeNew .node [.id, .dir, .type, .mtime, .name] .all,
      .dropIndex .nodeSym,
      .dropTable .node,
      .rename .nodeNew .node]
  | 14 => [
      .insertValues .ignore .node [(.dir, .int 1), (.name, tupConfig), (.type, .int 5), (.mtime, .int (-1))],
      .createTable .configList idList,
      .createTable .variantList idList,
      .addColumn .node .srcid (.int (-1)),
      .update .node .dir (.find .node .name tupConfig .dir (.int 1)) (.eq .dir (.int 2)),
      .update .createList .id (.find .node .name tupConfig .dir (.int 1)) (.eq .id (.int 2)),
      .update .modifyList .id (.find .node .name tupConfig .dir (.int 1)) (.eq .id (.int 2)),
      .delete .node (.eq .id (.int 2))]
  | 15 => [
      .createTable .normalLink ⟨[.fromId, .toId], none, [], [[.fromId, .toId]]⟩,
      .createTable .stickyLink ⟨[.fromId, .toId], none, [], [[.fromId, .toId]]⟩,
      .createTable .groupLink ⟨[.fromId, .toId, .cmdid], none, [], [[.fromId, .toId, .cmdid]]⟩,
      .createIndex .normal2 .normalLink [.toId],
      .createIndex .sticky2 .stickyLink [.toId],
      .createIndex .group2 .groupLink [.cmdid],
      .insertSelect .abort .normalLink .link [.fromId, .toId] (.or (.eq .style (.int 1)) (.eq .style (.int 3))),
      .insertSelect .abort .stickyLink .link [.fromId, .toId] (.or (.eq .style (.int 2)) (.eq .style (.int 3))),
      .delete .stickyLink (.inSel .fromId .node .type (.int 6)),
      .delete .stickyLink (.inSel .toId .node .type (.int 6)),
      .delete .node (.eq .type (.int 6)),
      .dropTable .link,
      reparse]
  | 16 => [.createIndex .srcid .node [.srcid], .update .node .srcid (.col .dir) (.eq .type (.int 4))]
  | 17 => [.addColumn .node .display .null, .addColumn .node .flags .null, reparse]
  | 18 => [.createTable .transientList idList]
  | 19 => [.addColumn .node .mtimeNs (.int 0)]
  | _ => []

/-- The statements for a new database: src/tup/db.c:312-330. -/
def createStmts : List Stmt := [
  .createTable .node ⟨[.id, .dir, .type, .mtime, .mtimeNs, .srcid, .name, .display, .flags], some .id, [.id, .dir, .type, .mtime, .mtimeNs, .srcid], [[.dir, .name]]⟩,
  .createTable .normalLink ⟨[.fromId, .toId], none, [], [[.fromId, .toId]]⟩,
  .createTable .stickyLink ⟨[.fromId, .toId], none, [], [[.fromId, .toId]]⟩,
  .createTable .groupLink ⟨[.fromId, .toId, .cmdid], none, [], [[.fromId, .toId, .cmdid]]⟩,
  .createTable .var ⟨[.id, .value], some .id, [.id], []⟩,
  .createTable .config ⟨[.lval, .rval], none, [], [[.lval]]⟩,
  .createTable .configList idList,
  .createTable .createList idList,
  .createTable .modifyList idList,
  .createTable .variantList idList,
  .createTable .transientList idList,
  .createIndex .normal2 .normalLink [.toId],
  .createIndex .sticky2 .stickyLink [.toId],
  .createIndex .group2 .groupLink [.cmdid],
  .createIndex .srcid .node [.srcid],
  .insertValues .abort .config [(.lval, keyVersion), (.rval, .int 0)],
  .insertValues .abort .node [(.id, .int 1), (.dir, .int 0), (.type, .int 2), (.mtime, .int (-1)), (.mtimeNs, .int 0), (.srcid, .int (-1)), (.name, .text ['.']), (.display, .null), (.flags, .null)]]

/-- A database without tables. -/
def emptyDb : Db := ⟨fun _ => none, fun _ => none⟩

/-- `tup_db_config_set_int`: `insert or replace into config values(?, ?)`, src/tup/db.c:4647-4687.  The number is kept as a number; SQLite stores its digits. -/
def setInt (d : Db) (k : Val) (n : Int) : Option Db := exec d (.insertValues .replace .config [(.lval, k), (.rval, .int n)])

/-- `sqlite3_column_int`; 0 for anything but a number. -/
def intOf : Val → Int
  | .int n => n
  | _ => 0

/-- `tup_db_config_get_int`: `select rval from config where lval=?`, src/tup/db.c:4689-4741.  The default is stored if there is no row. -/
def getInt (d : Db) (k : Val) (default : Int) : Option (Db × Int) :=
  match d.tables .config with
  | none => none
  | some x =>
    match x.rows.find? (fun r => sqlEq (r .lval) k) with
    | none => (setInt d k default).map fun d' => (d', default)
    | some r => some (d, intOf (r .rval))

/-- The loop over the upgrades: src/tup/db.c:701-716.  `n` steps from version `x`. -/
def upgradeLoop (d : Db) (x : Nat) : Nat → Option Db
  | 0 => some d
  | n + 1 =>
    match execAll d (upgrade (x + 1)) with
    | none => none
    | some d1 =>
      match setInt d1 keyVersion (x + 1) with
      | none => none
      | some d2 => upgradeLoop d2 (x + 1) n

/-- What is on disk: the database, and the copies `.tup/db_backup_N` (the latest first). -/
structure Disk where
  file : Db
  backups : List (Int × Db)

/-- How opening the database ends. -/
inductive Outcome
  | ok
  /-- an error: tup exits without a commit -/
  | failed
  /-- version 0, 1 or 2, not modelled -/
  | tooOld

/-- The second half of `version_check`, src/tup/db.c:724-736, and the commit of `tup_db_open`, 284. -/
def checkParser (k : Disk) : Outcome × Disk :=
  match getInt k.file keyParser 0 with
  | none => (.failed, k)
  | some (d, v) =>
    if v < 0 then (.failed, k)
    else if v = parserVersion then (.ok, { k with file := d })
    else
      match exec d reparse with
      | none => (.failed, k)
      | some d1 =>
        match setInt d1 keyParser parserVersion with
        | none => (.failed, k)
        | some d2 => (.ok, { k with file := d2 })

/-- `tup_db_open`: src/tup/db.c:274-287, with `version_check`, 667-738.  `backupFails` is an error of the system in `db_backup`, which may leave an incomplete copy. -/
def openDb (k : Disk) (backupFails : Bool) : Outcome × Disk :=
  match getInt k.file keyVersion (-1) with
  | none => (.failed, k)
  | some (_, v) =>
    if v < 0 then (.failed, k)
    else if (dbVersion : Int) < v then (.failed, k)
    else if v = dbVersion then checkParser k
    else if v < 3 then (.tooOld, k)
    else if backupFails then (.failed, k)
    else
      let k1 : Disk := { k with backups := (v, k.file) :: k.backups }
      match upgradeLoop k.file v.toNat (dbVersion - v.toNat) with
      | none => (.failed, k1)
      | some d => checkParser { k1 with file := d }

end Tup.Upgrade
