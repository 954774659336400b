/-
Model of the use of database transactions by an update (C43).

The contents `D` of the database and the state `F` of the files in the tree are arbitrary.  What a phase does between
the beginning and the end of its transaction is an arbitrary `Work`: a function of the files and of the contents that
it reads, which gives the sequence of states after each of its SQL statements or file operations, and its return value.

Trusted, not modelled: SQLite itself (a transaction that is not committed when the connection is closed or the process
ends is undone, `begin` inside a transaction and `commit`/`rollback` outside of one are errors without effect, no
statement ends a transaction by itself).
-/

namespace Tup.Transact

/-- What the process and the next process can see: the files, the committed contents of the database, and the contents
with the changes of the open transaction, if one is open. -/
structure World (F D : Type) where
  files : F
  disk : D
  work : Option D
deriving DecidableEq

/-- A part of a phase: the states after each of its operations, and its return value. -/
abbrev Work (F D : Type) := F × D → List (F × D) × Int

/-- A computation that can return from the surrounding C function early (`Sum.inl`, with the value returned), with the
states of the world after each operation. -/
abbrev M (F D α : Type) := World F D → List (World F D) × World F D × (Int ⊕ α)

variable {F D α β : Type}

/-- Continue with a value. -/
def ret (a : α) : M F D α := fun w => ([], w, .inr a)

/-- `return rc;` in the C function. -/
def stop (rc : Int) : M F D α := fun w => ([], w, .inl rc)

/-- One after the other. -/
def andThen (m : M F D α) (k : α → M F D β) : M F D β := fun w =>
  match m w with
  | (t, w', .inl rc) => (t, w', .inl rc)
  | (t, w', .inr a) =>
    match k a w' with
    | (t', w'', r) => (t ++ t', w'', r)

instance : Monad (M F D) where
  pure := ret
  bind := andThen

/-- What a SQL query sees: the contents with the changes of the open transaction. -/
def World.view (w : World F D) : D :=
  match w.work with
  | some d => d
  | none => w.disk

/-- The world after an operation: a change of the database goes to the open transaction, or directly to the disk if
none is open (SQLite's autocommit mode). -/
def World.put (w : World F D) (s : F × D) : World F D :=
  match w.work with
  | some _ => { files := s.1, disk := w.disk, work := some s.2 }
  | none => { files := s.1, disk := s.2, work := none }

/-- The last of the states in a trace. -/
def lastOf (w : World F D) : List (World F D) → World F D
  | [] => w
  | x :: xs => lastOf x xs

/-- Run a part of a phase. -/
def work (p : Work F D) : M F D Int := fun w =>
  let r := p (w.files, w.view)
  let t := r.1.map w.put
  (t, lastOf w t, .inr r.2)

/-- `if(p() < 0) return -1;` -/
def must (p : Work F D) : M F D Unit := do
  let rc ← work p
  if rc < 0 then stop (-1) else ret ()

/-- tup_db_begin (src/tup/db.c:741-771).  Simplified: the only error of the statement that is considered is the one of
a transaction inside a transaction. -/
def begin' : M F D Int := fun w =>
  match w.work with
  | some _ => ([], w, .inr (-1))
  | none => ([{ w with work := some w.disk }], { w with work := some w.disk }, .inr 0)

/-- The statement `commit` (src/tup/db.c:782-804). -/
def commitStmt : M F D Int := fun w =>
  match w.work with
  | some d => ([{ w with disk := d, work := none }], { w with disk := d, work := none }, .inr 0)
  | none => ([], w, .inr (-1))

/-- tup_db_commit (src/tup/db.c:773-806): the unused ghosts are removed first. -/
def commit (reclaim : Work F D) : M F D Int := do
  let rc ← work reclaim
  if rc < 0 then ret (-1) else commitStmt

/-- tup_db_rollback (src/tup/db.c:818-842). -/
def rollback : M F D Int := fun w =>
  match w.work with
  | some _ => ([{ w with work := none }], { w with work := none }, .inr 0)
  | none => ([], w, .inr (-1))

/-- `if(x() < 0) return -1;` for the functions above. -/
def check (m : M F D Int) : M F D Unit := do
  let rc ← m
  if rc < 0 then stop (-1) else ret ()

/-- Phases whose results of begin and commit are checked and that never roll back: check_full_deps_rebuild
(src/tup/updater.c:585-609), tup_scan (src/tup/path.c:316-327, src/tup/db.c:5362-5378), tup_external_scan
(src/tup/path.c:329-338), the loading of the variants in run_scan (src/tup/updater.c:636-647), and the clearing of the
autoupdate pid (src/tup/tup/main.c:360-369; the return value of the body does not end that one, which is the case of a
`Work` that never fails). -/
def simple (body reclaim : Work F D) : M F D Int := do
  check begin'
  must body
  check (commit reclaim)
  ret 0

/-- The parts of process_config_nodes. -/
structure ConfigParts (F D : Type) where
  /-- the parts whose errors `return -1` (src/tup/updater.c:906-960, 1132-1135, 1146-1147) -/
  front : Work F D
  /-- the parts whose errors `goto err_rollback` (src/tup/updater.c:960-1145) -/
  vars : Work F D
  destroy : Work F D
  reclaim : Work F D

/-- process_config_nodes (src/tup/updater.c:895-1156).  Simplified: all parts with one kind of error handling are
together, so the order among them is not the one of the code; it has no effect on what is recorded. -/
def processConfig (p : ConfigParts F D) : M F D Int := do
  check begin'
  must p.front
  let rc ← work p.vars
  if rc < 0 then do
    let _ ← rollback
    stop (-1)
  else do
    must p.destroy
    let _ ← commit p.reclaim
    ret 0

/-- The parts of process_create_nodes, in the order of the code. -/
structure CreateParts (F D : Type) where
  /-- create_graph (src/tup/updater.c:1397-1398) -/
  createGraph : Work F D
  /-- tup_db_select_node_by_flags (src/tup/updater.c:1405-1406) -/
  select : Work F D
  /-- ghosts and variants (src/tup/updater.c:1407-1480) -/
  variants : Work F D
  /-- removal of directories of variants (src/tup/updater.c:1482-1494) -/
  removing : Work F D
  /-- build_graph and the counting of the nodes (src/tup/updater.c:1496-1524) -/
  buildGraph : Work F D
  /-- graph_empty (src/tup/updater.c:1531) -/
  empty : F × D → Bool
  /-- server_init (src/tup/updater.c:1536-1538) -/
  serverInit : Work F D
  /-- tup_lua_parser_new_state (src/tup/updater.c:1539-1541) -/
  lua : Work F D
  /-- execute_graph with create_work: the parser (src/tup/updater.c:1542-1545) -/
  parse : Work F D
  /-- normal directories that become generated ones (src/tup/updater.c:1550-1588) -/
  normalDirs : Work F D
  /-- delete_files (src/tup/updater.c:1594) -/
  deleteFiles : Work F D
  /-- group_need_circ_check and group_circ_check (src/tup/updater.c:1595-1599) -/
  circCheck : Work F D
  /-- the .gitignore files (src/tup/updater.c:1600-1609) -/
  gitignore : Work F D
  /-- destroy_graph (src/tup/updater.c:1619-1620) -/
  destroy : Work F D
  /-- whether tup_db_changes differs from its value at the beginning (src/tup/updater.c:1392-1393, 1623) -/
  changed : F × D → Bool
  /-- reclaim_ghosts (src/tup/db.c:7080-7140) -/
  reclaim : Work F D

/-- Run a part only if nothing failed so far: `if(rc == 0 …) rc = p();` -/
def ifOk (rc : Int) (p : Work F D) : M F D Int := if rc = 0 then work p else ret rc

/-- Part of process_create_nodes after the label out_destroy (src/tup/updater.c:1618-1632). -/
def outDestroy (p : CreateParts F D) (refactoring : Bool) : M F D Int := do
  must p.destroy
  let s ← (fun w => ([], w, .inr (w.files, w.view)) : M F D (F × D))
  if refactoring && p.changed s then do
    let _ ← rollback
    stop (-1)
  else do
    let _ ← commit p.reclaim
    ret 0

/-- Part of process_create_nodes with the parser (src/tup/updater.c:1536-1616).  Simplified: the errors of group_circ_check
and gitignore are their own values, in the code every error gives -1. -/
def parsePart (p : CreateParts F D) (refactoring : Bool) : M F D Int := do
  must p.serverInit
  must p.lua
  let rc ← work p.parse
  let rc ← if rc = 0 then do
      must p.normalDirs
      let rc ← work p.deleteFiles
      let rc ← ifOk rc p.circCheck
      ifOk rc p.gitignore
    else ret rc
  if rc < 0 then do
    let _ ← rollback
    stop (-1)
  else outDestroy p refactoring

/-- process_create_nodes (src/tup/updater.c:1384-1634). -/
def processCreate (p : CreateParts F D) (refactoring : Bool) : M F D Int := do
  let _ ← begin'
  must p.createGraph
  must p.select
  must p.variants
  must p.removing
  must p.buildGraph
  let s ← (fun w => ([], w, .inr (w.files, w.view)) : M F D (F × D))
  if p.empty s then outDestroy p refactoring else parsePart p refactoring

/-- The parts of process_update_nodes. -/
structure UpdateParts (F D : Type) where
  /-- create_graph, the nodes with flags, build_graph, prune_graph (src/tup/updater.c:1644-1661) -/
  graph : Work F D
  /-- graph_empty (src/tup/updater.c:1674) -/
  empty : F × D → Bool
  /-- server_init (src/tup/updater.c:1678-1680) -/
  serverInit : Work F D
  /-- execute_graph with update_work: the commands (src/tup/updater.c:1681) -/
  commands : Work F D
  /-- destroy_graph (src/tup/updater.c:1690-1691) -/
  destroy : Work F D
  reclaim : Work F D

/-- End of process_update_nodes (src/tup/updater.c:1689-1693). -/
def updateEnd (p : UpdateParts F D) (rc : Int) : M F D Int := do
  must p.destroy
  let _ ← commit p.reclaim
  ret rc

/-- process_update_nodes (src/tup/updater.c:1636-1694). -/
def processUpdate (p : UpdateParts F D) : M F D Int := do
  let _ ← begin'
  must p.graph
  let s ← (fun w => ([], w, .inr (w.files, w.view)) : M F D (F × D))
  if p.empty s then updateEnd p 0 else do
    must p.serverInit
    let rc ← work p.commands
    if rc = -2 then stop (-1) else updateEnd p rc

/-- The value with which the C function returns. -/
def value : Int ⊕ Int → Int
  | .inl rc => rc
  | .inr rc => rc

/-- Call a C function: an early return ends only the function called. -/
def call (m : M F D Int) : M F D Int := fun w =>
  match m w with
  | (t, w', r) => (t, w', .inr (value r))

/-- All the parts of an update. -/
structure Parts (F D : Type) where
  fullDeps : Work F D
  scan : Work F D
  reclaim : Work F D
  config : ConfigParts F D
  create : CreateParts F D
  update : UpdateParts F D

/-- updater (src/tup/updater.c:139-220); `phase` is 0 for an update, 1 for `tup read`, 2 for `tup parse`.  Simplified: no
monitor runs and a scan is done; server_quit does not use the database. -/
def updater (p : Parts F D) (phase : Nat) (refactoring : Bool) : M F D Int := do
  let rc ← call (simple p.fullDeps p.reclaim)
  if rc < 0 then stop (-1)
  let rc ← call (simple p.scan p.reclaim)
  if rc < 0 then stop (-1)
  let rc ← call (processConfig p.config)
  if rc < 0 then stop (-1)
  if phase = 1 then stop 0
  let rc ← call (processCreate p.create refactoring)
  if rc < 0 then stop (-1)
  if phase = 2 then stop 0
  let rc ← call (processUpdate p.update)
  if rc < 0 then stop (-1)
  ret 0

/-- What the next process finds when the process ends or is killed in a world: an open transaction is undone. -/
def World.ended (w : World F D) : D := w.disk

/-- The worlds in which a computation can be interrupted: the one at its start and the ones after each operation. -/
def moments (m : M F D α) (w : World F D) : List (World F D) := w :: (m w).1

/-- The world at the end of a computation. -/
def final (m : M F D α) (w : World F D) : World F D := (m w).2.1

/-- The return value of a C function. -/
def rc (m : M F D Int) (w : World F D) : Int := value (m w).2.2

end Tup.Transact
