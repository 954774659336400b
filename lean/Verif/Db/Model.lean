import Verif.Basic

/-!
Model of tup's database: the tables of src/tup/db.c:312-329, and the statements that are executed on them.
Each table is a function from its key; SQLite is trusted to execute the statements as documented.  The
in-memory cache of entries (src/tup/entry.c) is not modelled separately: it holds the same rows, as C71 (`Verif/Cache`) proves.  An
id (`tupid_t`) is a natural number.  Every statement succeeds unless its comment says otherwise (disk errors and
lack of memory are not modelled).
-/

namespace Tup.Db

/-- `enum TUP_NODE_TYPE`, src/tup/db_types.h:28-38. -/
inductive Kind where
  | file | cmd | dir | var | generated | ghost | group | generatedDir | root
deriving DecidableEq, Repr

/-- A row of table `node`, src/tup/db.c:313.  `src` is `srcid`, `none` standing for -1 and for
`VARIANT_SRCDIR_REMOVED` (-2); `transient` says whether the flags contain 't' (src/tup/entry.c
`is_transient_tent`).  The column `display` and the other flags are left out. -/
structure Node where
  dir : Nat
  kind : Kind
  name : Str
  mtime : Int × Int := (-1, 0)
  src : Option Nat := none
  transient : Bool := false
deriving DecidableEq, Repr

/-- The tables, src/tup/db.c:312-329 (`config` is left out), and `ghost_root` (db.c:171), the set of entries
that are examined at the end of the transaction.  A row of `var` has a value that can be NULL (`some none`).  All rows of `node` have ids below `top`. -/
structure Db where
  node : Nat → Option Node
  top : Nat
  normal : Nat → Nat → Bool
  sticky : Nat → Nat → Bool
  group : Nat → Nat → Nat → Bool
  vars : Nat → Option (Option Str)
  config : Nat → Bool
  create : Nat → Bool
  modify : Nat → Bool
  variant : Nat → Bool
  transient : Nat → Bool
  ghosts : Nat → Bool

variable (db : Db)

/-- The type of a node. -/
def Db.isKind (k : Kind) (i : Nat) : Bool :=
  match db.node i with
  | some n => decide (n.kind = k)
  | none => false

/-- The types that `tup_entry_add_ghost_tree` puts into `ghost_root`, src/tup/entry.c:631-639. -/
def Db.ghosty (i : Nat) : Bool :=
  db.isKind .ghost i || db.isKind .group i || db.isKind .generatedDir i

/-- `tup_entry_add_ghost_tree(&ghost_root, …)`, src/tup/entry.c:631-639. -/
def Db.addGhost (i : Nat) : Db :=
  { db with ghosts := fun j => db.ghosts j || (decide (j = i) && db.ghosty i) }

/-- The same for the node that another one comes from, if there is one: `tup_db_delete_node`, src/tup/db.c:1538-1547. -/
def Db.addGhostOf (s : Option Nat) : Db :=
  match s with
  | some i => db.addGhost i
  | none => db

/-- `tup_db_del_ghost_tree`, src/tup/db.c:7075-7078. -/
def Db.delGhost (i : Nat) : Db :=
  { db with ghosts := fun j => db.ghosts j && !decide (j = i) }

/-- `tup_db_select_tent`, `node_select`, src/tup/db.c:6620-6689: the node with that name in that directory. -/
def Db.select (d : Nat) (name : Str) : Option Nat :=
  (List.range db.top).find? fun i =>
    match db.node i with
    | some n => decide (n.dir = d) && decide (n.name = name)
    | none => false

/-- The first of the numbers `n - 1`, `n - 2`, … that has a row, plus one; 1 if there is none. -/
def fresh (node : Nat → Option Node) : Nat → Nat
  | 0 => 1
  | n + 1 => if (node n).isSome then n + 1 else fresh node n

/-- `tup_db_node_insert_tent_display`, src/tup/db.c:6520-6618, statement 6526: SQLite gives the row an id that is
one more than the largest id in the table (so that the id of a deleted row can come back).  Simplified: a row
with the same directory and name would make the statement fail (`unique(dir, name)`); callers look it up before. -/
def Db.insertNode (n : Node) : Db × Nat :=
  let i := fresh db.node db.top
  ({ db with node := fun j => if j = i then some n else db.node j, top := max db.top (i + 1) }, i)

/-- `tup_db_set_type`, src/tup/db.c:2187-2227. -/
def Db.setKind (i : Nat) (k : Kind) : Db :=
  { db with node := fun j => if j = i then (db.node j).map fun n => { n with kind := k } else db.node j }

/-- `tup_db_set_srcid`, src/tup/db.c:2281-2321. -/
def Db.setSrc (i : Nat) (s : Option Nat) : Db :=
  { db with node := fun j => if j = i then (db.node j).map fun n => { n with src := s } else db.node j }

/-- `tup_db_set_mtime`, src/tup/db.c:2229-2279. -/
def Db.setMtime (i : Nat) (t : Int × Int) : Db :=
  { db with node := fun j => if j = i then (db.node j).map fun n => { n with mtime := t } else db.node j }

/-- `tup_db_add_create_list`, src/tup/db.c:2728-2763. -/
def Db.addCreate (i : Nat) : Db := { db with create := fun j => db.create j || decide (j = i) }

/-- `tup_db_add_modify_list`, src/tup/db.c:2765-2800. -/
def Db.addModify (i : Nat) : Db := { db with modify := fun j => db.modify j || decide (j = i) }

/-- `tup_db_add_config_list`, src/tup/db.c:2644-2684. -/
def Db.addConfig (i : Nat) : Db := { db with config := fun j => db.config j || decide (j = i) }

/-- `tup_db_add_transient_list`, src/tup/db.c:2839-2874. -/
def Db.addTransient (i : Nat) : Db := { db with transient := fun j => db.transient j || decide (j = i) }

/-- `tup_db_unflag_config`, `tup_db_unflag_create`, `tup_db_unflag_modify`, `tup_db_unflag_variant`,
`tup_db_unflag_transient`, src/tup/db.c:3014-3204. -/
def Db.unflagAll (i : Nat) : Db :=
  { db with
    config := fun j => db.config j && !decide (j = i)
    create := fun j => db.create j && !decide (j = i)
    modify := fun j => db.modify j && !decide (j = i)
    variant := fun j => db.variant j && !decide (j = i)
    transient := fun j => db.transient j && !decide (j = i) }

/-- `tup_db_unflag_modify`, src/tup/db.c:3093-3128. -/
def Db.unflagModify (i : Nat) : Db := { db with modify := fun j => db.modify j && !decide (j = i) }

/-- `tup_db_modify_cmds_by_output`, src/tup/db.c:4095-4133, statement 4099. -/
def Db.modifyByOutput (i : Nat) : Db := { db with modify := fun j => db.modify j || db.normal j i }

/-- `tup_db_modify_cmds_by_input`, src/tup/db.c:4135-4181, statement 4139. -/
def Db.modifyByInput (i : Nat) : Db :=
  { db with modify := fun j => db.modify j || (db.normal i j && (db.isKind .cmd j || db.isKind .group j)) }

/-- `tup_db_set_dependent_dir_flags`, src/tup/db.c:4200-4241, and `var_flag_dirs`, 7747-7787: the same
statement. -/
def Db.createByInput (i : Nat) : Db :=
  { db with create := fun j => db.create j || (db.normal i j && db.isKind .dir j) }

/-- `tup_db_set_dependent_config_flags`, src/tup/db.c:4319-4360, statement 4323. -/
def Db.configByInput (i : Nat) : Db :=
  { db with config := fun j => db.config j || (db.normal i j && db.isKind .file j) }

/-- `tup_db_set_dependent_flags`, src/tup/db.c:4183-4198. -/
def Db.dependentFlags (i : Nat) : Db := (db.createByInput i).configByInput i

/-- Is there a row for which `p` holds? -/
def Db.anyNode (p : Nat → Node → Bool) : Bool :=
  (List.range db.top).any fun i =>
    match db.node i with
    | some n => p i n
    | none => false

/-- `flag_group_users`, src/tup/db.c:3680-3693, with the statements 3620 and 3652: when a group goes away, the
directories of the commands that read it, and of the nodes that are in it, are parsed again. -/
def Db.flagGroupUsers (i : Nat) : Db :=
  if db.isKind .group i then
    { db with create := fun d => db.create d ||
        db.anyNode fun j n => decide (n.dir = d) && (db.sticky i j || db.normal j i) }
  else db

/-- `add_ghost_checks` and `add_group_and_exclusion_checks`, src/tup/db.c:7049-7073. -/
def Db.ghostChecks (i : Nat) : Db :=
  { db with ghosts := fun j => db.ghosts j || ((db.normal j i || db.normal i j) && db.ghosty j) }

/-- `delete_normal_links`, `delete_sticky_links`, `delete_group_links`, src/tup/db.c:3488-3614, 6957-6992. -/
def Db.dropLinks (i : Nat) : Db :=
  { db with
    normal := fun a b => db.normal a b && !decide (a = i) && !decide (b = i)
    sticky := fun a b => db.sticky a b && !decide (a = i) && !decide (b = i)
    group := fun a b c => db.group a b c && !decide (c = i) }

/-- `tup_db_delete_links`, src/tup/db.c:3695-3710. -/
def Db.deleteLinks (i : Nat) : Db := ((db.ghostChecks i).flagGroupUsers i).dropLinks i

/-- `node_has_ghosts`, src/tup/db.c:6994-7047: does another node live in this one, or come from it? -/
def Db.hasGhosts (i : Nat) : Bool :=
  db.anyNode fun _ n => decide (n.dir = i) || decide (n.src = some i)

/-- `tup_db_delete_node`, src/tup/db.c:1528-1580, with `delete_node` 1582-1620 and the removal from the cache.  A
node that others refer to becomes a ghost.  The removal of a generated directory from the disk
(`rm_generated_dir`, 1500-1526) is not modelled.  A node that does not exist is an error in the code
(`tup_entry_add` fails) and nothing here; callers only pass nodes that exist. -/
def Db.deleteNode (i : Nat) : Db :=
  match db.node i with
  | none => db
  | some n =>
    let db := db.addGhostOf n.src
    if db.hasGhosts i then
      let db := if n.kind = .dir then db.addCreate i else db
      (db.setKind i .ghost).setSrc i none
    else
      let db := { db with node := fun j => if j = i then none else db.node j }.delGhost i
      db.addGhost n.dir

/-- `delete_name_file`, src/tup/delete_name_file.c:28-45. -/
def Db.deleteNameFile (i : Nat) : Db := ((db.unflagAll i).deleteLinks i).deleteNode i

end Tup.Db
