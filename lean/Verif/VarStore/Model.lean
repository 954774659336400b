import Verif.Db.Model
import Verif.Tree.Model

/-!
Model of the comparison of the stored variables with those of the file `tup.config` (src/tup/db.c:4951-5054) and
of the environment (5074-5185).  The variables of a configuration are the nodes whose directory is the node of
`tup.config`; those of the environment are in the directory `env_dt()`.
-/

namespace Tup.VarStore

open Db Tree

/-- The rows that `tup_db_get_vardb` reads, src/tup/db.c:7605-7670, statement 7610. -/
def rows (db : Db) (d : Nat) : List Nat :=
  (List.range db.top).filter fun i =>
    match db.node i with
    | some n => decide (n.dir = d) && (db.vars i).isSome
    | none => false

/-- The name of a node. -/
def nameOf (db : Db) (i : Nat) : Option Str := (db.node i).map Node.name

/-- The operations with which `tup_db_get_vardb` fills the variable store (`vardb_set`, db.c:7663). -/
def loads (db : Db) (l : List Nat) : List (VarOp × VarAns) :=
  l.filterMap fun i =>
    match nameOf db i, db.vars i with
    | some n, some v => some (.set n v, .unit)
    | _, _ => none

/-- The operations with which `get_file_var_tree` (db.c:7672-7745) fills the other one, from the bindings in the
order of the file (they are the result of `Tup.Config.parse`). -/
def fileLoads (bs : List (Str × Str)) : List (VarOp × VarAns) :=
  bs.map fun b => (.set b.1 (some b.2), .unit)

/-- The `tent` of an entry of the variable store that was filled from the database: `vardb_set` stores it with
the name, db.c:7663.  (Two rows of one directory have different names.) -/
def tent (db : Db) (l : List Nat) (name : Str) : Option Nat := l.find? fun i => nameOf db i = some name

/-- The state during the comparison: the database, and whether `tup_db_var_changed` is not 0. -/
structure St where
  db : Db
  changed : Bool

/-- `tup_db_set_var`, src/tup/db.c:4743-4783, statement 4747. -/
def setVar (db : Db) (i : Nat) (v : Option Str) : Db :=
  { db with vars := fun j => if j = i then some v else db.vars j }

/-- `delete_var_entry`, src/tup/db.c:7789-7825. -/
def delVar (db : Db) (i : Nat) : Db := { db with vars := fun j => if j = i then none else db.vars j }

/-- `remove_var_tupid`, src/tup/db.c:4951-4966. -/
def removeVar (s : St) (i : Nat) : St :=
  ⟨(delVar ((s.db.createByInput i).modifyByInput i) i).deleteNameFile i, true⟩

/-- `tup_db_create_node` for a variable, src/tup/db.c:982-1139, followed by `tup_db_set_var`: `add_var`,
4975-4985.  A ghost (a variable that was used but not set) becomes a variable and is flagged.  `none`: the node is
of another type, which would be deleted and created again (1067-1087); this is not modelled, since the directory
of the variables holds nothing but variables and ghosts. -/
def addVar (s : St) (d : Nat) (name : Str) (value : Option Str) : Option St :=
  match s.db.select d name with
  | some i =>
    if s.db.isKind .ghost i then
      some ⟨setVar (((((s.db.addCreate i).addModify i).setKind i .var).setSrc i none)) i value, true⟩
    else if s.db.isKind .var i then some ⟨setVar s.db i value, true⟩
    else none
  | none =>
    let (db, i) := s.db.insertNode { dir := d, kind := .var, name := name }
    some ⟨setVar db i value, true⟩

/-- `compare_vars`, src/tup/db.c:4987-5001. -/
def compareVars (s : St) (i : Nat) (va vb : Option Str) : St :=
  if s.db.isKind .var i && decide (va = vb) then s
  else ⟨setVar ((s.db.addCreate i).addModify i) i vb, true⟩

/-- One callback of `vardb_compare`; `none` where the code would use a missing `tent`. -/
def step (d : Nat) (tent : Str → Option Nat) (s : St) : Diff Var → Option St
  | .onlyA x => (tent x.name).map fun i => removeVar s i
  | .onlyB y => addVar s d y.name y.value
  | .both x y => (tent x.name).map fun i => compareVars s i x.value y.value

/-- All of them, src/tup/vardb.c:186-236. -/
def steps (d : Nat) (tent : Str → Option Nat) : St → List (Diff Var) → Option St
  | s, [] => some s
  | s, e :: l =>
    match step d tent s e with
    | some s => steps d tent s l
    | none => none

/-- `tup_db_read_vars`, src/tup/db.c:5003-5054, with `u` the store filled from the database and `v` the one filled
from the file.  The vardict file is written iff the flag is set in the end (`save_vardict_file` 4882-4890). -/
def readVars (s : St) (d : Nat) (u v : Vardb) : Option St :=
  steps d (tent s.db (rows s.db d)) s (walk (fun x y => strcmp x.name y.name) u.root.toList v.root.toList)

end Tup.VarStore
