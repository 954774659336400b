import Verif.VarStore.Model

/-!
Model of the environment variables, src/tup/db.c:5074-5225.  The environment is a function from names to values
(`getenv`).  A row of table `var` in the directory of the environment holds `NAME=value`, or NULL for a variable
that is not set.
-/

namespace Tup.VarStore

open Db Tree

/-- `NAME=value`, `envdb_set` 5078-5092; NULL for a variable that is not set. -/
def full (n : Str) (x : Option Str) : Option Str := x.map fun v => n ++ '=' :: v

/-- The test of `env_cb`, src/tup/db.c:5110-5135, when the environment is checked. -/
def envMatch (n : Str) (stored env : Option Str) : Bool :=
  match env with
  | some env =>
    match stored with
    | some st =>
      decide (st.length = n.length + 1 + env.length) && decide (st.take n.length = n) &&
        decide (st[n.length]? = some '=') && decide ((st.drop (n.length + 1)).take env.length = env)
    | none => false
  | none => stored.isNone

/-- The database and the cache `envdb`: what `tup_db_findenv` finds (the store itself is `Tree.Vardb`, here only
what it contains: the id and the value as it is handed to commands). -/
structure EnvSt where
  db : Db
  cache : Str → Option (Nat × Option Str)

/-- `envdb_set`, src/tup/db.c:5074-5097. -/
def envdbSet (s : EnvSt) (n : Str) (env : Option Str) (i : Nat) (write : Bool) : EnvSt :=
  { db := if write then setVar s.db i (full n env) else s.db
    cache := fun m => if m = n then some (i, full n env) else s.cache m }

/-- `env_cb`, src/tup/db.c:5099-5165.  `none`: without the check, a stored value that is shorter than its name plus
one would be read out of bounds (5141). -/
def envCb (check : Bool) (getenv : Str → Option Str) (s : EnvSt) (i : Nat) (n : Str) (stored : Option Str) :
    Option EnvSt :=
  if check then
    let env := getenv n
    if envMatch n stored env then some (envdbSet s n env i false)
    else some (envdbSet { s with db := (s.db.addCreate i).addModify i } n env i true)
  else
    match stored with
    | some st => if n.length + 1 ≤ st.length then some (envdbSet s n (some (st.drop (n.length + 1))) i false) else none
    | none => some (envdbSet s n none i false)

/-- The loop of `tup_db_check_env`, src/tup/db.c:5177-5181. -/
def envLoop (check : Bool) (getenv : Str → Option Str) (tent : Str → Option Nat) : EnvSt → List Var → Option EnvSt
  | s, [] => some s
  | s, x :: l =>
    match tent x.name with
    | some i =>
      match envCb check getenv s i x.name x.value with
      | some s => envLoop check getenv tent s l
      | none => none
    | none => none

/-- `tup_db_check_env`, src/tup/db.c:5167-5187, with `u` the store that is filled from the database (5175). -/
def checkEnv (check : Bool) (getenv : Str → Option Str) (db : Db) (d : Nat) (u : Vardb) : Option EnvSt :=
  envLoop check getenv (tent db (rows db d)) ⟨db, fun _ => none⟩ u.root.toList

/-- `tup_db_findenv`, src/tup/db.c:5189-5224.  `none`: the node exists already, and the insertion fails. -/
def findEnv (getenv : Str → Option Str) (d : Nat) (s : EnvSt) (n : Str) : Option (EnvSt × (Nat × Option Str)) :=
  match s.cache n with
  | some r => some (s, r)
  | none =>
    match s.db.select d n with
    | some _ => none
    | none =>
      let (db, i) := s.db.insertNode { dir := d, kind := .var, name := n }
      some (envdbSet { s with db := db } n (getenv n) i true, (i, full n (getenv n)))

end Tup.VarStore
