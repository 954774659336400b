import Verif.DirInputs.Model

/-!
Model of how a Tupfile gets at the variables of tup.config: `tup_db_get_var` with the copies it keeps
(src/tup/db.c:4785-4880), and its callers: `@(VAR)` and `$(CONFIG_VAR)` (src/tup/parser.c:4267-4305), `ifdef`
(parser.c:752-771) and tup.getconfig (src/tup/luaparser.c:420-446).
-/

namespace Tup.ConfigVar

open Tup.Db Tup.Links Tup.DirInputs

/-- `tup_platform` and `tup_arch`, src/tup/platform.c:24-62: they depend on the machine that tup is compiled for. -/
structure Consts where
  platform : Str
  arch : Str

/-- The database and `variant->vdb`: the value and the entry for each name that was asked for.  There is one for each variant,
src/tup/variant.c:54, and it lives as long as the process. -/
structure St where
  db : Db
  cache : Str → Option (Str × Nat)

/-- `get_var`, src/tup/db.c:4837-4853: the entry of the variable in the tup.config `v`; a ghost is made if there is none. -/
def entry (v : Nat) (db : Db) (var : Str) : Db × Nat :=
  match db.select v var with
  | some i => (db, i)
  | none => db.insertNode { dir := v, kind := .ghost, name := var }

/-- `get_var`, src/tup/db.c:4854-4862, with `get_var_id`, 4785-4835, which fails if there is no value. -/
def valueOf (k : Consts) (db : Db) (i : Nat) (var : Str) : Option Str :=
  if db.isKind .var i then
    match db.vars i with
    | some (some x) => some x
    | _ => none
  else if var = "TUP_PLATFORM".toList then some k.platform
  else if var = "TUP_ARCH".toList then some k.arch
  else some []

/-- `tup_db_get_var`, src/tup/db.c:4867-4880, and `get_var`, 4837-4865: the value and the entry.  Errors of the database
are not modelled. -/
def getVar (k : Consts) (v : Nat) (s : St) (var : Str) : Option (St × Str × Nat) :=
  match s.cache var with
  | some (x, i) => some (s, x, i)
  | none =>
    let r := entry v s.db var
    (valueOf k r.1 r.2 var).map fun x =>
      (⟨r.1, fun n => if n = var then some (x, r.2) else s.cache n⟩, x, r.2)

/-- `var_ifdef`, src/tup/parser.c:757-758. -/
def ifdefName (s : Str) : Str := if "CONFIG_".toList.isPrefixOf s then s.drop 7 else s

/-- What a Tupfile does with the variables: it takes the value of one (`@(VAR)`, `$(CONFIG_VAR)`, tup.getconfig), or asks with
ifdef or ifndef whether it is set, and goes on depending on the answer; in the end there are the rules.  What it reads besides
is the same each time. -/
inductive Tupfile (R : Type) where
  | done (rules : R)
  | value (var : Str) (next : Str → Tupfile R)
  | ifdef (text : Str) (next : Bool → Tupfile R)

/-- The next question of a Tupfile, src/tup/parser.c:4274-4278, 4301-4305, 757-768, src/tup/luaparser.c:435-441: the Tupfile
goes on, and the entry goes to `input_root`. -/
def ask {R : Type} (k : Consts) (v : Nat) (s : St) : Tupfile R → Option (St × Tupfile R × Nat)
  | .done _ => none
  | .value var next => (getVar k v s var).map fun r => (r.1, next r.2.1, r.2.2)
  | .ifdef text next => (getVar k v s (ifdefName text)).map fun r => (r.1, next (r.1.db.isKind .var r.2.2), r.2.2)

end Tup.ConfigVar
