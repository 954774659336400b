import Verif.Db.Model
import Verif.Names.Model

/-!
Which files a path or a pattern in the inputs of a rule stands for: `nl_add_path` and `build_name_list_cb` of
src/tup/parser.c, `tup_db_select_node_dir_glob` of src/tup/db.c, `variant_get_srctent` of src/tup/variant.c.
-/

namespace Tup.Lookup

open Tup.Db Tup.Names

/-- What the functions use besides the database.  `struct tupfile`, src/tup/parser.h; the operator `glob` of SQLite
(db.c:1395), whose source is not part of the project; the order in which SQLite returns rows (the statement asks
for none); `get_relative_dir`, src/tup/entry.c:718-795 (C14 is about it). -/
structure Cx where
  /-- `tf->tent`: the directory whose Tupfile is parsed -/
  me : Nat
  /-- `tf->variant->root_variant`: no variant is built -/
  root : Bool
  /-- `tf->full_deps` -/
  fullDeps : Bool
  /-- `tf->g->gen_delete_root`: the files whose command is not known (yet) to exist any more -/
  gone : Nat → Bool
  glob : Str → Str → Bool
  order : List Nat → List Nat
  rel : Db → Nat → Option Str
  /-- `lstat(pl->mem)`, parser.c:2738: the time of the file with the path that the rule names, if there is one -/
  lstat : Option (Int × Int)
  /-- what `tup_db_create_node_part` (db.c:1005-1131) does if it is asked for a group and finds a node of another type; `none`: it
  fails -/
  convert : Db → Nat → Option (Db × Nat)

/-- `variant_get_srctent`, variant.c:171-182.  Simplified: a directory whose source directory was removed (-2) is as
one without; it is removed before anything in it is parsed. -/
def source (cx : Cx) (db : Db) (d : Nat) : Option Nat :=
  if cx.root then none
  else
    match db.node d with
    | some n => n.src
    | none => none

/-- The test at the beginning of `build_name_list_cb`, parser.c:2916. -/
def foreign (cx : Cx) (n : Node) : Bool :=
  match n.src with
  | none => false
  | some s => decide (s ≠ cx.me) && decide (s ≠ n.dir)

/-- `build_name_list_cb`, parser.c:2899-2957. -/
def addNode (cx : Cx) (db : Db) (pat : Str) (wild : Bool) (orderid : Nat) (nl : NameList) (i : Nat) : Res NameList :=
  match db.node i with
  | none => .error
  | some n =>
    if foreign cx n then
      if wild then .ok nl else .error
    else
      match cx.rel db i with
      | none => .error
      | some r =>
        match fileEntry pat r n.name orderid i with
        | .ok e => .ok (nl.add e)
        | .error => .error
        | .ub => .ub

/-- The rows of the statement db.c:1395, parser.c passes 0 as `include_directories`. -/
def rows (cx : Cx) (db : Db) (d : Nat) (pat : Str) : List Nat :=
  cx.order ((List.range db.top).filter fun i =>
    match db.node i with
    | some n => decide (n.dir = d) && (decide (n.kind = .file) || decide (n.kind = .generated)) && cx.glob pat n.name
    | none => false)

/-- The loop db.c:1440-1485 with `build_name_list_cb` as callback. -/
def addRows (cx : Cx) (db : Db) (pat : Str) (orderid : Nat) : List Nat → NameList → Res NameList
  | [], nl => .ok nl
  | i :: l, nl =>
    if cx.gone i then addRows cx db pat orderid l nl
    else
      match addNode cx db pat true orderid nl i with
      | .ok nl => addRows cx db pat orderid l nl
      | .error => .error
      | .ub => .ub

/-- `tup_db_create_node_part` with `TUP_NODE_GROUP`, db.c:993-1139. -/
def mkGroup (cx : Cx) (db : Db) (d : Nat) (name : Str) : Option (Db × Nat) :=
  match db.select d name with
  | some i => if db.isKind .group i then some (db, i) else cx.convert db i
  | none => some (db.insertNode { dir := d, kind := .group, name })

/-- `tup_db_node_insert_tent` with `TUP_NODE_GHOST`, parser.c:2741; fails if the directory has a node of that name
(`unique(dir, name)`, db.c:313).  -1 is `INVALID_MTIME`. -/
def mkGhost (cx : Cx) (db : Db) (d : Nat) (name : Str) : Option (Db × Nat) :=
  match db.select d name with
  | some _ => none
  | none =>
    some (db.insertNode { dir := d, kind := .ghost, name, mtime := match cx.lstat with | some t => t | none => (-1, 0) })

/-- The lookup in the directory itself and the creation of a group, parser.c:2704-2723. -/
def lookOwn (cx : Cx) (db : Db) (d : Nat) (name : Str) (copy : Bool) : Option (Db × Option Nat) :=
  match (if !copy || cx.root then db.select d name else none) with
  | some i => some (db, some i)
  | none => if name.head? = some '<' then (mkGroup cx db d name).map fun r => (r.1, some r.2) else some (db, none)

/-- The lookup in the source directory and the creation of a ghost, parser.c:2725-2761; `none`: an error. -/
def look (cx : Cx) (db : Db) (d : Nat) (name : Str) (copy : Bool) : Option (Db × Nat) :=
  match lookOwn cx db d name copy with
  | none => none
  | some (db1, t) =>
    let again := match t with
      | none => true
      | some i => db1.isKind .ghost i
    let t := match again, source cx db d with
      | true, some s => db1.select s name
      | _, _ => t
    match t with
    | some i => some (db1, i)
    | none => if cx.fullDeps then mkGhost cx db1 d name else none

/-- The check for ghosts and for files that are scheduled to be deleted, parser.c:2762-2791. -/
def check (cx : Cx) (db : Db) (src : Option Nat) (name : Str) (i : Nat) : Option Nat :=
  match db.node i with
  | none => none
  | some n =>
    if n.kind = .ghost ∧ n.mtime.1 = -1 then none
    else if cx.gone i then
      match src with
      | none => none
      | some s =>
        match db.select s name with
        | none => none
        | some j => if db.isKind .ghost j then none else some j
    else some i

/-- Does `char_find` (parser.c:2661-2672) find one of the characters of a pattern? parser.c:2696. -/
def isPattern (pat : Str) : Bool := pat.any fun c => c = '*' ∨ c = '?' ∨ c = '['

/-- `nl_add_path`, parser.c:2674-2805: `d` is `pl->dt`, `pat` the last element of the path, `copy` is
`is_variant_copy`. -/
def addPath (cx : Cx) (db : Db) (d : Nat) (pat : Str) (orderid : Nat) (copy : Bool) (nl : NameList) :
    Res (Db × NameList) :=
  match db.node d with
  | none => .error
  | some n =>
    if isPattern pat then
      if n.kind = .ghost then .error
      else
        match addRows cx db pat orderid (rows cx db d pat) nl with
        | .error => .error
        | .ub => .ub
        | .ok nl =>
          match source cx db d with
          | none => .ok (db, nl)
          | some s =>
            match addRows cx db pat orderid (rows cx db s pat) nl with
            | .ok nl => .ok (db, nl)
            | .error => .error
            | .ub => .ub
    else
      match look cx db d pat copy with
      | none => .error
      | some (db1, i) =>
        match check cx db1 (source cx db d) pat i with
        | none => .error
        | some j =>
          match addNode cx db1 pat false orderid nl j with
          | .ok nl => .ok (db1, nl)
          | .error => .error
          | .ub => .ub

end Tup.Lookup
