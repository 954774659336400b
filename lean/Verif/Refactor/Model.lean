import Verif.Basic

/-!
`tup refactor`: the Tupfiles are parsed, and whatever would change is an error.  src/tup/parser.c:158-396, 3105-3120, 3470-3727; src/tup/db.c:805-813, 2099-2141, 3050-3091, 3339-3385, 5899-6067, 6268-6498;
src/tup/updater.c:187-190, 679-719, 1384-1394, 1627-1636.

One Tupfile is parsed, in the top directory of the only variant, and all commands belong to it.  The rules are given with their strings expanded and the nodes of their inputs and outputs known (C05, C06, C51).  The number of
changes that the database counts is kept next to the number of those that are expected.
-/

namespace Tup.Refactor

/-- A command in the database: its row in the table of nodes, its sticky inputs, its outputs, the files it excludes from its outputs, and its group; src/tup/db.c:5469-5520, 5714-5745, as `tup_db_get_inputs` and
`tup_db_get_outputs` give them. -/
structure Cmd where
  id : Nat
  name : Str
  display : Option Str
  flags : Str
  ins : List Nat
  outs : List Nat
  excl : List Nat
  group : Option Nat
  deriving DecidableEq, Repr

/-- What a rule asks for: the local variables of `do_rule`, src/tup/parser.c:3475-3717. -/
structure Rule where
  name : Str
  display : Option Str
  flags : Str
  ins : List Nat
  outs : List Nat
  excl : List Nat
  group : Option Nat
  deriving DecidableEq, Repr

/-- The database: the commands, `modify_list`, the links to the directory, `sqlite3_total_changes` and `expected_changes` (src/tup/db.c:805-813). -/
structure Db where
  cmds : List Cmd
  modify : List Nat
  dirs : List Nat
  changes : Nat
  expected : Nat
  deriving DecidableEq, Repr

/-- The elements of the first list that the second has not: the calls that `compare_tent_trees` makes, src/tup/db.c:5747-5790 (C26). -/
def diff (a b : List Nat) : List Nat := a.filter (fun x => !b.contains x)

/-- `tup_db_select_tent`, for the commands of the directory; src/tup/parser.c:3573-3576. -/
def byName (cmds : List Cmd) (n : Str) : Option Cmd := cmds.find? (fun c => c.name == n)

/-- `tup_db_get_incoming_link`, src/tup/db.c:3450-3500. -/
def owner (cmds : List Cmd) (f : Nat) : Option Cmd := cmds.find? (fun c => c.outs.contains f)

/-- `find_existing_command`, src/tup/parser.c:3105-3120. -/
def existing (cmds : List Cmd) : List Nat → Option Cmd
  | [] => none
  | f :: l =>
    match owner cmds f with
    | some c => some c
    | none => existing cmds l

/-- An update of the row, or of the links, of one command; the statements of src/tup/db.c:2044-2190. -/
def put (cmds : List Cmd) (id : Nat) (f : Cmd → Cmd) : List Cmd := cmds.map (fun c => if c.id == id then f c else c)

/-- A number that no node has: `sqlite3_last_insert_rowid`, src/tup/db.c:6592. -/
def fresh (cmds : List Cmd) : Nat := (cmds.map (·.id)).foldl max 0 + 1

/-- The command of a rule, whether it is an old one with another string, and `compare_display_flags`: src/tup/parser.c:3573-3616.  With `ref`, an error if there is no command with that string. -/
def locate (ref : Bool) (t : Db) (r : Rule) : Option (Db × Cmd × Bool × Bool) :=
  match byName t.cmds r.name with
  | some c => some (t, c, false, true)
  | none =>
    match existing t.cmds r.outs with
    | none =>
      if ref then none
      else
        let c : Cmd := ⟨fresh t.cmds, r.name, r.display, r.flags, [], [], [], none⟩
        some ({ t with cmds := t.cmds ++ [c], modify := c.id :: t.modify, changes := t.changes + 2, expected := t.expected + 1 }, c, false, false)
    | some c =>
      if ref then none
      else some ({ t with cmds := put t.cmds c.id (fun c => { c with name := r.name }), changes := t.changes + 1 }, { c with name := r.name }, true, true)

/-- src/tup/parser.c:3617-3622 with `tup_db_set_display`, src/tup/db.c:2099-2141, which is not counted as expected. -/
def setDisplay (t : Db) (c : Cmd) (r : Rule) : Db :=
  if c.display = r.display then t else { t with cmds := put t.cmds c.id (fun c => { c with display := r.display }), changes := t.changes + 1 }

/-- src/tup/parser.c:3623-3636 with `tup_db_set_flags`. -/
def setFlags (ref : Bool) (t : Db) (c : Cmd) (r : Rule) (modified : Bool) : Option (Db × Bool) :=
  if c.flags = r.flags then some (t, modified)
  else if ref then none
  else some ({ t with cmds := put t.cmds c.id (fun c => { c with flags := r.flags }), changes := t.changes + 1 }, true)

/-- `tup_db_create_unique_link` for each output: it is taken from the command that had it.  src/tup/db.c:3339-3385 and src/tup/parser.c:3651-3680.  Files without a command that are still in a group are left out. -/
def unique (t : Db) (id : Nat) : List Nat → Db
  | [] => t
  | f :: l =>
    match owner t.cmds f with
    | none => unique t id l
    | some c =>
      if c.id = id then unique t id l
      else unique { t with cmds := put t.cmds c.id (fun c => { c with outs := c.outs.filter (· ≠ f) }), changes := t.changes + 1 + (if c.group.isSome then 1 else 0) } id l

/-- `tup_db_write_outputs`, src/tup/db.c:6331-6440; `c` is the command as it is before.  The changes of the database that an error undoes are not counted. -/
def writeOutputs (ref : Bool) (t : Db) (c : Cmd) (r : Rule) (modified : Bool) : Option Db :=
  let differ := modified || c.group ≠ r.group || diff c.outs r.outs ≠ [] || diff r.outs c.outs ≠ [] || diff c.excl r.excl ≠ [] || diff r.excl c.excl ≠ []
  if differ then
    if ref then none
    else some { t with
      cmds := put t.cmds c.id (fun c => { c with outs := r.outs, excl := r.excl, group := r.group }), modify := c.id :: t.modify,
      changes := t.changes + (diff c.outs r.outs).length + (diff r.outs c.outs).length + (diff c.excl r.excl).length + (diff r.excl c.excl).length + (if c.group = r.group then 0 else 1) + 1 }
  else some t

/-- `tup_db_write_inputs` with `add_sticky` and `rm_sticky`, src/tup/db.c:5899-6067.  The normal links, the environment and the links between groups are left out. -/
def writeInputs (ref : Bool) (t : Db) (c : Cmd) (r : Rule) : Option Db :=
  if diff r.ins c.ins = [] ∧ diff c.ins r.ins = [] then some t
  else if ref then none
  else some { t with cmds := put t.cmds c.id (fun c => { c with ins := r.ins }), changes := t.changes + (diff r.ins c.ins).length + (diff c.ins r.ins).length }

/-- `do_rule`, src/tup/parser.c:3475-3727; `seen` is `tf->cmd_root`. -/
def doRule (ref : Bool) (r : Rule) (t : Db) (seen : List Nat) : Option (Db × List Nat) :=
  match locate ref t r with
  | none => none
  | some (t1, c, modified, compare) =>
    match (if compare then setFlags ref (setDisplay t1 c r) c r modified else some (t1, modified)) with
    | none => none
    | some (t2, modified) =>
      if c.id ∈ seen then none
      else
        match writeOutputs ref (unique t2 c.id r.outs) c r modified with
        | none => none
        | some t3 =>
          match writeInputs ref t3 c r with
          | none => none
          | some t4 => some (t4, c.id :: seen)

/-- The rules of the Tupfile, one after the other. -/
def doRules (ref : Bool) : List Rule → Db → List Nat → Option (Db × List Nat)
  | [], t, seen => some (t, seen)
  | r :: l, t, seen =>
    match doRule ref r t seen with
    | none => none
    | some (t', seen') => doRules ref l t' seen'

/-- The end of `parse`, src/tup/parser.c:341-358: commands without a rule are an error with `ref`; else `delete_files` removes them, src/tup/updater.c:700-719.  The links to the directory are replaced,
`tup_db_write_dir_inputs`, src/tup/db.c:6447-6498; these changes are expected. -/
def finish (ref : Bool) (dirs : List Nat) (t : Db) (seen : List Nat) : Option Db :=
  let left := t.cmds.filter (fun c => !seen.contains c.id)
  if ref ∧ left ≠ [] then none
  else
    let n := (diff dirs t.dirs).length + (diff t.dirs dirs).length
    some { t with cmds := t.cmds.filter (fun c => seen.contains c.id), dirs := dirs, changes := t.changes + left.length + n, expected := t.expected + n }

/-- `process_create_nodes`, src/tup/updater.c:1384-1645: with `ref`, an error if the difference of `tup_db_changes` is not the same as before.  No result: the database is rolled back (C43). -/
def process (ref : Bool) (rules : List Rule) (dirs : List Nat) (t : Db) : Option Db :=
  match doRules ref rules t [] with
  | none => none
  | some (t1, seen) =>
    match finish ref dirs t1 seen with
    | none => none
    | some t2 => if ref ∧ t2.changes + t.expected ≠ t.changes + t2.expected then none else some t2

end Tup.Refactor
