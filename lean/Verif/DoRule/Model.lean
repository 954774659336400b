import Verif.Links.Write
import Verif.Links.Create

/-! What the parser does with one rule once its strings are expanded. -/

namespace Tup.DoRule

open Tup.Db Tup.Links

/-- One element of the list of outputs after `path_list_fill_dt_pel`, src/tup/parser.c:3272: a file (its directory, its path as
written, relative to the Tupfile, and in a variant the directory of the sources that corresponds to its directory, `srctent`, 3333), an
exclusion (`pl->re`), or a group (`pl->group`). -/
inductive Out where
  | file (dir : Nat) (path : Str) (src : Option Nat)
  | exclusion (pattern : Str)
  | group (dir : Nat) (name : Str)
deriving DecidableEq

/-- What `do_rule`, src/tup/parser.c:3475-3726, works with: `tf->tent`, the command string (expanded), the outputs (expanded; those of
`r->extra_outputs` and `r->bang_extra_outputs` together), the nodes of the inputs `nl`, the order-only inputs (`r->order_only_inputs`,
then `r->bang_oo_inputs`), `tf->env_root`, the flag 't', whether the other flags that are stored for the command differ, the
prefix of the variant (none: the root variant), and `is_variant_copy`.  Inputs without a node are left out. -/
structure Spec where
  dir : Nat
  cmd : Str
  outputs : List Out
  extra : List Out := []
  inputs : List Nat := []
  order : List Nat := []
  env : List Nat := []
  transient : Bool := false
  newFlags : Bool := false
  variant : Option Str := none
  copy : Bool := false

/-- What changes while the Tupfiles are parsed: the tables; `g->cmd_delete_root`, the commands of the directories that are parsed which
no rule has claimed yet; for each node of the graph whether its parsing has begun (`find_node`, `n->parsing`; `none`: the
directory is not in the graph); and `tf->cmd_root` for each directory. -/
structure Parse where
  db : Db
  doomed : Nat → Bool
  parsing : Nat → Option Bool
  seen : Nat → Nat → Bool

/-- The names of src/tup/parser.c:3356-3360. -/
def reserved : List Str :=
  ["Tupfile".toList, "Tuprules.tup".toList, "Tupfile.lua".toList, "Tuprules.lua".toList, "tup.config".toList]

/-- `onle->path` at the check of the reserved names, src/tup/parser.c:3345-3354. -/
def fullPath (variant : Option Str) (path : Str) : Str :=
  match variant with
  | none => path
  | some p => p ++ '/' :: path

/-- `set_nle_base`, src/tup/parser.c:3738-3756: what follows the last slash. -/
def base (path : Str) : Str := (path.reverse.takeWhile fun c => c ≠ '/').reverse

/-- `tup_db_get_incoming_link`, src/tup/db.c:3450-3486: `none` if there are several.  Simplified: the code keeps the result in
`tent->incoming`, which `rm_output` does not reset, so that it can return a link that has been removed since; here the table is
read every time. -/
def incoming (db : Db) (b : Nat) : Option (Option Nat) :=
  match normalInputs db b with
  | [] => some none
  | [c] => some (some c)
  | _ => none

/-- May a rule take that file away from the command which writes it?  src/tup/parser.c:3178-3187. -/
def available (p : Parse) (src : Option Nat) (c : Nat) : Bool :=
  p.doomed c || (match src with
    | some s => decide (p.parsing s = some false)
    | none => false)

/-- `validate_output`, src/tup/parser.c:3161-3204. -/
def validate (p : Parse) (db : Db) (d : Nat) (name : Str) : Bool :=
  match db.select d name with
  | none => true
  | some i =>
    match db.node i with
    | none => false
    | some n =>
      if n.kind = .ghost ∨ n.kind = .generated then
        match incoming db i with
        | none => false
        | some none => true
        | some (some c) => available p n.src c
      else false

/-- `tup_db_create_node_part_display`, src/tup/db.c:999-1139, for an output file.  A node of another type with that name is deleted
first; the recursion that this needs is bounded by 3, enough for files. -/
def createFile (db : Db) (d : Nat) (name : Str) (src : Option Nat) (trans : Bool) : Option (Db × Nat) :=
  createNode id 3 db d name .generated src trans

/-- `tup_db_create_node_part_display`, src/tup/db.c:999-1139, with `createNode` for nodes that do not have to be deleted before (a
bound of 1 on the depth).  That is so for exclusions; where a group has the name of a node of another type the code deletes the node
and goes on, and this is an error here. -/
def create (db : Db) (d : Nat) (name : Str) (kind : Kind) (src : Option Nat) (trans : Bool) : Option (Db × Nat) :=
  createNode id 1 db d name kind src trans

/-- The value of `node_changed`: a node that was not there or was a ghost. -/
def isNew (db : Db) (d : Nat) (name : Str) : Bool :=
  match db.select d name with
  | none => true
  | some i => db.isKind .ghost i

/-- What `do_rule_outputs` adds to: the tables, `onl`, `exclusion_root`, `group`, `command_modified`.  `output_root` has the same
nodes as `onl` and `extra_onl`. -/
structure Outs where
  db : Db
  outputs : List Nat := []
  exclusions : List Nat := []
  group : Option Nat := none
  modified : Bool := false

/-- The check in the directory of the sources, src/tup/parser.c:3328-3344.  The name that is looked up is the whole path. -/
def inSource (r : Spec) (db : Db) (path : Str) (src : Option Nat) : Bool :=
  match r.variant, src with
  | some _, some d =>
    !r.copy && (match db.select d path with
      | some i => !db.isKind .ghost i
      | none => false)
  | _, _ => false

/-- An output file, src/tup/parser.c:3304-3409. -/
def addFile (p : Parse) (r : Spec) (s : Outs) (d : Nat) (path : Str) (src : Option Nat) : Option Outs :=
  if inSource r s.db path src then none
  else if fullPath r.variant path ∈ reserved then none
  else if !validate p s.db d (base path) then none
  else
    match createFile s.db d (base path) (some r.dir) r.transient with
    | none => none
    | some (db, i) =>
      if i ∈ s.outputs then none
      else some { s with db := db, outputs := s.outputs ++ [i], modified := s.modified || isNew s.db d (base path) }

/-- A group, src/tup/parser.c:3278-3291. -/
def addGroup (s : Outs) (d : Nat) (name : Str) : Option Outs :=
  match s.group with
  | some _ => none
  | none =>
    match create s.db d name .group none false with
    | none => none
    | some (db, g) => some { s with db := db, group := some g }

/-- An exclusion, src/tup/parser.c:3292-3306. -/
def addExclusion (excl : Nat) (s : Outs) (pattern : Str) : Option Outs :=
  match create s.db excl pattern .ghost none false with
  | none => none
  | some (db, i) => if i ∈ s.exclusions then none else some { s with db := db, exclusions := s.exclusions ++ [i] }

/-- One turn of the loop of `do_rule_outputs`, src/tup/parser.c:3268-3410.  Where the code notes an error and goes on to report
others (`rc = -1; continue`), this stops: the rule fails in either case, and the transaction is rolled back.  The additions to
`parse_gitignore_root` and `directory_root` are left out. -/
def addOut (excl : Nat) (p : Parse) (r : Spec) (s : Outs) : Out → Option Outs
  | .file d path src => addFile p r s d path src
  | .exclusion pattern => addExclusion excl s pattern
  | .group d name => addGroup s d name

/-- `do_rule_outputs`, src/tup/parser.c:3206-3413, after the expansion of the strings. -/
def addOuts (excl : Nat) (p : Parse) (r : Spec) : List Out → Outs → Option Outs
  | [], s => some s
  | o :: l, s =>
    match addOut excl p r s o with
    | none => none
    | some s => addOuts excl p r l s

/-- `find_existing_command`, src/tup/parser.c:3105-3120: the command that writes the first of the outputs that has one. -/
def existing (db : Db) : List Nat → Option (Option Nat)
  | [] => some none
  | b :: l =>
    match incoming db b with
    | none => none
    | some (some c) => some (some c)
    | some none => existing db l

/-- `tup_db_set_name`, src/tup/db.c:2044-2096. -/
def setName (db : Db) (i : Nat) (d : Nat) (name : Str) : Db :=
  { db with node := fun j => if j = i then (db.node j).map fun n => { n with dir := d, name := name } else db.node j }

/-- The comparison of the flags of a command that is there already, src/tup/parser.c:3621-3637 (`display` is left out). -/
def newFlags (r : Spec) (db : Db) (c : Nat) : Bool :=
  r.newFlags || (match db.node c with
    | some n => n.transient != r.transient
    | none => false)

/-- The command, src/tup/parser.c:3561-3637: the node with that string, or the one that has the first of the outputs, which
gets the new string, or a new one, which goes to the modify list (`tup_db_node_insert_tent_display`, src/tup/db.c:6596-6602).  The result has the tables, the id, and `command_modified`.  `main` are the nodes of `onl`. -/
def findCommand (r : Spec) (main : List Nat) (db : Db) (modified : Bool) : Option (Db × Nat × Bool) :=
  match db.select r.dir r.cmd with
  | some c =>
    if db.isKind .cmd c then some (setTransient db c r.transient, c, modified || newFlags r db c) else none
  | none =>
    match existing db main with
    | none => none
    | some (some c) => some (setTransient (setName db c r.dir r.cmd) c r.transient, c, true)
    | some none => (create db r.dir r.cmd .cmd none r.transient).map fun (db, c) => (db.addModify c, c, modified)

/-- `get_output_group`, src/tup/db.c:3268-3337. -/
def outputGroup (db : Db) (c : Nat) : Option (Option Nat) :=
  match oldGroups db c with
  | [] => some none
  | [g] => some (some g)
  | _ => none

/-- The removal from that group, src/tup/db.c:3352-3360, 3376-3381. -/
def leave (db : Db) (b : Nat) : Option Nat → Db
  | none => db
  | some g => (removeLink db b g).addGhost g

/-- `tup_db_create_unique_link`, src/tup/db.c:3339-3385.  Despite its name it only removes the link of another command. -/
def uniqueLink (db : Db) (c b : Nat) : Option Db :=
  match incoming db b with
  | none => none
  | some none => (outputGroup db b).map fun g => leave db b g
  | some (some c') =>
    if c' = c then some db
    else (outputGroup db c').map fun g => removeLink (leave db b g) c' b

/-- src/tup/parser.c:3650-3674 -/
def uniqueLinks (c : Nat) : List Nat → Db → Option Db
  | [], db => some db
  | b :: l, db =>
    match uniqueLink db c b with
    | none => none
    | some db => uniqueLinks c l db

/-- `add_input`, src/tup/parser.c:3122-3159: what one input adds to the tree. -/
def inputNodes (db : Db) (force : Bool) (a : Nat) : Option (List Nat) :=
  if db.isKind .generated a then
    match incoming db a with
    | some (some c) => some (a :: groupInputs db c)
    | _ => none
  else if db.isKind .var a || db.isKind .group a then some [a]
  else if db.isKind .file a && force then some [a]
  else some []

/-- The same for a list. -/
def inputsNodes (db : Db) (force : Bool) : List Nat → Option (List Nat)
  | [] => some []
  | a :: l =>
    match inputNodes db force a, inputsNodes db force l with
    | some x, some y => some (x ++ y)
    | _, _ => none

/-- src/tup/parser.c:3676-3697 -/
def allInputs (r : Spec) (db : Db) : Option (List Nat) :=
  match inputsNodes db true r.inputs, inputsNodes db false (r.order ++ r.env) with
  | some x, some y => some (x ++ y)
  | _, _ => none

/-- A tree of entries: the ids in order, each once. -/
def tree (db : Db) (l : List Nat) : List Nat := (List.range db.top).filter fun a => decide (a ∈ l)

/-- The rule as it is handed to `tup_db_write_outputs` and `tup_db_write_inputs`. -/
def toRule (r : Spec) (s : Outs) (db : Db) (c : Nat) (modified : Bool) (inputs : List Nat) : Rule :=
  { cmd := c, modified := modified, inputs := tree db inputs, env := tree db r.env, outputs := tree db s.outputs,
    exclusions := tree db s.exclusions, group := s.group }

/-- Is the group among the inputs, or one of the outputs?  src/tup/parser.c:3698-3716. -/
def circular (s : Outs) (inputs : List Nat) : Bool :=
  (match s.group with
    | some g => decide (g ∈ inputs)
    | none => false) || s.outputs.any fun b => decide (b ∈ inputs)

/-- From the links on, src/tup/parser.c:3650-3721.  `c` is the command. -/
def linkRule (excl : Nat) (r : Spec) (s : Outs) (db : Db) (c : Nat) (modified : Bool) : Option Db :=
  match uniqueLinks c s.outputs db with
  | none => none
  | some db =>
    match allInputs r db with
    | none => none
    | some inputs => if circular s inputs then none else writeRule false excl (toRule r s db c modified inputs) db

/-- The test for `is_variant_copy`, src/tup/parser.c:3537-3542.  `main` are the nodes of `onl`. -/
def copyOk (r : Spec) (main : List Nat) : Bool := !r.copy || (decide (main.length = 1) && decide (r.inputs.length = 1))

/-- `do_rule`, src/tup/parser.c:3475-3726, from the outputs on (3522), for a rule with a command, not while refactoring.  Left out are
the bins, `gen_delete_root` and `save_root`. -/
def doRule (excl : Nat) (r : Spec) (p : Parse) : Option Parse :=
  match addOuts excl p r r.outputs { db := p.db } with
  | none => none
  | some m =>
    match addOuts excl p r r.extra m with
    | none => none
    | some s =>
      if !copyOk r m.outputs then none
      else
        match findCommand r m.outputs s.db s.modified with
        | none => none
        | some (db, c, modified) =>
          if p.seen r.dir c then none
          else
            match linkRule excl r s db c modified with
            | none => none
            | some db =>
              some { p with db := db, doomed := fun i => p.doomed i && !decide (i = c),
                            seen := fun d i => p.seen d i || (decide (d = r.dir) && decide (i = c)) }

/-- The beginning of `parse`, src/tup/parser.c:173-241: the directory is in the graph and its parsing has not begun; its
commands are to be deleted unless a rule claims them. -/
def beginParse (d : Nat) (p : Parse) : Option Parse :=
  if p.parsing d = some false then
    some { p with
      doomed := fun i => p.doomed i || (p.db.isKind .cmd i && inDir p.db d i)
      parsing := fun e => if e = d then some true else p.parsing e
      seen := fun e i => p.seen e i && !decide (e = d) }
  else none

/-- The beginning of `process_create_nodes`, src/tup/updater.c:1384-1507: the graph has those directories. -/
def beginUpdate (dirs : Nat → Bool) (db : Db) : Parse :=
  { db := db, doomed := fun _ => false, parsing := fun d => if dirs d then some false else none, seen := fun _ _ => false }

end Tup.DoRule
