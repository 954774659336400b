import Verif.Db.Lemmas
import Verif.PathList.Model

/-!
The scripts that a Tupfile runs to produce rules: `preload`, `run_script` and `export` of src/tup/parser.c, and what such a
script sees of directories: `tup_fs_readdir` of src/tup/server/fuse_fs.c in the mode of the parser.
-/

namespace Tup.RunScript

open Tup.Db Tup.PathList

/-- What other functions change while a Tupfile is parsed: the database, and `tf->g->gen_delete_root`, the files whose
command is not known (yet) to exist any more.  `ok`: see `Db.top`. -/
structure W where
  db : Db
  gone : Nat → Bool
  ok : Bounded db

/-- What the functions use besides. -/
structure Cx where
  /-- `tf->tent`: the directory whose Tupfile is parsed -/
  me : Nat
  /-- `tf->variant->root_variant`: no variant is built -/
  root : Bool
  /-- `tup_entry_variant(…)->root_variant`, src/tup/entry.c:427-446: the directory is not in a variant -/
  inRoot : Nat → Bool
  /-- `snprint_tup_entry`, src/tup/entry.c:274-285: the path of a node from the top of the project; it begins with `/`, and is empty
  for the top itself -/
  path : Db → Nat → Str
  /-- the order in which SQLite returns rows (the statement asks for none) -/
  order : List Nat → List Nat
  /-- `get_tup_top()`: the path of the project -/
  top : Str
  /-- the names in a directory outside of the project; `none`: it cannot be opened.  Simplified: it does not change. -/
  outside : Str → Option (List Str)
  /-- which regular expressions PCRE2 compiles -/
  reOk : Str → Bool
  /-- `path_list_fill_dt_pel`, parser.c:2486-2540, from `tf->curtent`: the directory and the last element of the path; `none`: it
  fails, or the path is outside of the project, where `pl->dt` stays -1 and `tup_entry_add` fails (950) -/
  fill : Db → Str → Option (Nat × Str)
  /-- parser.c:2590-2605: the directory is not in another variant -/
  usable : W → Nat → Bool
  /-- parser.c:2606-2633: parse the Tupfile of the directory if that is due -/
  parse : W → Nat → Option W
  /-- `parse_rule`, parser.c:1228 ff.; the list is `tf->input_root` -/
  rule : W → List Nat → Str → Option (W × List Nat)

/-- `tf->ps->directories`: the lists of names that were made, by path. -/
abbrev Dirs := List (Str × List Str)

/-- `is_virtual_tent`, src/tup/db.c:5349-5360. -/
def virtual (n : Node) : Bool :=
  decide (n.dir = 1) && (decide (n.name = ['$']) || decide (n.name = ['/']) || decide (n.name = ['^']))

/-- The loop of `tup_db_select_node_dir_glob`, db.c:1387-1492, with the pattern `*` and with directories, which calls
`readdir_parser_cb`, parser.c:849-865.  `string_tree_add` refuses a name that is there already. -/
def addNames (w : W) (d : Nat) (names : List Str) (i : Nat) : List Str :=
  match w.db.node i with
  | none => names
  | some n =>
    if decide (n.dir = d) && (decide (n.kind = .file) || decide (n.kind = .generated) || decide (n.kind = .dir)) then
      if w.gone i then names
      else if virtual n then names
      else if n.name ∈ names then names
      else names ++ [n.name]
    else names

/-- `tup_db_select_node_dir_glob` as `gen_dir_list` uses it, parser.c:907-917. -/
def select (cx : Cx) (w : W) (d : Nat) (names : List Str) : List Str :=
  (cx.order (List.range w.db.top)).foldl (addNames w d) names

/-- `variant_tent_to_srctent`, src/tup/variant.c:184-193. -/
def shownAs (cx : Cx) (db : Db) (d : Nat) : Nat :=
  if cx.inRoot d then d
  else
    match db.node d with
    | none => d
    | some n =>
      match n.src with
      | none => d
      | some s => if (db.node s).isSome then s else d

/-- `gen_dir_list`, parser.c:885-929.  `variant_get_srctent`, variant.c:171-182.  Simplified: see `Node.src`; such a directory is
removed before anything in it is parsed. -/
def genDirList (cx : Cx) (w : W) (dirs : Dirs) (d : Nat) : Option Dirs :=
  match w.db.node d with
  | none => none
  | some n =>
    let path := cx.path w.db (shownAs cx w.db d)
    if pathMax ≤ path.length then none
    else
      let names := select cx w d []
      match cx.root, n.src with
      | false, some s =>
        match w.db.node s with
        | none => none
        | some _ => some ((path, select cx w s names) :: dirs.filter fun e => decide (e.1 ≠ path))
      | _, _ => some ((path, names) :: dirs.filter fun e => decide (e.1 ≠ path))

/-- The loop parser.c:979-982. -/
def genDirLists (cx : Cx) (w : W) : Dirs → List Nat → Option Dirs
  | dirs, [] => some dirs
  | dirs, d :: l =>
    match genDirList cx w dirs d with
    | none => none
    | some dirs => genDirLists cx w dirs l

/-- One path of `preload`, parser.c:947-974, after its variables were replaced (C48): its directory, and whether it was taken for
a group.  `preload` gives `get_path_list` no bins.  An exclusion has no last element: `pl->pel` is NULL at 952. -/
def target (cx : Cx) (db : Db) (s : Str) : Res (Nat × Bool) :=
  match newPl none cx.reOk s with
  | none => .err
  | some (.excl _) => .ub
  | some k =>
    match cx.fill db s with
    | none => .err
    | some (d, last) =>
      match db.node d with
      | none => .err
      | some n =>
        match (if last = ['.', '.'] then (if n.dir = 0 then none else some n.dir) else db.select d last) with
        | none => .err
        | some i => if db.isKind .dir i then .ok (i, decide (k = .group)) else .err

/-- The first loop of `preload`, parser.c:947-974. -/
def targets (cx : Cx) (db : Db) : List Str → Res (List (Nat × Bool))
  | [] => .ok []
  | s :: l =>
    match target cx db s with
    | .err => .err
    | .ub => .ub
    | .ok t =>
      match targets cx db l with
      | .ok ts => .ok (t :: ts)
      | e => e

/-- `parse_dependent_tupfiles`, parser.c:2576-2638, for directories (2600-2605 is about generated directories, which
`preload` refuses). -/
def parseAll (cx : Cx) : W → List Nat → List (Nat × Bool) → Option (W × List Nat)
  | w, ins, [] => some (w, ins)
  | w, ins, (d, group) :: l =>
    if group || decide (d = cx.me) then parseAll cx w ins l
    else if !cx.usable w d then none
    else
      match cx.parse w d with
      | none => none
      | some w => parseAll cx w (ins ++ [d]) l

/-- What is kept while a Tupfile is parsed: `tf->ps->directories`, `tf->input_root`, `tf->env_root` and
`ps->s.finfo.server_fail`. -/
structure St where
  w : W
  dirs : Dirs
  ins : List Nat
  env : List Nat
  fail : Bool

/-- `preload`, parser.c:931-984; `words` are the paths after `get_path_list` and `eval_path_list` (C04, C78).  An error that
`new_pl` reports for one of them is reported before the others are looked at: that makes no difference to the result, except
that it comes before undefined behaviour, hence the first test. -/
def preload (cx : Cx) (st : St) (words : List Str) : Res (St × List Nat) :=
  if words.any fun s => (newPl none cx.reOk s).isNone then .err
  else
    match targets cx st.w.db words with
    | .err => .err
    | .ub => .ub
    | .ok ts =>
      match parseAll cx st.w st.ins ts with
      | none => .err
      | some (w, ins) =>
        match genDirLists cx w st.dirs (ts.map (·.1)) with
        | none => .err
        | some dirs => .ok ({ st with w, ins, dirs }, ts.map (·.1))

/-- `readdir_parser`, src/tup/server/fuse_fs.c:575-586, `tup_fuse_server_get_dir_entries`, src/tup/server/fuse_server.c:846-877, and
`fill_actual_directory`, fuse_fs.c:557-573; `none`: `-EPERM`. -/
def readdir (cx : Cx) (dirs : Dirs) (path : Str) : Option (List Str) :=
  if cx.top.isPrefixOf path then
    (dirs.find? fun e => decide (e.1 = path.drop cx.top.length)).map (·.2)
  else
    match cx.outside path with
    | some l => some l
    | none => some []

/-- A script: it reads directories and goes on as it likes, and finally ends, successfully or not, after printing
something.  What it does otherwise (with files) is not part of the model. -/
inductive Script where
  | list (path : Str) (k : Option (List Str) → Script)
  | done (ok : Bool) (out : Str)

/-- What a script saw: the directories it read and the answers. -/
abbrev Log := List (Str × Option (List Str))

/-- The run of a script.  fuse_fs.c:611-619: the flag `server_fail` is set if a directory is refused. -/
def exec (cx : Cx) (dirs : Dirs) : Script → Bool → Log × Bool × Bool × Str
  | .done ok out, fail => ([], fail, ok, out)
  | .list path k, fail =>
    let a := readdir cx dirs path
    let r := exec cx dirs (k a) (fail || a.isNone)
    ((path, a) :: r.1, r.2)

/-- The loop parser.c:1027-1056 over the output of a script; `cur` is the line so far. -/
def rules (rule : W → List Nat → Str → Option (W × List Nat)) : W → List Nat → Str → Str → Option (W × List Nat)
  | w, ins, cur, [] => if cur = [] then some (w, ins) else none
  | w, ins, cur, c :: s =>
    if c = '\n' then
      match cur with
      | ':' :: r =>
        match rule w ins r with
        | none => none
        | some (w, ins) => rules rule w ins [] s
      | [] => rules rule w ins [] s
      | '#' :: _ => rules rule w ins [] s
      | _ => none
    else rules rule w ins (cur ++ [c]) s

/-- `exec_run_script`, parser.c:1000-1066, and `server_run_script`, fuse_server.c:599-653: a script that fails is an error; of the output
only what is before the first byte 0 is looked at.  Only with the FUSE server (`tf->use_server`).  What the script saw is
given also if the parser reports an error afterwards. -/
def run (cx : Cx) (st : St) (script : Script) : Log × Option St :=
  match genDirList cx st.w st.dirs cx.me with
  | none => ([], none)
  | some dirs =>
    let ins := st.ins ++ st.env
    match exec cx dirs script st.fail with
    | (log, fail, ok, out) =>
      if ok then
        match rules cx.rule st.w ins [] (out.takeWhile fun c => decide (c ≠ '\x00')) with
        | none => (log, none)
        | some (w, ins) => (log, some { st with w, dirs, ins, fail })
      else (log, none)

/-- A line of a Tupfile, parser.c:600-690. -/
inductive Op where
  | preload (words : List Str)
  | run (script : Script)
  /-- the node of the variable, parser.c:1068-1085 -/
  | exports (var : Nat)
  /-- any other line: it may change the database and add to `tf->input_root` -/
  | other (f : W → List Nat → Option (W × List Nat))

/-- One line; `none`: an error, which ends the parsing. -/
def step (cx : Cx) (st : St) : Op → Res St
  | .preload words =>
    match preload cx st words with
    | .ok r => .ok r.1
    | .err => .err
    | .ub => .ub
  | .run script =>
    match (run cx st script).2 with
    | some st => .ok st
    | none => .err
  | .exports v => .ok { st with env := st.env ++ [v] }
  | .other f =>
    match f st.w st.ins with
    | none => .err
    | some (w, ins) => .ok { st with w, ins }

/-- The lines of a Tupfile. -/
def steps (cx : Cx) : St → List Op → Res St
  | st, [] => .ok st
  | st, op :: ops =>
    match step cx st op with
    | .ok st => steps cx st ops
    | .err => .err
    | .ub => .ub

/-- `parse`, parser.c:158-396: the lists are empty in the beginning (209), the lines are read, and at the end
`server_parser_stop` (fuse_server.c:821-844) reports an error if a directory was refused.  The result is what `add_parser_files`
and `tup_db_write_dir_inputs` are given. -/
def parse (cx : Cx) (w : W) (env : List Nat) (ops : List Op) : Res St :=
  match steps cx { w, dirs := [], ins := [], env, fail := false } ops with
  | .ok st => if st.fail then .err else .ok st
  | .err => .err
  | .ub => .ub

end Tup.RunScript
