import Verif.Eval.Model
import Verif.Relative.Model

/-! The directories that a Tupfile can name: `$(TUP_CWD)`, `$(TUP_VARIANTDIR)`, `$(TUP_VARIANT_OUTPUTDIR)`, `%d`, node variables, and the Lua
functions that correspond to them.  The expansion of references itself is `Verif.Eval` (C05), the relative path `Verif.Relative` (C14). -/

namespace Tup.TupDirs

/-- The nodes of the project, the directory of the sources that a directory of a variant stands for (`srcid` in src/tup/entry.h, none outside of
variants), a bound for the depth of the tree, and the path of the top of the project (`get_tup_top`, src/tup/config.c). -/
structure Proj where
  T : Relative.Table
  srcid : Nat → Option Nat
  fuel : Nat
  top : Str

/-- The directory that is parsed and the directory of the file that is read at the moment: `tent` and `curtent` of `struct tupfile`,
src/tup/parser.h.  `curtent` is that of the included file while a file is included, src/tup/parser.c:220, 1408, 1459. -/
structure Tupfile where
  tent : Nat
  cur : Nat

/-- `DOT_DT`, src/tup/db_types.h. -/
def dot : Nat := 1

/-- `variant_tent_to_srctent`, src/tup/variant.c:171-193. -/
def Proj.src (P : Proj) (id : Nat) : Nat :=
  match P.srcid id with
  | some s => s
  | none => id

/-- `get_relative_dir`, src/tup/entry.c:718-722. -/
def Proj.rel (P : Proj) (a b : Nat) : Option Str := Relative.relative P.T P.fuel a b '/'

/-- The variables: of tup.config, those of the Tupfile, and the node variables. -/
structure Vars where
  config : Str → Option Str
  var : Str → Option Str
  nodeVar : Str → Str

/-- What the references stand for in a file, src/tup/parser.c:4245-4290. -/
def env (P : Proj) (tf : Tupfile) (V : Vars) : Eval.Env where
  cwd := P.rel tf.tent tf.cur
  outputDir := P.rel (P.src tf.tent) tf.tent
  dirId := tf.cur
  config := V.config
  var := V.var
  nodeVar := V.nodeVar

/-- `KEEP_NODES`, `EXPAND_NODES` and `EXPAND_NODES_SRC`, src/tup/parser.h.  Commands and include lines are read with the second, inputs and
outputs with the third, values of variables with the first. -/
inductive Mode where
  | keep | expand | expandSrc
deriving DecidableEq

/-- The path of a node reference, src/tup/parser.c:4179-4193. -/
def nodePath (P : Proj) (tf : Tupfile) (srcOnly : Bool) (id : Nat) : Option Str :=
  match P.T id with
  | none => none
  | some _ => P.rel (P.src tf.cur) (if srcOnly then P.src id else id)

/-- `eval`, src/tup/parser.c:4211-4351, in a file. -/
def evalIn (P : Proj) (tf : Tupfile) (V : Vars) (m : Mode) (s : Str) : Option (Str × List Str) :=
  Eval.eval (env P tf V)
    (match m with
      | .keep => none
      | .expand => some (nodePath P tf false)
      | .expandSrc => some (nodePath P tf true)) s

/-- What a node is. -/
inductive Kind where
  | file | dir | generated | ghost | other
deriving DecidableEq

/-- The text of a reference to a node, src/tup/parser.c:1809-1811. -/
def nodeRef (id : Nat) : Str := '%' :: Eval.digits id ++ ['t']

/-- The assignment to a node variable, src/tup/parser.c:1789-1811: the text that is stored, and the nodes that become inputs of the directory.
`find` is `get_tent_dt`, src/tup/create_name_file.c (what a path leads to, from a directory). -/
def setNode (find : Nat → Str → Option Nat) (kind : Nat → Kind) (P : Proj) (tf : Tupfile) (value : Str) : Option (Str × List Nat) :=
  match find (P.src tf.cur) value with
  | none => none
  | some id => if kind id = .file ∨ kind id = .dir then some (nodeRef id, [id]) else none

/-- The text behind the last slash, or all of it, src/tup/parser.c:4024-4029. -/
def base (s : Str) : Str := (s.reverse.takeWhile (· ≠ '/')).reverse

/-- `%d`, src/tup/parser.c:4014-4041. -/
def percentD (P : Proj) (tf : Tupfile) : Option Str :=
  if tf.tent = dot then some (base P.top) else (P.T tf.tent).map (·.name)

/-- `tup.getcwd`, src/tup/luaparser.c:312-332. -/
def luaCwd (P : Proj) (tf : Tupfile) : Option Str := P.rel tf.tent tf.cur

/-- `tup.getvariantdir`, src/tup/luaparser.c:334-345. -/
def luaVariantDir (tf : Tupfile) : Str := nodeRef tf.cur

/-- `tup.getvariantoutputdir`, src/tup/luaparser.c:347-365. -/
def luaOutputDir (P : Proj) (tf : Tupfile) : Option Str := P.rel (P.src tf.tent) tf.tent

/-- `tup.getdirectory`, src/tup/luaparser.c:367-395. -/
def luaDirectory (P : Proj) (tf : Tupfile) : Option Str :=
  if tf.tent = dot then some (base P.top) else (P.T tf.cur).map (·.name)

/-- `tup.getrelativedir`, src/tup/luaparser.c:397-418. -/
def luaRelativeDir (find : Nat → Str → Option Nat) (P : Proj) (tf : Tupfile) (name : Str) : Option Str :=
  match find tf.tent name with
  | none => none
  | some d => P.rel d tf.tent

/-- `tup.nodevariable`, src/tup/luaparser.c:661-698: the node that is stored. -/
def luaNode (find : Nat → Str → Option Nat) (kind : Nat → Kind) (P : Proj) (tf : Tupfile) (name : Str) : Option Nat :=
  let check (id : Nat) : Option Nat := if kind id = .file ∨ kind id = .dir then some id else none
  match find tf.cur name with
  | some id => check id
  | none =>
    match P.srcid tf.cur with
    | none => none
    | some s =>
      match find s name with
      | some id => check id
      | none => none

/-- The string of a node variable in Lua, src/tup/luaparser.c:700-728. -/
def luaNodeText (P : Proj) (tf : Tupfile) (id : Nat) : Option Str := P.rel tf.cur id

end Tup.TupDirs
