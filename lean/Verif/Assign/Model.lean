import Verif.Eval.Model
import Verif.Rules.Model

/-!
Model of variable assignments and of `ifeq` in Tupfiles (src/tup/parser.c:705-749, 1736-1831), and of the
store for ordinary variables, which is a Lua table of tables of words (src/tup/luaparser.c:898-977,
src/luabuiltin/builtin.lua:169-219).
-/

namespace Tup.Assign

open Tup.Eval Tup.Rules

/-- What a Tupfile's expansions see besides its variables. -/
structure World where
  cwd : Option Str
  outputDir : Option Str
  dirId : Nat
  config : Str → Option Str
  /-- `get_tent_dt` for the value of a node variable, parser.c:1791-1801: the id, if it is a file or directory -/
  node : Str → Option Nat

/-- The variables: ordinary ones as lists of words (`top` in builtin.lua), node variables as strings
(`tf->node_db`, which behaves like a map by `Tup.Tree.c49_variable_stores`), and the names of the tup.config
variables that became inputs. -/
structure Store where
  vars : Str → Option (List Str)
  nodeVars : Str → Option Str
  inputs : List Str

/-- `tuplua_table_tostring`, src/tup/luaparser.c:190-215: the words with single spaces between them.  Lua's
`lua_next` goes through a table of words in order. -/
def joinWords : List Str → Str
  | [] => []
  | [w] => w
  | w :: l => w ++ ' ' :: joinWords l

/-- `tup_string_to_lua`, src/tup/luaparser.c:898-930. -/
def toWords (value : Str) : List Str :=
  match h : strchr ' ' value with
  | none => [value]
  | some (a, b) =>
    have : (skipSpaces b).length < value.length := by
      have := strchr_length h
      have := (List.dropWhile_suffix (l := b) isSpace).length_le
      unfold skipSpaces
      omega
    a :: toWords (skipSpaces b)
termination_by value.length

/-- What `eval` sees (`luadb_copy`, src/tup/luaparser.c:955-977: a name of 4095 bytes or more is refused). -/
def env (w : World) (st : Store) : Env where
  cwd := w.cwd
  outputDir := w.outputDir
  dirId := w.dirId
  config := w.config
  var n := if n.length + 1 ≥ 4096 then none else some (joinWords ((st.vars n).getD []))
  nodeVar n := (st.nodeVars n).getD []

inductive Op where
  | append
  | set
deriving DecidableEq, Repr

/-- The search for the operator, parser.c:1747-1763. -/
def splitAssign (line : Str) : Option (Op × Str × Str) :=
  match strstr "+=".toList line with
  | some (a, b) => some (.append, a, b)
  | none =>
    match strstr ":=".toList line with
    | some (a, b) => some (.set, a, b)
    | none => (strchr '=' line).map fun p => (.set, p.1, p.2)

inductive Out where
  | ok (st : Store)
  /-- `SYNTAX_ERROR` -/
  | syntaxError
  /-- `-1` -/
  | error
  /-- the byte in front of the line is read (parser.c:1771-1772); that is outside of the buffer if the line is the
  first one -/
  | ub

/-- `luadb_set` and `luadb_append`, src/tup/luaparser.c:932-953. -/
def store (st : Store) (op : Op) (n v : Str) : Store :=
  { st with
    vars := fun m =>
      if m = n then
        match op with
        | .set => some (toWords v)
        | .append => some ((st.vars n).getD [] ++ toWords v)
      else st.vars m }

/-- `vardb_set` and `vardb_append` on the node variables. -/
def storeNode (st : Store) (op : Op) (n v : Str) : Store :=
  { st with
    nodeVars := fun m =>
      if m = n then
        match op, st.nodeVars n with
        | .append, some old => some (old ++ ' ' :: v)
        | _, _ => some v
      else st.nodeVars m }

/-- `set_variable`, parser.c:1736-1831.  Memory allocation succeeds.  Simplified: a node that a node variable
refers to becomes an input too, which is not recorded here. -/
def setVariable (w : World) (st : Store) (line : Str) : Out :=
  match splitAssign line with
  | none => .syntaxError
  | some (op, a, b) =>
    if a = [] then .ub
    else
      match eval (env w st) none (trimTail a) with
      | none => .error
      | some (var, d) =>
        match eval (env w st) none (skipSpaces b) with
        | none => .error
        | some (value, d') =>
          let st := { st with inputs := st.inputs ++ d ++ d' }
          if var.take 7 = "CONFIG_".toList then .error
          else
            match var with
            | '&' :: n =>
              match w.node value with
              | none => .error
              | some id => .ok (storeNode st op n ('%' :: digits id ++ ['t']))
            | n => .ok (store st op n value)

/-- The text in front of the last `c`. -/
def beforeLast (c : Char) : Str → Option Str
  | [] => none
  | x :: s =>
    match beforeLast c s with
    | some a => some (x :: a)
    | none => if x = c then some [] else none

inductive Cond where
  | value (b : Bool)
  | syntaxError
  | error
deriving DecidableEq, Repr

/-- `eval_eq`, parser.c:705-749; `expr` is the text behind `ifeq `, without white space at the end.  The search
for the closing parenthesis goes backwards over the whole text, except for its first character. -/
def evalEq (e : Env) (expr : Str) : Cond :=
  match strchr '(' expr with
  | none => .syntaxError
  | some (pre, l) =>
    match strchr ',' l with
    | none => .syntaxError
    | some (lval, rval) =>
      let cut : Option (Str × Str) :=
        match beforeLast ')' rval with
        | some r => some (lval, r)
        | none =>
          match beforeLast ')' lval with
          | some l => some (l, rval)
          | none => if ')' ∈ pre.drop 1 then some (lval, rval) else none
      match cut with
      | none => .syntaxError
      | some (lval, rval) =>
        match eval e none lval with
        | none => .error
        | some (x, _) =>
          match eval e none rval with
          | none => .error
          | some (y, _) => .value (x == y)

end Tup.Assign
