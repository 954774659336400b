import Verif.Lua.Model

/-!
Model of the global variables of Tupfile.lua files and of the operator `+=` (src/luabuiltin/builtin.lua:57-61, 157-240; src/tup/luaparser.c:296-310, 564-586, 830-900, 929-950; src/tup/parser.c:277-297, 1087-1140).

Values are left open: `α` are those that are not nil, `env` is the table `tup_environ`.  A script is what one Tupfile does with global variables, one after the other; that a Tupfile needs another one, which is then parsed, is a part of the script.
Files that are included run in the same state and are part of the script.  The library `debug`, with which a script can get at local variables of builtin.lua, and changes of tables that are values of global variables, are left out.  So are errors in
a Tupfile, at which the update ends.
-/

namespace Tup.LuaVars

open Tup (Str)

/-- Variables: `none` is nil. -/
abbrev Vars (α : Type) := Str → Option α

/-- Assignment. -/
def upd {α : Type} (f : Vars α) (k : Str) (v : Option α) : Vars α := fun x => if x = k then v else f x

/-- `_G`, the table `tup_environ` itself, all tables that `tup_push_state` has made, and the variables `tupvars` and `top` of builtin.lua:199-200, which refer to them. -/
structure St (α : Type) where
  globals : Vars α
  environ : Vars α
  frames : List (Vars α)
  tupvars : List Nat
  top : Option Nat

/-- A Tupfile as far as variables are concerned; see `run`. -/
inductive Script (α : Type) where
  | done
  | set (k : Str) (v : Option α) (rest : Script α)
  | get (k : Str) (rest : Script α)
  | rawset (k : Str) (v : Option α) (rest : Script α)
  | setVar (k : Str) (v : Option α) (rest : Script α)
  | getVar (k : Str) (rest : Script α)
  | import_ (k : Str) (words text : Option α) (rest : Script α)
  | ext (v : Option α) (rest : Script α)
  | other (inner : Script α) (rest : Script α)

variable {α : Type}

/-- `tup_push_state`, builtin.lua:202-206. -/
def push (s : St α) : St α :=
  { s with frames := s.frames ++ [fun _ => none], tupvars := s.tupvars ++ [s.frames.length], top := some s.frames.length }

/-- `tup_pop_state`, builtin.lua:208-211. -/
def pop (s : St α) : St α := { s with tupvars := s.tupvars.dropLast, top := s.tupvars.dropLast.getLast? }

/-- `top[k]`, and the error if there is no table. -/
def topGet (s : St α) (k : Str) : Option (Option α) :=
  match s.top with
  | none => none
  | some i => (s.frames[i]?).map fun f => f k

/-- `top[k] = v`. -/
def topSet (s : St α) (k : Str) (v : Option α) : Option (St α) :=
  match s.top with
  | none => none
  | some i => (s.frames[i]?).map fun f => { s with frames := s.frames.set i (upd f k v) }

/-- A global variable is read: `tup_environ[k]` with `__index`, builtin.lua:231-240. -/
def read (env : α) (s : St α) (k : Str) : Option (Option α) :=
  if s.environ k ≠ none then some (s.environ k)
  else if k = "_G".toList then some (some env)
  else
    match topGet s k with
    | none => none
    | some (some v) => some (some v)
    | some none => some (s.globals k)

/-- A global variable is assigned: `tup_environ[k] = v` with `__newindex`, builtin.lua:228-230, which Lua calls only if there is no such field. -/
def write (s : St α) (k : Str) (v : Option α) : Option (St α) :=
  if s.environ k ≠ none then some { s with environ := upd s.environ k v } else topSet s k v

/-- A script, with the values that its own reads give.
* `rawset`: `rawset(_G, k, v)`, where `_G` is `tup_environ`;
* `setVar`, `getVar`: the variables of a Tupfile, `tup_set_var` and `tup_get_var` (builtin.lua:213-219) through luadb_set and luadb_copy;
* `import_`: `tup.import`, which sets the variable to a table of words (parser.c:1130), and then the real global one to the text (luaparser.c:566-586);
* `ext`: `tup.ext`, which leaves what it finds in the real global variable `match` (builtin.lua:57-61);
* `other`: another Tupfile is parsed (parser.c:277-297). -/
def run (env : α) : Script α → St α → Option (St α × List (Option α))
  | .done, s => some (s, [])
  | .set k v r, s =>
    match write s k v with
    | none => none
    | some s => run env r s
  | .get k r, s =>
    match read env s k with
    | none => none
    | some x => (run env r s).map fun y => (y.1, x :: y.2)
  | .rawset k v r, s => run env r { s with environ := upd s.environ k v }
  | .setVar k v r, s =>
    match topSet s k v with
    | none => none
    | some s => run env r s
  | .getVar k r, s =>
    match topGet s k with
    | none => none
    | some x => (run env r s).map fun y => (y.1, x :: y.2)
  | .import_ k w t r, s =>
    match topSet s k w with
    | none => none
    | some s => run env r { s with globals := upd s.globals k t }
  | .ext v r, s => run env r { s with globals := upd s.globals "match".toList v }
  | .other i r, s =>
    match run env i (push s) with
    | none => none
    | some (s, _) => run env r (pop s)

/-- builtin.lua:199-226. -/
def init (globals : Vars α) : St α := { globals := globals, environ := fun _ => none, frames := [], tupvars := [], top := none }

/-- Tupfiles one after the other, with what each of them reads. -/
def runAll (env : α) : List (Script α) → St α → Option (St α × List (List (Option α)))
  | [], s => some (s, [])
  | p :: l, s =>
    match run env p (push s) with
    | none => none
    | some (s, out) => (runAll env l (pop s)).map fun y => (y.1, out :: y.2)

/-! ### `+=` -/

open Tup.Lua (Val Heap Tab)

/-- `result`, builtin.lua:170-179: where the elements are put. -/
def appendTo (h : Heap) : Val → Option (Heap × Nat)
  | .str s => some (h ++ [{ arr := [.str s] }], h.length)
  | .ref i => some (h, i)
  | .nil => some (h ++ [{}], h.length)
  | _ => none

/-- The new elements, builtin.lua:181-190, with `tuplua_function_append_table`, luaparser.c:296-310, which takes the lengths before it copies. -/
def appended (h : Heap) : Val → Option (List Val)
  | .str s => some [.str s]
  | .ref j => (h[j]?).map (·.arr)
  | .nil => some []
  | _ => none

/-- `tup_append_assignment`, builtin.lua:169-193; lists have no holes. -/
def append (h : Heap) (a b : Val) : Option (Heap × Val) :=
  match appendTo h a with
  | none => none
  | some (h, i) =>
    match appended h b, h[i]? with
    | some new, some t => some (h.set i { t with arr := t.arr ++ new, joins := true }, .ref i)
    | _, _ => none

end Tup.LuaVars
