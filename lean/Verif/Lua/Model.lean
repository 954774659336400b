import Verif.Bins.Model

/-!
Model of the rules of a Tupfile.lua: `tup.rule`, `tup.foreach_rule` and `tup.frule` (src/luabuiltin/builtin.lua:63-155), and `tup.definerule` (src/tup/luaparser.c:158-297) up to `execute_rule`, which is in `Verif/Execute` and `Verif/Bins`.

Lua itself is trusted.  A table is a list of values at 1, 2, … and of values at strings; what else can be a key is left out.  `lua_next` goes through the list first, then through the rest in an order that the manual of Lua leaves open: here, that of the list `fields`.
Tables are known by reference, so that a change of a table is seen by all that refer to it.  Memory allocation does not fail.
-/

namespace Tup.Lua

open Tup (Str)
open Tup.Bins (Base State)

/-- A value.  `node` is what `tup.nodevariable` gives, with the path that it is turned into. -/
inductive Val where
  | nil
  | bool (b : Bool)
  | num (s : Str)
  | str (s : Str)
  | ref (i : Nat)
  | node (s : Str)
deriving DecidableEq

/-- A table; `joins` if it has `tup_table_meta` as its metatable (builtin.lua:157-164). -/
structure Tab where
  arr : List Val := []
  fields : List (Str × Val) := []
  joins : Bool := false
deriving DecidableEq

/-- All tables. -/
abbrev Heap := List Tab

/-- The value at a string. -/
def field (k : Str) : List (Str × Val) → Val
  | [] => .nil
  | x :: l => if x.1 = k then x.2 else field k l

/-- `t.k` for a table. -/
def get (h : Heap) (i : Nat) (k : Str) : Val :=
  match h[i]? with
  | some t => field k t.fields
  | none => .nil

/-- `t.k = v` for a table. -/
def put (h : Heap) (i : Nat) (k : Str) (v : Val) : Heap :=
  match h[i]? with
  | some t =>
    let rest := t.fields.filter fun x => decide (x.1 ≠ k)
    h.set i { t with fields := if v = .nil then rest else rest ++ [(k, v)] }
  | none => h

/-- `if v then`. -/
def truthy : Val → Bool
  | .nil => false
  | .bool b => b
  | _ => true

/-- `{ v }`. -/
def single (h : Heap) (v : Val) : Heap × Val := (h ++ [{ arr := [v] }], .ref h.length)

/-- `tableize`, builtin.lua:63-68. -/
def tableize (h : Heap) (v : Val) : Heap × Val :=
  match v with
  | .ref i => (h, .ref i)
  | v => single h v

/-- `s:gsub('[{}]', '')`. -/
def noBraces (s : Str) : Str := s.filter fun c => c ≠ '{' && c ≠ '}'

/-- The inputs in `tup.frule`, builtin.lua:71-79; `a` is the table of the arguments. -/
def fruleInputs (h : Heap) (a : Nat) : Heap :=
  let v := get h a "inputs".toList
  if truthy v then
    let h := match v with
      | .ref i =>
        let e := get h i "extra_inputs".toList
        if truthy e then
          let (h, e) := tableize h e
          let h := put h a "extra_inputs".toList e
          put h i "extra_inputs".toList .nil
        else h
      | _ => h
    let (h, v) := tableize h (get h a "inputs".toList)
    put h a "inputs".toList v
  else h

/-- The outputs in `tup.frule`, builtin.lua:80-92; `none` is the error of calling `gsub` on what is not a string. -/
def fruleOutputs (h : Heap) (a : Nat) : Option Heap :=
  let v := get h a "outputs".toList
  if truthy v then
    let h? := match v with
      | .ref i =>
        let e := get h i "extra_outputs".toList
        let h :=
          if truthy e then
            let (h, e) := tableize h e
            let h := put h a "extra_outputs".toList e
            put h i "extra_outputs".toList .nil
          else h
        let b := get h i "bin".toList
        if truthy b then
          match b with
          | .str s => some (put (put h a "bin".toList (.str (noBraces s))) i "bin".toList .nil)
          | _ => none
        else some h
      | _ => some h
    match h? with
    | none => none
    | some h =>
      let (h, v) := tableize h (get h a "outputs".toList)
      some (put h a "outputs".toList v)
  else some h

/-- Elements with single spaces between them: `table.concat(t, ' ')`; `none` is its error for what is neither a string nor a number. -/
def concat : List Val → Option Str
  | [] => some []
  | [.str s] => some s
  | [.num s] => some s
  | .str s :: l => (concat l).map fun t => s ++ ' ' :: t
  | .num s :: l => (concat l).map fun t => s ++ ' ' :: t
  | _ => none

/-- `luaL_tolstring` in `tuplua_tolstring`, luaparser.c:82-105, for what is not nil.  `addr` is the text for a table without a metatable. -/
def toStr (addr : Nat → Str) (h : Heap) : Val → Option Str
  | .nil => none
  | .bool b => some (if b then "true".toList else "false".toList)
  | .num s => some s
  | .str s => some s
  | .node s => some s
  | .ref i =>
    match h[i]? with
    | some t => if t.joins then concat t.arr else some (addr i)
    | none => none

/-- All of a list, if there is no error. -/
def all {α β : Type} (f : α → Option β) : List α → Option (List β)
  | [] => some []
  | x :: l =>
    match f x with
    | none => none
    | some y =>
      match all f l with
      | none => none
      | some r => some (y :: r)

/-- The strings that `tuplua_table_to_path_list` finds in a field, luaparser.c:158-188: none, if it is no table. -/
def listOf (addr : Nat → Str) (h : Heap) (v : Val) : Option (List Str) :=
  match v with
  | .ref i =>
    match h[i]? with
    | some t => all (toStr addr h) (t.arr ++ t.fields.map Prod.snd)
    | none => none
  | _ => some []

/-- What `tup.definerule` reads from its argument, luaparser.c:233-275. -/
structure Call where
  inputs : List Str
  extraInputs : List Str
  outputs : List Str
  extraOutputs : List Str
  bin : Option Str
  command : Str
  foreach_ : Bool
deriving DecidableEq

/-- `tuplua_function_definerule`, luaparser.c:217-275, the reading of the table. -/
def readCall (addr : Nat → Str) (h : Heap) (a : Nat) : Option Call :=
  match listOf addr h (get h a "inputs".toList), listOf addr h (get h a "extra_inputs".toList), listOf addr h (get h a "outputs".toList),
      listOf addr h (get h a "extra_outputs".toList), toStr addr h (get h a "command".toList) with
  | some i, some ei, some o, some eo, some c =>
    let call (b : Option Str) : Call := ⟨i, ei, o, eo, b, c, truthy (get h a "foreach".toList)⟩
    match get h a "bin".toList with
    | .nil => some (call none)
    | b =>
      match toStr addr h b with
      | some b => some (call (some b))
      | none => none
  | _, _, _, _, _ => none

/-- `tup.frule`, builtin.lua:70-95, up to the call of `tup.definerule`. -/
def frule (addr : Nat → Str) (h : Heap) (a : Nat) : Option (Heap × Call) :=
  match fruleOutputs (fruleInputs h a) a with
  | none => none
  | some h =>
    match readCall addr h a with
    | none => none
    | some c => some (h, c)

/-- `set_string_or_table`, builtin.lua:111-117. -/
def stringOrTable (h : Heap) (v : Val) : Heap × Val :=
  match v with
  | .str s => single h (.str s)
  | v => (h, v)

/-- `get_abc`, builtin.lua:119-145, with `set_command` and `set_list` (97-109); `none` is an error. -/
def getAbc (h : Heap) (a b c : Val) : Option (Heap × Val × Val × Val) :=
  match c with
  | .nil =>
    match b with
    | .nil =>
      match a with
      | .str s => some (h, .nil, .str s, .nil)
      | _ => none
    | b =>
      match a, b with
      | .str _, .str _ => none
      | .str s, .ref o => some (h, .nil, .str s, .ref o)
      | .str _, _ => none
      | .ref i, .str s => some (h, .ref i, .str s, .nil)
      | _, _ => none
  | c =>
    let (h, i) := stringOrTable h a
    match b with
    | .str s =>
      let (h, o) := stringOrTable h c
      some (h, i, .str s, o)
    | _ => none

/-- The fields of a table constructor: those that are nil are not there. -/
def fieldsOf (l : List (Str × Val)) : List (Str × Val) := l.filter fun x => decide (x.2 ≠ .nil)

/-- `tup.rule` and `tup.foreach_rule`, builtin.lua:147-155. -/
def rule (addr : Nat → Str) (fe : Bool) (h : Heap) (a b c : Val) : Option (Heap × Call) :=
  match getAbc h a b c with
  | none => none
  | some (h, i, s, o) =>
    let args : Tab := { fields := fieldsOf ([("inputs".toList, i), ("command".toList, s), ("outputs".toList, o)] ++ if fe then [("foreach".toList, .num ['1'])] else []) }
    frule addr (h ++ [args]) h.length

/-- `tuplua_table_to_path_list` with the strings, luaparser.c:175-182: `eval`, then `new_pl` with the bins of the Tupfile. -/
def paths {σ : Type} (B : Base σ) (s : State σ) (n : Nat) : List Str → Option (List Bins.Pl)
  | [] => some []
  | w :: l =>
    match B.expand s.base none w with
    | none => none
    | some t =>
      match PathList.newPl (Bins.known s.bins) B.reOk t with
      | none => none
      | some k =>
        match paths B s (n + 1) l with
        | none => none
        | some r => some (⟨t, k, n⟩ :: r)

/-- `tuplua_function_definerule`, luaparser.c:233-280. -/
def define {σ : Type} (B : Base σ) (T : Execute.Table) (s : State σ) (c : Call) : Option (State σ) :=
  match paths B s 1 c.inputs, paths B s 1 c.extraInputs, paths B s 1 c.outputs, paths B s 1 c.extraOutputs with
  | some ins, some oo, some outs, some extra =>
    let bins := match c.bin with
      | none => s.bins
      | some b => Bins.add b s.bins
    match B.depend s.base ins with
    | none => none
    | some base =>
      match Bins.getNames B bins ins base .empty with
      | none => none
      | some (base, inputs) =>
        let r : Execute.Rule :=
          { foreach_ := c.foreach_, emptyInput := ins = [], inputs := inputs, ooPaths := Bins.texts oo, oo := .empty, bangOo := .empty, command := c.command, extraCommand := none,
            outputs := Bins.texts outs, extraOutputs := Bins.texts extra, bangExtra := [] }
        (Execute.execute (Bins.world B c.bin) T ⟨bins, base, s.made⟩ r).map Prod.fst
  | _, _, _, _ => none

end Tup.Lua
