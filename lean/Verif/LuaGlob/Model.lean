import Verif.Lookup.Model
import Verif.Pel.Model

/-!
`tup.glob` in a Tupfile.lua: `tuplua_function_glob` and `tuplua_glob_callback`, src/tup/luaparser.c:448-548, on top of the model of the
inputs of rules (`Lookup`).  The Tupfile of the directory has been parsed (`parse_dependent_tupfiles`), memory is not exhausted.
-/

namespace Tup.LuaGlob

open Tup.Db Tup.Names Tup.Lookup

/-- What `new_pl` (src/tup/parser.c:2289-2363) and `path_list_fill_dt_pel` (2479-2541) make of the argument of `tup.glob`, if they do not
fail. -/
inductive Arg where
  /-- `{name}` of a bin that exists; `dt` is -1 -/
  | bin
  /-- a path outside of the project; `dt` is -1 -/
  | outside
  /-- `^regex`: `dt` is the directory of exclusions, there is no `pel` -/
  | exclusion
  /-- a path in directory `d`; `dir` is the text in front of the last element, with its slash (`pl->dir`, `pl->dirlen`, 2532-2538), empty
  if there is none; `pat` is the last element -/
  | path (d : Nat) (dir pat : Str)

/-- The path that `tuplua_glob_callback` makes, luaparser.c:448-472; `path_sep()` is a slash. -/
def fullPath (dir name : Str) : Str := if dir = [] then name else dir ++ '/' :: name

/-- The rows for which `tup_db_select_node_dir_glob` (db.c:1387-1497) calls `tuplua_glob_callback`, and the strings it puts into the
table. -/
def globRows (cx : Cx) (db : Db) (dir pat : Str) : List Nat → List Str
  | [] => []
  | i :: l =>
    if cx.gone i then globRows cx db dir pat l
    else
      match db.node i with
      | some n => fullPath dir n.name :: globRows cx db dir pat l
      | none => globRows cx db dir pat l

/-- `tuplua_function_glob`, luaparser.c:474-548, after the paths: the list is the table that it returns. `.ub`: `pl->pel->path` is used
(531) where `pl->pel` is a null pointer. -/
def glob (cx : Cx) (db : Db) : Arg → Res (List Str)
  | .bin => .error
  | .outside => .error
  | .exclusion => .ub
  | .path d dir pat =>
    match db.node d with
    | none => .error
    | some n =>
      if n.kind = .ghost then .error
      else
        match source cx db d with
        | none => .ok (globRows cx db dir pat (rows cx db d pat))
        | some s => .ok (globRows cx db dir pat (rows cx db d pat) ++ globRows cx db dir pat (rows cx db s pat))

end Tup.LuaGlob
