import Verif.Strings.Model

/-!
Model of compile_commands.json and of `tup commandline` (src/tup/db.c:7493-7603, src/tup/tup/main.c:667-725, src/tup/entry.c:797-810).

The escape of strings is that of `Strings` (C20).  Commands and inputs come in the order of their numbers; the paths in them are taken as they are: `dir` is the path of the project, a slash and the path of the source directory of the command
(db.c:7505-7513), and `path` what `get_relative_dir` prints for the file from there (C14).
-/

namespace Tup.CompileDb

open Tup (Str)
open Tup.Strings (printJson)

/-- A sticky input of a command: whether it is a normal or a generated file, its name and its path. -/
structure Input where
  file : Bool
  name : Str
  path : Str
deriving DecidableEq

/-- A command in the database. -/
structure Cmd where
  flags : Str
  name : Str
  dir : Str
  variant : Nat
  inputs : List Input
deriving DecidableEq

/-- `print_compile_db`, db.c:7493-7527; `first` is the static variable `first_time`.  `none`: a string leaves its buffer (C20). -/
def entry (first : Bool) (dir cmd file : Str) : Option Str :=
  match printJson dir, printJson cmd with
  | .ok d, .ok c =>
    some ((if first then [] else ",\n".toList) ++ "{\n".toList ++ "    \"directory\": \"".toList ++ d ++ "\",\n".toList
      ++ "    \"command\": \"".toList ++ c ++ "\",\n".toList ++ "    \"file\": \"".toList ++ file ++ "\"\n".toList ++ "}".toList)
  | _, _ => none

/-- Entries one after the other, with `first_time` behind them. -/
def entries : Bool → List (Str × Str × Str) → Option (Str × Bool)
  | first, [] => some ([], first)
  | first, (d, c, f) :: l =>
    match entry first d c f, entries false l with
    | some t, some (u, first) => some (t ++ u, first)
    | _, _ => none

/-- `is_compiledb_tent`, entry.c:807-810. -/
def exported (c : Cmd) : Bool := c.flags.contains 'j'

/-- The calls of `print_compile_db` in `tup_db_create_compile_db`, db.c:7541-7562. -/
def calls (cmds : List Cmd) (variant : Nat) : List (Str × Str × Str) :=
  (cmds.filter fun c => exported c && decide (c.variant = variant)).flatMap fun c => (c.inputs.filter (·.file)).map fun i => (c.dir, c.name, i.path)

/-- `tup_db_create_compile_db`, db.c:7529-7572: the text of the file. -/
def create (first : Bool) (cmds : List Cmd) (variant : Nat) : Option (Str × Bool) :=
  match entries first (calls cmds variant) with
  | none => none
  | some (t, first) => some ("[\n".toList ++ t ++ "\n]\n".toList, first)

/-- `compiledb`, main.c:675-693: one file for each variant that is enabled; `first_time` is not reset. -/
def files (cmds : List Cmd) : Bool → List Nat → Option (List Str)
  | _, [] => some []
  | first, v :: l =>
    match create first cmds v with
    | none => none
    | some (t, first) => (files cmds first l).map (t :: ·)

def compiledb (cmds : List Cmd) (variants : List Nat) : Option (List Str) := files cmds true variants

/-- `strstr(s, t) != NULL`. -/
def contains : Str → Str → Bool
  | [], t => t.isEmpty
  | c :: s, t => t.isPrefixOf (c :: s) || contains s t

/-- The command for a file, `tup_db_print_commandline`, db.c:7574-7603; `users` are the commands with the file as a sticky input. -/
def choose (users : List Cmd) (name : Str) : Option Cmd :=
  match users.find? fun c => contains c.name name with
  | some c => some c
  | none => users.head?

/-- `commandline`, main.c:697-725: for each argument the file, with its path from the directory of the command that is chosen, and its commands.  An argument that is not known ends the run with an error, after the entries of those before it, and is left out. -/
def commandline (l : List (List Cmd × Str × (Cmd → Str))) : Option Str :=
  match entries true (l.filterMap fun x => (choose x.1 x.2.1).map fun c => (c.dir, c.name, x.2.2 c)) with
  | none => none
  | some (t, _) => some ("[\n".toList ++ t ++ "\n]\n".toList)

end Tup.CompileDb
