import Verif.Relative.Model
import Verif.Exec.Model

/-!
`tup generate`: the shell script that it writes, src/tup/updater.c:222-540, 2220-2259, with the functions of src/tup/entry.c that print entries.

The script is modelled from the point where the graph of commands is there (updater.c:497); what comes before is the same as in an update.  The Windows variants are left out.  Pointers to
entries are ids, as in `Verif/Relative`.
-/

namespace Tup.Generate

open Tup.Relative (Table relative)

/-- What the functions read: the entries; which of them are directories that tup makes (`TUP_NODE_GENERATED_DIR`), which are files that commands make (`TUP_NODE_GENERATED`), and which are
in the directory that was given with `--builddir`; for a command its directory, and its text after `expand_command` (`none`: that fails, src/tup/updater.c:2246-2249; the expansion is C62);
and the directory that a directory stands for (`variant_tent_to_srctent`, src/tup/variant.c:184-193). -/
structure Env where
  tab : Table
  fuel : Nat
  top : Nat
  genDir : Nat → Bool
  genFile : Nat → Bool
  inBuild : Nat → Bool := fun _ => false
  dirOf : Nat → Option Nat
  text : Nat → Option Str
  src : Nat → Nat := id

/-- The first lines, src/tup/updater.c:340-351; `TUP_VARDICT_NAME` is from src/tup/access_event.h:30. -/
def header (verbose : Bool) (args : List Str) : Str :=
  "#! /bin/sh -e".toList ++ (if verbose then ['x'] else []) ++ ['\n'] ++
  "# This file is automatically generated with: tup generate".toList ++ args.flatMap (fun a => ' ' :: a) ++ ['\n'] ++
  "export tup_vardict=\"$(cd $(dirname $0) && pwd)/tup-generate.vardict\"\n".toList

/-- `print_tup_entry_internal`, src/tup/entry.c:198-211: whether something was printed, and what.  `none`: the fuel ran out or an entry is missing. -/
def printIn (T : Table) (stop : Option Nat) : Nat → Nat → Option (Bool × Str)
  | 0, _ => none
  | fuel + 1, id =>
    match T id with
    | none => none
    | some n =>
      match n.parent with
      | none => some (false, [])
      | some p =>
        if stop = some id then some (false, [])
        else
          match printIn T stop fuel p with
          | none => none
          | some (b, s) => some (true, s ++ (if b then ['/'] else []) ++ (if n.name.head? = some '/' then [] else n.name))

/-- The loop that looks for the top of the variant, src/tup/entry.c:230-232. -/
def variantPart (T : Table) (inBuild : Nat → Bool) : Nat → Nat → Option Nat
  | 0, _ => none
  | fuel + 1, id =>
    match T id with
    | none => none
    | some n =>
      match n.parent with
      | none => some id
      | some p => if inBuild p then variantPart T inBuild fuel p else some id

/-- `print_tup_entry`, src/tup/entry.c:213-263, of a directory, to a file: there are no colours then (src/tup/colors.c:46), and a directory has no text to be displayed. -/
def printEntry (E : Env) (id : Nat) : Option Str :=
  match E.tab id with
  | none => none
  | some n =>
    match n.parent with
    | none => some n.name
    | some p =>
      if E.inBuild id then
        match variantPart E.tab E.inBuild E.fuel id with
        | none => none
        | some v =>
          match printIn E.tab none E.fuel v with
          | none => none
          | some (_, s) =>
            if id = v then some (('[' :: s) ++ "] .".toList)
            else
              match printIn E.tab (some v) E.fuel p with
              | none => none
              | some (b, t) => some (('[' :: s) ++ "] ".toList ++ t ++ (if b then ['/'] else []) ++ n.name)
      else
        match printIn E.tab none E.fuel p with
        | none => none
        | some (b, s) => some (s ++ (if b then ['/'] else []) ++ n.name)

/-- `write_tup_entry`, src/tup/entry.c:287-306, of a directory. -/
def writeEntry (E : Env) : Nat → Nat → Option Str
  | 0, _ => none
  | fuel + 1, id =>
    match E.tab id with
    | none => none
    | some n =>
      if id = E.top then some ['.']
      else
        match n.parent with
        | none => none
        | some p => if p = E.top then some (n.name ++ ['/']) else (writeEntry E fuel p).map fun s => s ++ n.name ++ ['/']

/-- The lines for the directories of the sources, if there is a build directory, src/tup/updater.c:432-456; `l` are the entries that `get_rel_tent` made. -/
def buildDirs (E : Env) : List Nat → Option Str
  | [] => some []
  | v :: l =>
    match writeEntry E E.fuel v, buildDirs E l with
    | some s, some t => some ("mkdir -p ".toList ++ s ++ ['\n'] ++ t)
    | _, _ => none

/-- `generate_script_mkdir`, src/tup/updater.c:222-239: the directories that have been dealt with, and the lines. -/
def mkdirs (E : Env) : Nat → List Nat × Str → Nat → Option (List Nat × Str)
  | 0, _, _ => none
  | fuel + 1, acc, d =>
    if E.genDir d then
      if d ∈ acc.1 then some acc
      else
        match E.tab d with
        | none => none
        | some n =>
          match n.parent with
          | none => none
          | some p =>
            match mkdirs E fuel (d :: acc.1, acc.2) p with
            | none => none
            | some acc =>
              match printEntry E d with
              | none => none
              | some s => some (acc.1, acc.2 ++ "mkdir -p \"".toList ++ s ++ "\"\n".toList)
    else some acc

/-- The loop over the nodes of the graph, src/tup/updater.c:508-514. -/
def mkdirAll (E : Env) : List Nat × Str → List Nat → Option (List Nat × Str)
  | acc, [] => some acc
  | acc, n :: l =>
    if E.genFile n then
      match (E.tab n).bind Relative.Node.parent with
      | none => none
      | some d =>
        match mkdirs E E.fuel acc d with
        | none => none
        | some acc => mkdirAll E acc l
    else mkdirAll E acc l

/-- `generate_cwd` and what has been written to `generate_f`; and the nodes that `generate_work` was called for, latest first, which the program does not keep. -/
structure Out where
  cwd : Nat
  text : Str := []
  log : List Nat := []

/-- `generate_work`, src/tup/updater.c:2220-2259; the second component tells whether it succeeds. -/
def work (E : Env) (o : Out) (n : Nat) : Out × Bool :=
  let o := { o with log := n :: o.log }
  match E.dirOf n with
  | none => (o, true)
  | some d =>
    let d := E.src d
    match (if o.cwd = d then some o else (relative E.tab E.fuel o.cwd d '/').map fun s => { o with cwd := d, text := o.text ++ "cd \"".toList ++ s ++ "\"\n".toList }) with
    | none => (o, false)
    | some o =>
      match E.text n with
      | none => (o, false)
      | some c => ({ o with text := o.text ++ ['('] ++ c ++ ")\n".toList }, true)

/-- The work function as `execute_graph` sees it. -/
def Work (E : Env) : Exec.Work Out := fun o _ n o' ok => work E o n = (o', ok)

/-- The whole script, if `execute_graph` has left `body`: src/tup/updater.c:340-519. -/
def script (E : Env) (verbose : Bool) (args : List Str) (build nodes : List Nat) (body : Str) : Option Str :=
  match buildDirs E build, mkdirAll E ([], []) nodes with
  | some b, some (_, m) => some (header verbose args ++ b ++ m ++ body)
  | _, _ => none

end Tup.Generate
