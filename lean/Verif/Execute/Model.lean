import Verif.Names.Model
import Verif.Rules.Model

/-!
Model of the execution of a rule (src/tup/parser.c:1469-1485, 1833-1895, 2124-2274) and of the definition of
!-macros (parser.c:1556-1734).

What looks at the database or the file system is a parameter (`World`): the lookup of paths and the creation of one
command, which may fail.  Memory allocation does not fail.
-/

namespace Tup.Execute

open Tup.Names Tup.Rules

/-- `struct bang_rule`, src/tup/parser.c:57-66; the lists of outputs are lists of path texts. -/
structure Macro where
  foreach_ : Bool
  input : Option Str
  command : Str
  outputs : List Str
  extra : List Str
deriving DecidableEq, Repr

/-- `bang_root`: a map, `Tup.Tree`. -/
abbrev Table := Str → Option Macro

/-- `struct rule`, src/tup/parser.h:142-157.  Without the bin and the line number, which are only handed on. -/
structure Rule where
  foreach_ : Bool
  emptyInput : Bool
  inputs : NameList
  ooPaths : List Str
  oo : NameList
  bangOo : NameList
  command : Str
  extraCommand : Option Str
  outputs : List Str
  extraOutputs : List Str
  bangExtra : List Str

/-- What `do_rule` is called with: the name list, the extension, and the fields of the rule that it reads
(parser.c:3475-3726). -/
structure Job where
  inputs : NameList
  ext : Option Str
  command : Str
  extraCommand : Option Str
  outputs : List Str
  extraOutputs : List Str
  bangExtra : List Str
  oo : List Entry
  bangOo : List Entry

/-- What a rule is executed in. -/
structure World (σ : Type) where
  /-- `get_path_list` with `new_pl`, parser.c:2290-2423, modelled in `Tup.PathList` -/
  paths : Str → Option (List Str)
  /-- `path_list_to_nl`, parser.c:2276-2288: the entries it adds to a name list -/
  resolve : σ → List Str → Option NameList → Option (σ × List Entry)
  /-- `do_rule`, parser.c:3475-3726 -/
  run : σ → Job → Option σ

/-- Adding entries one after the other. -/
def addAll (nl : NameList) (l : List Entry) : NameList := l.foldl NameList.add nl

variable {σ : Type}

/-- `parse_bang_rule_internal`, parser.c:1833-1868. -/
def useMacro (W : World σ) (s : σ) (r : Rule) (m : Macro) (nl : Option NameList) : Option (σ × Rule) :=
  let finish (s : σ) (r : Rule) : Option (σ × Rule) :=
    let outputs := if r.outputs = [] then r.outputs ++ m.outputs else r.outputs
    some (s, { r with command := m.command, outputs := outputs, bangExtra := r.bangExtra ++ m.extra })
  match m.input with
  | none => finish s r
  | some i =>
    match W.paths i with
    | none => none
    | some ps =>
      match W.resolve s ps nl with
      | none => none
      | some (s, l) => finish s { r with bangOo := addAll r.bangOo l }

/-- `parse_empty_bang_rule`, parser.c:1870-1884; the inner `none` is the return value 1. -/
def emptyMacro (W : World σ) (T : Table) (s : σ) (r : Rule) : Option (Option (σ × Rule)) :=
  match T (r.command ++ ".EMPTY".toList) with
  | none => some none
  | some m => (useMacro W s r m none).map some

/-- `parse_bang_rule`, parser.c:1886-1911. -/
def findMacro (T : Table) (command : Str) (ext : Option Str) : Option Macro :=
  match ext with
  | none => T command
  | some x =>
    match T (command ++ ".".toList ++ x) with
    | some m => some m
    | none => T command

def bangRule (W : World σ) (T : Table) (s : σ) (r : Rule) (nl : Option NameList) (ext : Option Str) :
    Option (σ × Rule) :=
  match findMacro T r.command ext with
  | none => none
  | some m => useMacro W s r m nl

/-- The call of `do_rule`. -/
def job (r : Rule) (nl : NameList) (ext : Option Str) : Job :=
  ⟨nl, ext, r.command, r.extraCommand, r.outputs, r.extraOutputs, r.bangExtra, r.oo.entries, r.bangOo.entries⟩

/-- The extension of an entry, parser.c:2179-2183: `base + extlessbaselen + 1`.  As `base` points into `path` and
`extlesslen` is counted from the beginning of `path`, this is the part of `path` behind position `extlesslen`. -/
def extension (e : Entry) : Option Str :=
  if e.extlessbaselen = e.baselen then none else some (e.path.drop (e.extlesslen + 1).toNat)

/-- The loop for `foreach`, parser.c:2172-2220, over the remaining inputs; the calls of `do_rule` are recorded. -/
def loop (W : World σ) (T : Table) (bang outputsEmpty : Bool) :
    List Entry → σ → Rule → List Job → Option (σ × Rule × List Job)
  | [], s, r, js => some (s, r, js)
  | e :: l, s, r, js =>
    let nl := NameList.empty.add e
    let ext := extension e
    let oldCommand := r.command
    match if bang then bangRule W T s r (some nl) ext else some (s, r) with
    | none => none
    | some (s, r) =>
      match W.resolve s r.ooPaths (some nl) with
      | none => none
      | some (s, oo) =>
        let r := { r with oo := addAll r.oo oo }
        let j := job r nl ext
        match W.run s j with
        | none => none
        | some s =>
          let r :=
            if bang then
              { r with
                command := oldCommand
                outputs := if outputsEmpty then [] else r.outputs
                bangExtra := []
                bangOo := r.bangOo.clear }
            else r
          let r := { r with oo := r.oo.clear, inputs := r.inputs.delete 0 }
          loop W T bang outputsEmpty l s r (js ++ [j])

/-- Whether the rule or its macro says `foreach`, parser.c:2133-2155. -/
def isForeach (T : Table) (r : Rule) : Bool :=
  let fe :=
    if r.command.head? = some '!' then
      match T r.command with
      | some m => m.foreach_
      | none => false
    else false
  if r.foreach_ then true else fe

/-- `execute_rule`, parser.c:2124-2274; the result is the state behind it and the calls of `do_rule`. -/
def execute (W : World σ) (T : Table) (s : σ) (r : Rule) : Option (σ × List Job) :=
  let r := { r with inputs := unique r.inputs }
  let bang := r.command.head? = some '!'
  if isForeach T r then
    (loop W T bang (r.outputs = []) r.inputs.entries s r []).map fun x => (x.1, x.2.2)
  else
    match W.resolve s r.ooPaths (some r.inputs) with
    | none => none
    | some (s, oo) =>
      let r := { r with oo := addAll r.oo oo }
      if r.inputs.tot.num > 0 ∨ r.emptyInput then
        match if bang then bangRule W T s r none none else some (s, r) with
        | none => none
        | some (s, r) =>
          let j := job r r.inputs none
          (W.run s j).map fun s => (s, [j])
      else if bang then
        match emptyMacro W T s r with
        | none => none
        | some none => some (s, [])
        | some (some (s, r)) =>
          let j := job r r.inputs none
          (W.run s j).map fun s => (s, [j])
      else some (s, [])

/-! ### Definition of macros -/

/-- Outcome of a definition; `ub`: `free` of a pointer into the middle of an allocation, parser.c:1727-1731 for
`br->command` set at 1715. -/
inductive DefRes where
  | ok (t : Table)
  | error
  | ub

/-- `parse_output_pattern`, parser.c:2068-2096. -/
def outputLists (paths : Str → Option (List Str)) (s : Str) : Option (List Str × List Str) :=
  match (cutBar s).2 with
  | none =>
    match paths (cutBar s).1 with
    | none => none
    | some o => some (o, [])
  | some x =>
    match paths x with
    | none => none
    | some e =>
      match paths (cutBar s).1 with
      | none => none
      | some o => some (o, e)

/-- The inputs of a macro, parser.c:1674-1688: `foreach` and order-only inputs; `none`: normal inputs. -/
def macroInput (input : Option Str) : Option (Bool × Option Str) :=
  match input with
  | none => some (false, none)
  | some i =>
    let (fe, i) := if i.take 7 = "foreach".toList then (true, skipSpaces (i.drop 7)) else (false, i)
    match i with
    | [] => some (fe, some [])
    | c :: t => if c = '|' then some (fe, some (skipSpaces t)) else none

/-- Changing a table at one name. -/
def set (T : Table) (name : Str) (m : Option Macro) : Table := fun n => if n = name then m else T n

/-- `parse_bang_definition`, parser.c:1591-1734, with `split_eq` (1556-1573); `p` is the line from the `!` on. -/
def define (paths : Str → Option (List Str)) (T : Table) (p : Str) : DefRes :=
  match strchr '=' p with
  | none => .error
  | some (n, v) =>
    let name := trimEnd n
    let value := skipSpaces v
    if value.head? = some '!' then
      let T := set T name none
      match T value with
      | none => .error
      | some m => .ok (set T name (some m))
    else
      match split value with
      | .error _ => .error
      | .ok parts =>
        if parts.bin ≠ none then .error
        else
          match macroInput parts.input with
          | none => .error
          | some (fe, input) =>
            match outputLists paths parts.output with
            | none => if (T name).isSome then .error else .ub
            | some (o, e) => .ok (set T name (some ⟨fe, input, parts.cmd, o, e⟩))

end Tup.Execute
