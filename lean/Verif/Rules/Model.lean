import Verif.Text

/-!
Model of how a rule line and a command string are taken apart (src/tup/parser.c:1487-1554, 1937-2096,
3415-3473).  The C code works in one buffer, cuts it by writing NUL bytes and keeps pointers; here the parts are
strings.
-/

namespace Tup.Rules

/-- `while(isspace(*e) && e > s) e--; e[1] = 0;` with `e` at the last character of `s`: white space at the end
is cut off, but the first character stays in any case. -/
def trimTail : Str → Str
  | [] => []
  | c :: t => c :: trimEnd t

/-- Why a rule is rejected. -/
inductive Err where
  | noMarker
  | noSecondMarker
  | noBrace
  | textBehindBin
deriving DecidableEq, Repr

/-- The search for `{bin}` at the end of the outputs, parser.c:1981-2015; `before` is the part of the outputs
that has been passed, in reverse. -/
def binLoop (before : Str) : Str → Except Err (Str × Option Str)
  | [] => .ok (before.reverse, none)
  | c :: t =>
    if c = '{' ∧ (before = [] ∨ ∃ d ∈ before.head?, isSpace d) then
      match strchr '}' t with
      | none => .error .noBrace
      | some (bin, after) =>
        if after ≠ [] then .error .textBehindBin
        else .ok (trimTail before.reverse, some bin)
    else binLoop (c :: before) t

structure Parts where
  input : Option Str
  cmd : Str
  output : Str
  bin : Option Str
deriving DecidableEq, Repr

/-- `split_input_pattern`, parser.c:1937-2024. -/
def split (p : Str) : Except Err Parts :=
  match strstr "|>".toList p with
  | none => .error .noMarker
  | some (a, b) =>
    let input := if skipSpaces a = [] then none else some (trimTail (skipSpaces a))
    match strstr "|>".toList b with
    | none => .error .noSecondMarker
    | some (c, d) =>
      (binLoop [] (skipSpaces d)).map fun o => ⟨input, trimTail (skipSpaces c), o.1, o.2⟩

/-- `parse_input_pattern` and `parse_output_pattern`, parser.c:2026-2096: the text is cut at the first `|`; white
space behind the `|` is skipped.  (The loop that is meant to remove white space in front of it looks at the NUL
that was just written and does nothing.)  The lists of paths are modelled in `Tup.PathList`. -/
def cutBar (s : Str) : Str × Option Str :=
  match strchr '|' s with
  | none => (s, none)
  | some (a, b) => (a, some (skipSpaces b))

/-- The texts of which a rule is made (`struct rule`, src/tup/parser.h:142-157). -/
structure RuleText where
  foreach_ : Bool
  emptyInput : Bool
  inputs : Option Str
  orderOnly : Option Str
  command : Str
  extraCommand : Option Str
  outputs : Str
  extraOutputs : Option Str
  bin : Option Str
deriving DecidableEq, Repr

/-- `parse_rule` up to the execution of the rule, parser.c:1487-1544; `p` is the line behind the colon. -/
def parseRule (p : Str) : Except Err RuleText :=
  (split p).map fun r =>
    let (fe, input) := match r.input with
      | none => (false, none)
      | some i => if i.take 7 = "foreach".toList then (true, some (skipSpaces (i.drop 7))) else (false, some i)
    let empty := match input with
      | none => true
      | some i => i.head? = some '|'
    let (ins, oo) := match input with
      | none => (none, none)
      | some i => (some (cutBar i).1, (cutBar i).2)
    let (cmd, extra) := match r.cmd with
      | '!' :: t =>
        match strchr ' ' ('!' :: t) with
        | some (a, b) => (a, some b)
        | none => ('!' :: t, none)
      | c => (c, none)
    ⟨fe, empty, ins, oo, cmd, extra, (cutBar r.output).1, (cutBar r.output).2, r.bin⟩

/-- `struct command_split`, parser.c:3415-3421; `display = none` is the null pointer. -/
structure CommandSplit where
  flags : Str
  display : Option Str
  cmd : Str
deriving DecidableEq, Repr

/-- A character of the flags, parser.c:3437-3446. -/
def flagChar (c : Char) : Bool := c != ' ' && c != '^'

/-- `split_command_string`, parser.c:3423-3473; `none`: the closing `^` is missing. -/
def splitCommand (s : Str) : Option CommandSplit :=
  match s with
  | [] => some ⟨[], none, []⟩
  | a :: t =>
    if a = '^' then
      let flags := if t.head? = some ' ' then [] else t.takeWhile flagChar
      match if t.head? = some ' ' then t else t.dropWhile flagChar with
      | [] => none
      | c :: u =>
        if c = '^' then some ⟨flags, none, skipSpaces (skipSpaces u)⟩
        else
          match strchr '^' (skipSpaces (c :: u)) with
          | none => none
          | some (display, cmd) => some ⟨flags, some display, skipSpaces cmd⟩
    else some ⟨[], none, skipSpaces s⟩

end Tup.Rules
