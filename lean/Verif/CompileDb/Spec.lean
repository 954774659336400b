import Verif.CompileDb.Model
import Verif.Strings.Spec

/-! A reader for JSON arrays of objects with strings, for C89.  Escapes with four digits and empty objects are left out, as they do not come up. -/

namespace Tup.CompileDb

open Tup (Str)

/-- White space of JSON. -/
def isWs (c : Char) : Bool := c = ' ' || c = '\n' || c = '\t' || c = '\r'

def ws (s : Str) : Str := s.dropWhile isWs

/-- A string behind its first quote, and what follows the last one. -/
def rdStr : Str → Option (Str × Str)
  | [] => none
  | '"' :: r => some ([], r)
  | ['\\'] => none
  | '\\' :: c :: r =>
    if c = '\\' ∨ c = '"' ∨ c = '/' then (rdStr r).map fun x => (c :: x.1, x.2)
    else if c = 'n' then (rdStr r).map fun x => ('\n' :: x.1, x.2)
    else if c = 't' then (rdStr r).map fun x => ('\t' :: x.1, x.2)
    else none
  | c :: r => if c.toNat < 32 then none else (rdStr r).map fun x => (c :: x.1, x.2)

/-- One character, with white space before it. -/
def tok (c : Char) (s : Str) : Option Str :=
  match ws s with
  | [] => none
  | d :: r => if d = c then some r else none

/-- A name and its value: two strings with a colon between. -/
def rdField (s : Str) : Option ((Str × Str) × Str) :=
  match tok '"' s with
  | none => none
  | some s =>
    match rdStr s with
    | none => none
    | some (k, s) =>
      match tok ':' s with
      | none => none
      | some s =>
        match tok '"' s with
        | none => none
        | some s =>
          match rdStr s with
          | none => none
          | some (v, s) => some ((k, v), s)

/-- The fields of an object behind its brace, at most `n`. -/
def rdFields : Nat → Str → Option (List (Str × Str) × Str)
  | 0, _ => none
  | n + 1, s =>
    match rdField s with
    | none => none
    | some (f, s) =>
      match ws s with
      | ',' :: s => (rdFields n s).map fun x => (f :: x.1, x.2)
      | '}' :: s => some ([f], s)
      | _ => none

/-- The objects of an array, from the first brace on, at most `n`. -/
def rdObjs : Nat → Str → Option (List (List (Str × Str)) × Str)
  | 0, _ => none
  | n + 1, s =>
    match tok '{' s with
    | none => none
    | some s' =>
      match rdFields s'.length s' with
      | none => none
      | some (o, s) =>
        match ws s with
        | ',' :: s => (rdObjs n s).map fun x => (o :: x.1, x.2)
        | ']' :: s => some ([o], s)
        | _ => none

/-- A whole text: an array and white space. -/
def read (t : Str) : Option (List (List (Str × Str))) :=
  match tok '[' t with
  | none => none
  | some s =>
    match (match ws s with | ']' :: r => some ([], r) | _ => rdObjs t.length s) with
    | none => none
    | some (l, r) => if ws r = [] then some l else none

/-- An object of compile_commands.json. -/
def object (x : Str × Str × Str) : List (Str × Str) := [("directory".toList, x.1), ("command".toList, x.2.1), ("file".toList, x.2.2)]

/-- A path or command that can be written: no control characters, and something that needs no escape. -/
def TextOk (s : Str) : Prop := (∀ c, c ∈ s → Strings.control c = false) ∧ ∃ c, c ∈ s ∧ c ≠ '\\' ∧ c ≠ '"'

/-- A path that is written without escapes. -/
def PathOk (s : Str) : Prop := ∀ c, c ∈ s → Strings.control c = false ∧ c ≠ '\\' ∧ c ≠ '"'

def CallOk (x : Str × Str × Str) : Prop := TextOk x.1 ∧ TextOk x.2.1 ∧ PathOk x.2.2

/-- What the file of a variant is to hold: for each command with flag `j` in the variant, an object for each of its inputs that is a file. -/
def records (cmds : List Cmd) (variant : Nat) : List (List (Str × Str)) :=
  cmds.flatMap fun c => if 'j' ∈ c.flags ∧ c.variant = variant then c.inputs.filterMap (fun i => if i.file then some (object (c.dir, c.name, i.path)) else none) else []

/-- Commands whose strings can be written. -/
def CmdsOk (cmds : List Cmd) : Prop := ∀ c, c ∈ cmds → TextOk c.dir ∧ TextOk c.name ∧ ∀ i, i ∈ c.inputs → PathOk i.path

end Tup.CompileDb
