import Verif.Lua.Model
import Verif.PathList.Spec
import Verif.Rules.Spec

/-! What C85 says: the line of a Tupfile that a rule of a Tupfile.lua stands for. -/

namespace Tup.Lua

open Tup (Str)
open Tup.Bins (Base State)

/-- Words with spaces between them. -/
def joined : List Str → Str
  | [] => []
  | [w] => w
  | w :: l => w ++ ' ' :: joined l

/-- Two lists, the second behind a bar if there is one. -/
def barred (a b : List Str) : Str :=
  if b = [] then joined a else if a = [] then '|' :: ' ' :: joined b else joined a ++ ' ' :: '|' :: ' ' :: joined b

/-- The rule as it is written in a Tupfile, behind the colon. -/
def line (c : Call) : Str :=
  ' ' :: ((if c.foreach_ then "foreach ".toList else []) ++ barred c.inputs c.extraInputs) ++ ' ' :: "|>".toList ++ (' ' :: c.command ++ [' ']) ++ "|>".toList ++ [' '] ++
    barred c.outputs c.extraOutputs ++
    match c.bin with
    | none => []
    | some b => ' ' :: "{".toList ++ b ++ "}".toList

/-- A path that can be written in a Tupfile as it is. -/
structure Plain (w : Str) : Prop where
  ne : w ≠ []
  chars : ∀ c ∈ w, isSpace c = false ∧ c ≠ '\\' ∧ c ≠ '"' ∧ c ≠ '|'
  len : w.length < PathList.pathMax

/-- What the comparison is restricted to: paths that mean something, without blanks, quotes, backslashes, bars or anything that is expanded; a command that a Tupfile can have; no arguments for a macro; and what would be read as
something else in a Tupfile. -/
structure Comparable {σ : Type} (B : Base σ) (s : State σ) (c : Call) : Prop where
  ins : ∀ w ∈ c.inputs ++ c.extraInputs, Plain w ∧ B.expand s.base none w = some w ∧ ∃ k, PathList.Means (Bins.known s.bins) B.reOk w k
  outs : ∀ w ∈ c.outputs ++ c.extraOutputs, Plain w ∧ B.expand s.base none w = some w ∧ ∃ k, PathList.Means none B.reOk w k
  tight : Rules.Tight c.command
  bar : ¬ Occurs "|>".toList c.command
  bang : c.command.head? = some '!' → ' ' ∉ c.command
  bin : ∀ b, c.bin = some b → '}' ∉ b
  each : c.foreach_ = true → c.inputs ≠ []
  notEach : c.foreach_ = false → ∀ w l, c.inputs = w :: l → ¬ ∃ t, w = "foreach".toList ++ t

/-- The four ways to call `tup.rule` and `tup.foreach_rule`, and what the arguments are then: the inputs, the command, the outputs. -/
inductive Form : Val → Val → Val → Val → Str → Val → Prop
  | command {s} : Form (.str s) .nil .nil .nil s .nil
  | noInputs {s o} : Form (.str s) (.ref o) .nil .nil s (.ref o)
  | noOutputs {i s} : Form (.ref i) (.str s) .nil (.ref i) s .nil
  | three {a s c} : c ≠ .nil → Form a (.str s) c a s c

/-- `v` stands for the list `l`: a string, or a table of strings that has only fields with these names. -/
def Lists (h : Heap) (v : Val) (names : List Str) (l : List Str) : Prop :=
  (∃ w, v = .str w ∧ l = [w]) ∨ ∃ i t, v = .ref i ∧ h[i]? = some t ∧ t.arr = l.map .str ∧ ∀ x ∈ t.fields, x.1 ∈ names ∧ x.2 ≠ .nil

/-- The same, or nothing. -/
def Arg (h : Heap) (v : Val) (names : List Str) (l : List Str) : Prop := (v = .nil ∧ l = []) ∨ Lists h v names l

/-- The value of a field, if `v` is a table. -/
def fieldOf (h : Heap) (v : Val) (k : Str) : Val :=
  match v with
  | .ref i => get h i k
  | _ => .nil

/-- The bin: without braces. -/
def BinIs (v : Val) (b : Option Str) : Prop := (v = .nil ∧ b = none) ∨ ∃ w, v = .str w ∧ b = some (w.filter fun c => c ≠ '{' && c ≠ '}')

def xIn : Str := "extra_inputs".toList
def xOut : Str := "extra_outputs".toList
def kBin : Str := "bin".toList

/-- The table without these fields. -/
def strip (ks : List Str) (t : Tab) : Tab := { t with fields := t.fields.filter fun x => decide (x.1 ∉ ks) }

/-- What is taken from the table at `j` by a call. -/
def taken (i o : Val) (j : Nat) : List Str := (if i = .ref j then [xIn] else []) ++ if o = .ref j then [xOut, kBin] else []

/-- The arguments of a call stand for this rule. -/
structure Stands (h : Heap) (i o : Val) (c : Call) : Prop where
  ins : Arg h i [xIn] c.inputs
  extraIns : Arg h (fieldOf h i xIn) [] c.extraInputs
  outs : Arg h o [xOut, kBin] c.outputs
  extraOuts : Arg h (fieldOf h o xOut) [] c.extraOutputs
  bin : BinIs (fieldOf h o kBin) c.bin

end Tup.Lua
