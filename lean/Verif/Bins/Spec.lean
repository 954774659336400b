import Verif.Bins.Model
import Verif.Execute.Spec

/-! What a bin contains and what a list of paths with bins in it stands for. -/

namespace Tup.Bins

open Tup.Names Tup.Execute

/-- The files that a command puts into the bin of its rule: its outputs, or its inputs if there is no command. -/
def puts (m : Made) : List BinEntry :=
  (if m.job.command = [] then m.job.inputs.entries else m.outputs).map fun e => ⟨e.path, e.tent⟩

/-- The files in a bin: those that the commands of the rules with this bin have put there, in order. -/
def Contents (made : List Made) (b : Str) : List BinEntry :=
  (made.filter fun m => m.bin = some b).flatMap puts

/-- The bin that a rule line fills. -/
def Fills (p : Str) (b : Str) : Prop := ∃ t, Rules.parseRule p = .ok t ∧ t.bin = some b

/-- One of the lines is a rule that fills the bin. -/
def Filled {σ : Type} (lines : List (Line σ)) (b : Str) : Prop := ∃ p, Line.rule p ∈ lines ∧ Fills p b

variable {σ : Type}

/-- `Gathered B made s pls l s'`: the paths `pls` stand for the files `l`.  A bin stands for its contents, a regular
expression takes out what it matches among the files in front of it, and any other path for what it is looked up as. -/
inductive Gathered (B : Base σ) (made : List Made) (s : σ) : List Pl → List Entry → σ → Prop
  | nil : Gathered B made s [] [] s
  | bin {pls l s' p b} : Gathered B made s pls l s' → p.kind = .bin b →
      Gathered B made s (pls ++ [p]) (l ++ (Contents made b).map fun e => pathEntry e.path p.orderid e.tent) s'
  | excl {pls l s' p re} : Gathered B made s pls l s' → p.kind = .excl re →
      Gathered B made s (pls ++ [p]) (l.filter fun e => !B.reMatch re e.path) s'
  | file {pls l s' p s'' new} : Gathered B made s pls l s' → (p.kind = .file ∨ p.kind = .group) →
      B.lookup s' p = some (s'', new) → Gathered B made s (pls ++ [p]) (l ++ new) s''

def Blank (c : Char) : Prop := c = ' ' ∨ c = '\t'

/-- `Words t l`: `l` are the words of the text, which are separated by blanks and tabs. -/
inductive Words : Str → List Str → Prop
  | nil : Words [] []
  | blank {c t l} : Blank c → Words t l → Words (c :: t) l
  | last {w} : w ≠ [] → (∀ c ∈ w, ¬ Blank c) → Words w [w]
  | word {w c t l} : w ≠ [] → (∀ c ∈ w, ¬ Blank c) → Blank c → Words t l → Words (w ++ c :: t) (w :: l)

/-- `Expands B s nl ps qs`: what becomes of the paths when variables and `%`-flags are replaced.  A path without any
stays as it is; otherwise the new text is cut at blanks, and no piece of it can be a bin. -/
inductive Expands (B : Base σ) (s : σ) (nl : Option NameList) : List Pl → List Pl → Prop
  | nil : Expands B s nl [] []
  | same {p ps qs} : B.expand s nl p.mem = some p.mem → Expands B s nl ps qs → Expands B s nl (p :: ps) (p :: qs)
  | other {p ps qs t new} : B.expand s nl p.mem = some t → t ≠ p.mem → Words t (new.map (·.mem)) →
      (∀ q ∈ new, q.orderid = p.orderid ∧ q.mem.head? ≠ some '{' ∧ PathList.newPl none B.reOk q.mem = some q.kind) →
      Expands B s nl ps qs → Expands B s nl (p :: ps) (new ++ qs)

/-- `Reads B made s ps nl l s'`: after the commands `made`, the paths `ps` of a rule stand for the files `l`. -/
inductive Reads (B : Base σ) (made : List Made) (s : σ) (ps : List Pl) (nl : Option NameList) (l : List Entry)
    (s' : σ) : Prop
  | mk {qs s1} : Expands B s nl ps qs → B.depend s qs = some s1 → Gathered B made s1 qs l s' →
      Reads B made s ps nl l s'

/-- A path that stands for a bin: `{`, the name, `}`, and anything. -/
def BinPath (p b : Str) : Prop := ∃ t, p = "{".toList ++ b ++ "}".toList ++ t ∧ '}' ∉ b

end Tup.Bins
