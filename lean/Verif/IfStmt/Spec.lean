import Verif.IfStmt.Model

/-!
Specification of conditionals.  `specRun` is a plain stack of branches; `Block` is the block structured
reading of a Tupfile.  Neither mentions the bit representation.
-/

namespace Tup.IfStmt

/-- A stack of open conditionals, innermost first; `true` means the current branch is the selected one.
At most eight may be open. -/
def specStep : List Bool → Dir → Option (List Bool)
  | st, .add b => if st.length < 8 then some (b :: st) else none
  | b :: st, .els => some ((!b) :: st)
  | _ :: st, .endif => some st
  | [], .els => none
  | [], .endif => none

def specRun : List Bool → List Dir → Option (List Bool)
  | st, [] => some st
  | st, d :: ds => (specStep st d).bind (specRun · ds)

/-- Any Tupfile, well nested or not, read with a stack of open conditionals: a condition is evaluated and an
ordinary line is executed only if all open branches are selected ones; the file ends well only if nothing is
open. -/
def specLines {σ : Type} (h : Handlers σ) : List Str → List Bool → σ → Option σ
  | [], st, t => if st = [] then some t else none
  | l :: ls, st, t =>
    match classify l with
    | .els => (specStep st .els).bind fun st => specLines h ls st t
    | .endif => (specStep st .endif).bind fun st => specLines h ls st t
    | .cond c =>
      if false ∈ st then (specStep st (.add c.neg)).bind fun st => specLines h ls st t
      else if (h.cond t c.eq c.arg).2 < 0 then none
      else
        (specStep st (.add (((h.cond t c.eq c.arg).2 ≠ 0) != c.neg))).bind fun st =>
          specLines h ls st (h.cond t c.eq c.arg).1
    | .other =>
      if false ∈ st then specLines h ls st t
      else if (h.exec t l).2 < 0 then none
      else specLines h ls st (h.exec t l).1

/-- A Tupfile read as nested blocks. -/
inductive Block where
  | nil
  /-- an ordinary line, then the rest -/
  | line (l : Str) (rest : Block)
  /-- `if.. / then-part / [else / else-part] / endif`, then the rest -/
  | ifb (c : Cond) (thn : Block) (hasElse : Bool) (els : Block) (rest : Block)

namespace Block

/-- The text of a condition line. -/
def condLine (c : Cond) : Str :=
  (match c.eq, c.neg with
   | true, false => "ifeq ".toList
   | true, true => "ifneq ".toList
   | false, false => "ifdef ".toList
   | false, true => "ifndef ".toList) ++ c.arg

/-- The lines of a block. -/
def render : Block → List Str
  | nil => []
  | line l rest => l :: rest.render
  | ifb c t he e rest =>
    condLine c :: t.render ++ (if he then "else".toList :: e.render else []) ++
      "endif".toList :: rest.render

/-- Nesting depth. -/
def depth : Block → Nat
  | nil => 0
  | line _ rest => rest.depth
  | ifb _ t he e rest =>
    max (1 + max t.depth (if he then e.depth else 0)) rest.depth

/-- Ordinary lines are not conditional directives. -/
def wf : Block → Prop
  | nil => True
  | line l rest => classify l = .other ∧ rest.wf
  | ifb _ t _ e rest => t.wf ∧ e.wf ∧ rest.wf

variable {σ : Type}

/-- Block structured meaning: only the selected part is executed, the condition is evaluated once, in
the state at that point; the first negative status aborts. -/
def exec (h : Handlers σ) : Block → σ → Option σ
  | nil, t => some t
  | line l rest, t =>
    let r := h.exec t l
    if r.2 < 0 then none else rest.exec h r.1
  | ifb c thn he e rest, t =>
    let r := h.cond t c.eq c.arg
    if r.2 < 0 then none
    else
      let truth : Bool := (r.2 ≠ 0)
      let sel := if c.neg then !truth else truth
      let mid := if sel then thn.exec h r.1 else if he then e.exec h r.1 else some r.1
      match mid with
      | none => none
      | some t' => rest.exec h t'

end Block
end Tup.IfStmt
