import Verif.Refactor.Model

/-! What C75 says, apart from the functions of the model. -/

namespace Tup.Refactor

/-- The same elements. -/
def SameSet (a b : List Nat) : Prop := ∀ x, x ∈ a ↔ x ∈ b

/-- The command is what the rule asks for. -/
structure Match (r : Rule) (c : Cmd) : Prop where
  name : c.name = r.name
  display : c.display = r.display
  flags : c.flags = r.flags
  ins : SameSet c.ins r.ins
  outs : SameSet c.outs r.outs
  excl : SameSet c.excl r.excl
  group : c.group = r.group

/-- The commands are what the rules ask for, one for each rule and no others. -/
structure Agree (rules : List Rule) (cmds : List Cmd) : Prop where
  once : (rules.map (·.name)).Nodup
  all : ∀ r ∈ rules, ∃ c ∈ cmds, Match r c
  only : ∀ c ∈ cmds, ∃ r ∈ rules, r.name = c.name

/-- A database as updates leave it: numbers and strings of commands are not used twice, and a file has one command (C27). -/
structure Wf (t : Db) : Prop where
  ids : (t.cmds.map (·.id)).Nodup
  names : (t.cmds.map (·.name)).Nodup
  outs : ∀ c ∈ t.cmds, ∀ c' ∈ t.cmds, ∀ f, f ∈ c.outs → f ∈ c'.outs → c = c'

/-- No file is an output of two rules (C50). -/
def Disjoint (rules : List Rule) : Prop := rules.Pairwise (fun r r' => ∀ f, f ∈ r.outs → f ∉ r'.outs)

end Tup.Refactor
