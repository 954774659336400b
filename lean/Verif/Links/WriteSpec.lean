import Verif.Links.Write
import Verif.Links.Spec

/-! Vocabulary for the property about the links that a rule declares. -/

namespace Tup.Links

open Tup.Db

/-- A node that the command of the rule writes to: an output, an exclusion (which is a node in the directory of the
exclusions), or the group. -/
def Declared (r : Rule) (b : Nat) : Prop := b ∈ r.outputs ∨ b ∈ r.exclusions ∨ r.group = some b

/-- The rule is one that `do_rule` makes: the trees are sets; outputs are not groups or exclusions and so on; the variables of
the environment are among the inputs; nothing is linked to itself. -/
structure RuleOk (db : Db) (excl : Nat) (r : Rule) : Prop where
  outputs : Asc r.outputs
  exclusions : Asc r.exclusions
  inputs : Asc r.inputs
  env : Asc r.env
  envInputs : ∀ a ∈ r.env, a ∈ r.inputs
  output : ∀ b ∈ r.outputs, ∃ n, db.node b = some n ∧ n.kind ≠ .group ∧ n.dir ≠ excl
  exclusion : ∀ b ∈ r.exclusions, ∃ n, db.node b = some n ∧ n.kind ≠ .group ∧ n.dir = excl
  group : ∀ g, r.group = some g → ∃ n, db.node g = some n ∧ n.kind = .group
  input : ∀ a ∈ r.inputs, (db.node a).isSome
  cmd : db.isKind .cmd r.cmd = true
  self : db.normal r.cmd r.cmd = false
  outputFile : ∀ b ∈ r.outputs, db.isKind .generated b = true
  exclusionGhost : ∀ b ∈ r.exclusions, db.isKind .ghost b = true
  inputFile : ∀ a ∈ r.inputs, db.isKind .cmd a = false ∧ db.isKind .ghost a = false

/-- What the command writes to is different from before, or the command itself is. -/
def OutputsChange (db : Db) (r : Rule) : Prop :=
  r.modified = true ∨ ∃ b, ¬ (db.normal r.cmd b = true ↔ Declared r b)

/-- A declared input is taken away that the command had used, or a group is taken away. -/
def InputTaken (db : Db) (r : Rule) (a : Nat) : Prop :=
  db.sticky a r.cmd = true ∧ a ∉ r.inputs ∧ (db.normal a r.cmd = true ∨ db.isKind .group a = true)

/-- A variable of the environment is added. -/
def EnvAdded (db : Db) (r : Rule) (a : Nat) : Prop := a ∈ r.env ∧ db.sticky a r.cmd = false

/-- The old group of the command is not the new one any more. -/
def GroupLeft (db : Db) (r : Rule) (g : Nat) : Prop :=
  db.normal r.cmd g = true ∧ db.isKind .group g = true ∧ r.group ≠ some g

/-- `a` is a file that command `c` writes. -/
def Writes (db : Db) (excl c a : Nat) : Prop :=
  db.isKind .cmd c = true ∧ db.normal c a = true ∧ db.isKind .group a = false ∧ inDir db excl a = false

/-- What the stored rules have in common: a command does not write commands; a file has one command that writes it; a command puts its files into one group at most,
and it puts all of them there, and no other; and there is a link between groups for each command that reads the one and writes the
other; a ghost that is not an exclusion is no declared input and nobody's output; only commands write generated files. -/
structure Tidy (db : Db) (excl : Nat) : Prop where
  file : ∀ c a, db.isKind .cmd c = true → db.normal c a = true → db.isKind .cmd a = false
  owner : ∀ c c' a, Writes db excl c a → Writes db excl c' a → c = c'
  oneGroup : ∀ c g g', db.isKind .cmd c = true → db.normal c g = true → db.normal c g' = true → db.isKind .group g = true →
    db.isKind .group g' = true → g = g'
  member : ∀ c a g, Writes db excl c a → db.isKind .group g = true → (db.normal a g = true ↔ db.normal c g = true)
  groups : ∀ x y z, db.group x y z = true ↔
    db.isKind .cmd z = true ∧ db.sticky x z = true ∧ db.normal z y = true ∧ db.isKind .group x = true ∧ db.isKind .group y = true
  ghost : ∀ y, db.isKind .ghost y = true → inDir db excl y = false → ∀ z, db.normal z y = false ∧ db.sticky y z = false
  source : ∀ a b, db.isKind .generated b = true → db.normal a b = true → db.isKind .cmd a = true

/-- The outputs of the rule are not those of another command, and those that are new are in no group: what
`tup_db_create_unique_link` sees to. -/
structure Free (db : Db) (excl : Nat) (r : Rule) : Prop where
  owner : ∀ a ∈ r.outputs, ∀ c, Writes db excl c a → c = r.cmd
  group : ∀ a ∈ r.outputs, db.normal r.cmd a = false → ∀ g, db.isKind .group g = true → db.normal a g = false

end Tup.Links
