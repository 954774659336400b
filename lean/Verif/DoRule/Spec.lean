import Verif.DoRule.Run
import Verif.Links.Props

/-! Histories of the database: what the property about the writers of a file quantifies over. -/

namespace Tup.DoRule

open Tup.Db Tup.Links

/-- A generated file is written by a command of the directory that it is marked with. -/
def Homes (db : Db) (excl : Nat) : Prop :=
  ∀ c b, Writes db excl c b → ∃ n m, db.node c = some n ∧ db.node b = some m ∧ m.kind = .generated ∧ m.src = some n.dir

/-- A group with a member, or that a command reads, is not deleted: `group_reclaimable1` and `group_reclaimable2`,
src/tup/db.c:7228-7328. -/
def Reclaimable (db : Db) (i : Nat) : Prop := db.isKind .group i = false ∨ ∀ j, db.normal j i = false ∧ db.sticky i j = false

/-- A generated file that nobody generates any more and that is to be kept, src/tup/updater.c:734-745. -/
def saveFile (db : Db) (i : Nat) : Db := ((db.modifyByInput i).deleteLinks i).setKind i .file

/-- What happens to the database in the course of time. -/
inductive Step (excl : Nat) : Parse → Parse → Prop where
  /-- An update begins; those directories are to be parsed. -/
  | update (p : Parse) (dirs : Nat → Bool) : Step excl p (beginUpdate dirs p.db)
  /-- The parsing of a directory begins. -/
  | parse {p p' : Parse} (d : Nat) : beginParse d p = some p' → Step excl p p'
  /-- A rule of a Tupfile that is being parsed is accepted. -/
  | rule {p p' : Parse} (r : Spec) : p.parsing r.dir = some true → SpecOk p.db excl r → doRule excl r p = some p' → Step excl p p'
  /-- A node is deleted: a file that is gone, a command without a rule, and so on. -/
  | delete (p : Parse) (i : Nat) : Reclaimable p.db i → Step excl p { p with db := p.db.deleteNameFile i }
  /-- A generated file becomes an ordinary file. -/
  | save (p : Parse) (i : Nat) : p.db.isKind .generated i = true → Step excl p { p with db := saveFile p.db i }
  /-- A new file or directory is found, or a ghost is needed. -/
  | found (p : Parse) (n : Node) : p.db.select n.dir n.name = none → n.kind ≠ .cmd → Step excl p { p with db := (p.db.insertNode n).1 }
  /-- A file or directory is found where there was a ghost. -/
  | appear (p : Parse) (i : Nat) (kind : Db.Kind) (src : Option Nat) : p.db.isKind .ghost i = true → inDir p.db excl i = false →
      (kind = .file ∨ kind = .dir) → Step excl p { p with db := upgradeGhost p.db i kind src }
  /-- A command has run and its inputs are recorded. -/
  | ran (p : Parse) {db' : Db} {env cmd : Nat} {variant : Nat → Option Nat} {outputs read : List Nat} {ok important : Bool} :
      p.db.isKind .cmd cmd = true → ReadSet p.db read → (∀ a ∈ read, p.db.isKind .cmd a = false) →
      checkInputs p.db env cmd variant outputs read = some (db', ok, important) → Step excl p { p with db := db' }
  /-- The lists of what is to be done change: a file was changed, a command has run, a directory was parsed. -/
  | flags (p : Parse) (create modify config variant transient : Nat → Bool) :
      Step excl p { p with db := { p.db with create := create, modify := modify, config := config, variant := variant, transient := transient } }

/-- Any number of them. -/
inductive Steps (excl : Nat) : Parse → Parse → Prop where
  | refl (p : Parse) : Steps excl p p
  | step {p q r : Parse} : Steps excl p q → Step excl q r → Steps excl p r

/-- A database without rules: there are nodes, no two with the same name in a directory, but no links and no commands. -/
structure Initial (p : Parse) : Prop where
  name : ∀ a b n m, p.db.node a = some n → p.db.node b = some m → n.dir = m.dir → n.name = m.name → a = b
  cmd : ∀ a n, p.db.node a = some n → n.kind ≠ .cmd
  node : ∀ a n, p.db.node a = some n → 0 < a ∧ a < p.db.top
  normal : ∀ a b, p.db.normal a b = false
  sticky : ∀ a b, p.db.sticky a b = false
  group : ∀ a b c, p.db.group a b c = false

/-- The command writes the generated file: they are linked.  `excl` is the directory in which tup keeps the patterns of exclusions,
which are not files. -/
def Produces (db : Db) (excl c b : Nat) : Prop :=
  ∃ n m, db.node c = some n ∧ n.kind = .cmd ∧ db.node b = some m ∧ m.kind = .generated ∧ m.dir ≠ excl ∧ db.normal c b = true

/-- The rule lists that file among its outputs. -/
def Lists (r : Spec) (m : Node) : Prop := ∃ path src, Out.file m.dir path src ∈ r.outputs ++ r.extra ∧ base path = m.name

/-- What happens while the Tupfiles of one update are parsed. -/
inductive Parsing (excl : Nat) : Parse → Parse → Prop where
  | refl (p : Parse) : Parsing excl p p
  | parse {p q q' : Parse} (d : Nat) : Parsing excl p q → beginParse d q = some q' → Parsing excl p q'
  | rule {p q q' : Parse} (r : Spec) : Parsing excl p q → q.parsing r.dir = some true → SpecOk q.db excl r → doRule excl r q = some q' →
      Parsing excl p q'

/-- The command stays: no rule can do without it in this update.  Either its Tupfile is not parsed in this update, or a rule has
claimed it. -/
def Stays (p : Parse) (c : Nat) : Prop :=
  p.doomed c = false ∧ ∃ n, p.db.node c = some n ∧ p.parsing n.dir ≠ some false

end Tup.DoRule
