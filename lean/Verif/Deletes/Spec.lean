import Verif.Deletes.Model

/-! The histories that the property about deleted files speaks of. -/

namespace Tup.Deletes

open Tup.Db Tup.Links Tup.DoRule

/-- The Tupfiles of the directories `ds` have been parsed, and the rules `rs` in them were all accepted. -/
inductive Parses (excl : Nat) (s0 : State) : List Nat → List Spec → State → Prop where
  | start : Parses excl s0 [] [] s0
  /-- The parsing of a directory begins. -/
  | dir {ds : List Nat} {rs : List Spec} {s s' : State} (d : Nat) : Parses excl s0 ds rs s → parseDir d s = some s' → Parses excl s0 (d :: ds) rs s'
  /-- A rule of a directory whose parsing has begun is accepted. -/
  | rule {ds : List Nat} {rs : List Spec} {s s' : State} (r : Spec) : Parses excl s0 ds rs s → s.p.parsing r.dir = some true → SpecOk s.p.db excl r →
      rule excl r s = some s' → Parses excl s0 ds (r :: rs) s'
  /-- A node is made for something that a Tupfile mentions: a ghost, a directory for outputs. -/
  | found {ds : List Nat} {rs : List Spec} {s : State} (n : Node) : Parses excl s0 ds rs s → s.p.db.select n.dir n.name = none → n.kind ≠ .cmd →
      n.kind ≠ .generated → Parses excl s0 ds rs { s with p := { s.p with db := (s.p.db.insertNode n).1 } }

/-- None of the rules lists the file. -/
def Unlisted (rs : List Spec) (n : Node) : Prop := ∀ r ∈ rs, ¬ Lists r n

/-- The file that is to be deleted, in terms of the database before the update: a generated file that none of the rules lists, and
either the directory of its rule was parsed and the file has not been changed by anybody else, or that directory is gone, and
the file is in another one. -/
structure Obsolete (db : Db) (ds : List Nat) (rs : List Spec) (i : Nat) (n : Node) (d : Nat) : Prop where
  node : db.node i = some n
  kind : n.kind = .generated
  src : n.src = some d
  unlisted : Unlisted rs n
  why : (d ∈ ds ∧ db.modify i = false) ∨ (db.create d = true ∧ db.isKind .ghost d = true ∧ n.dir ≠ d)

end Tup.Deletes
