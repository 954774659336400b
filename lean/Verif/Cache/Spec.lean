import Verif.Cache.Model

/-! What each call does to the table `node`, if there were no copies in memory. -/

namespace Tup.Cache

open Tup.Db (Kind)

/-- The table is one that tup makes: the ids begin with 1, names are unique in a directory, directories exist, and the times fit into 32 bits. -/
structure Sound (t : Table) : Prop where
  zero : t.row 0 = none
  bound : ∀ i, t.top ≤ i → t.row i = none
  unique : ∀ i j r q, t.row i = some r → t.row j = some q → r.dir = q.dir → r.name = q.name → i = j
  dirs : ∀ i r, t.row i = some r → r.dir = 0 ∨ t.row r.dir ≠ none
  fits : ∀ i r, t.row i = some r → int32 r.mtime.1 = r.mtime.1 ∧ int32 r.mtime.2 = r.mtime.2

/-- What the callers see to: nothing is asked for in or done to the made-up node 0, times fit into 32 bits, a directory is deleted after what is in it, and a variable has no time, no source and
no flags. -/
def Ok (t : Table) : Op → Prop
  | .get _ => True
  | .select d _ => d ≠ 0
  | .insert r => r.dir ≠ 0 ∧ int32 r.mtime.1 = r.mtime.1 ∧ int32 r.mtime.2 = r.mtime.2
  | .setName i _ d => i ≠ 0 ∧ d ≠ 0
  | .setMtime i x => i ≠ 0 ∧ int32 x.1 = x.1 ∧ int32 x.2 = x.2
  | .setKind i _ | .setSrc i _ | .setDisplay i _ | .setFlags i _ => i ≠ 0
  | .delete i => i ≠ 0 ∧ ∀ j r, t.row j = some r → r.dir ≠ i
  | .glob d _ _ _ => d ≠ 0
  | .vars d isVar => d ≠ 0 ∧ ∀ i r, t.row i = some r → r.dir = d → isVar i = true → r = { dir := d, kind := r.kind, name := r.name }
  | .load => True
  | .restart => True

/-- A row is replaced. -/
def Changes (t t' : Table) (i : Nat) (f : Row → Row) : Prop := ∃ r, t.row i = some r ∧ t'.row i = some (f r) ∧ ∀ j, j ≠ i → t'.row j = t.row j

/-- Ids in order. -/
def Sorted : List (Nat × Row) → Prop
  | [] => True
  | (i, _) :: l => (∀ x ∈ l, i < x.1) ∧ Sorted l

/-- Files and directories, generated or not. -/
def OnDisk (k : Kind) : Prop := k = .file ∨ k = .dir ∨ k = .generated ∨ k = .generatedDir

/-- What a call does: the table afterwards, and the rows that are returned. -/
def Does (t : Table) : Op → Table → List (Nat × Row) → Prop
  | .get i, t', out => t' = t ∧ ∃ r, (if i = 0 then some rootRow else t.row i) = some r ∧ out = [(i, r)]
  | .select d n, t', out => t' = t ∧ t.row d ≠ none ∧
      ((out = [] ∧ ∀ i r, t.row i = some r → r.dir = d → r.name ≠ n) ∨ ∃ i r, t.row i = some r ∧ r.dir = d ∧ r.name = n ∧ out = [(i, r)])
  | .insert r, t', out => t.row r.dir ≠ none ∧ (∀ i q, t.row i = some q → q.dir = r.dir → q.name ≠ r.name) ∧
      ∃ i, i ≠ 0 ∧ t.row i = none ∧ t'.row i = some r ∧ (∀ j, j ≠ i → t'.row j = t.row j) ∧ out = [(i, r)]
  | .setName i n d, t', out => t.row d ≠ none ∧ (∀ j q, t.row j = some q → q.dir = d → q.name = n → j = i) ∧ Changes t t' i (fun r => { r with name := n, dir := d }) ∧ out = []
  | .setKind i k, t', out => Changes t t' i (fun r => { r with kind := k }) ∧ out = []
  | .setMtime i x, t', out => Changes t t' i (fun r => { r with mtime := x }) ∧ out = []
  | .setSrc i x, t', out => Changes t t' i (fun r => { r with src := x }) ∧ out = []
  | .setDisplay i x, t', out => Changes t t' i (fun r => { r with display := x }) ∧ out = []
  | .setFlags i x, t', out => Changes t t' i (fun r => { r with flags := x }) ∧ out = []
  | .delete i, t', out => t'.row i = none ∧ (∀ j, j ≠ i → t'.row j = t.row j) ∧ out = []
  | .glob d kinds p skip, t', out => t' = t ∧ t.row d ≠ none ∧ Sorted out ∧
      ∀ i r, (i, r) ∈ out ↔ t.row i = some r ∧ r.dir = d ∧ kinds r.kind = true ∧ p r.name = true ∧ skip i = false
  | .vars d isVar, t', out => t' = t ∧ t.row d ≠ none ∧ Sorted out ∧ ∀ i r, (i, r) ∈ out ↔ t.row i = some r ∧ r.dir = d ∧ isVar i = true
  | .load, t', out => t' = t ∧ (∀ i r, t.row i = some r → OnDisk r.kind → r.dir = 0 ∨ ∃ q, t.row r.dir = some q ∧ OnDisk q.kind) ∧ out = []
  | .restart, t', out => t' = t ∧ out = []

/-- The states that can be reached by successful calls. -/
inductive Reach : St → Prop
  | start {t : Table} : Sound t → Reach { tab := t }
  | step {s s' : St} {o : Op} {out : List (Nat × Row)} : Reach s → Ok s.tab o → step s o = some (s', out) → Reach s'

/-- The inputs that the calls should return: those in the table `sticky_link`. -/
def inputs (group : Nat → Bool) : (Nat → List Nat) → List SOp → List (List Nat × List Nat)
  | _, [] => []
  | link, .insert a b :: os => inputs group (fun x => if x = b then a :: link b else link x) os
  | link, .remove a b :: os => inputs group (fun x => if x = b then (link b).filter fun y => decide (y ≠ a) else link x) os
  | link, .clear x :: os => inputs group (fun b => if b = x then [] else (link b).filter fun y => decide (y ≠ x)) os
  | link, .get b :: os => (link b, (link b).filter group) :: inputs group link os
  | link, .forget _ :: os => inputs group link os

end Tup.Cache
