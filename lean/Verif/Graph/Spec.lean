import Verif.Graph.Model
import Verif.Exec.Spec

/-! Vocabulary for the graph properties: plain reachability in the recorded links. -/

namespace Tup.Graph

/-- `b` is reached from `a` along one or more links of `r`. -/
inductive Plus (r : Nat → Nat → Prop) : Nat → Nat → Prop where
  | one {a b} : r a b → Plus r a b
  | tail {a b c} : Plus r a b → r b c → Plus r a c

/-- `b` is `a` or reached from `a`. -/
def Star (r : Nat → Nat → Prop) (a b : Nat) : Prop := a = b ∨ Plus r a b

/-- All links the update graph follows: recorded links and links between groups. -/
def Linked (l : Links) (a b : Nat) : Prop := b ∈ l.links a ∨ b ∈ l.groupLinks a

/-- The database is finite and self-contained: all scheduled nodes and all link targets are among the
nodes `U`, and the graph's own root is not one of them. -/
structure Closed (l : Links) (root : Nat) (U sched : List Nat) : Prop where
  sched : ∀ n ∈ sched, n ∈ U
  links : ∀ n ∈ U, ∀ m, Linked l n m → m ∈ U
  root : root ∉ U
  nodup : U.Nodup

/-- The edge relation of an edge list. -/
def EdgeRel (es : List (Nat × Nat)) (a b : Nat) : Prop := (a, b) ∈ es

/-- Group `b` is filled by a command that uses group `a`. -/
def GroupDep (rows : Nat → List (Nat × Nat)) (a b : Nat) : Prop := ∃ cmd, (b, cmd) ∈ rows a

/-- What the group_link table looks like: everything is among the nodes `U`; commands and groups are
different things; and a command that uses groups and fills groups has a row for every pair. -/
structure GroupRows (rows : Nat → List (Nat × Nat)) (root : Nat) (U groups : List Nat) : Prop where
  checked : ∀ g ∈ groups, g ∈ U
  dst : ∀ n ∈ U, ∀ to cmd, (to, cmd) ∈ rows n → to ∈ U ∧ cmd ∈ U
  cmdNoRows : ∀ n to cmd, (to, cmd) ∈ rows n → rows cmd = []
  cmdNotGroup : ∀ n to cmd, (to, cmd) ∈ rows n → cmd ∉ groups ∧ ∀ m c, (cmd, c) ∉ rows m
  product : ∀ a b to fr cmd, (to, cmd) ∈ rows a → (b, cmd) ∈ rows fr → (b, cmd) ∈ rows a
  root : root ∉ U
  nodup : U.Nodup

/-- The shape of the update graph that pruning relies on.  Nothing points at the root; files are produced
by at most one command (C27); what a command points at, other than groups and exclusions, is not a
command. -/
structure Produced (i : Info) (root : Nat) (edges : List (Nat × Nat)) : Prop where
  rootNoIn : ∀ a, (a, root) ∉ edges
  rootKind : i.kind root ≠ .cmd
  unique : ∀ c d, (c, d) ∈ edges → i.kind c = .cmd → i.kind d ≠ .group → i.excl d = false →
    i.kind d ≠ .cmd ∧ ∀ a, (a, d) ∈ edges → a = c ∨ a = root

end Tup.Graph
