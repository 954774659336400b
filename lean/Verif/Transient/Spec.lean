import Verif.Transient.Model
import Verif.Graph.Spec

/-!
Which nodes belong into the work graph of an update in a project with transient commands, in terms of the
database.
-/

namespace Tup.Transient

open Tup.Graph

/-- The database is finite and self-contained.  Commands point at files and groups; only commands have declared
inputs, and no command has its own output as one. -/
structure DbOk (d : Db) (root : Nat) (U : List Nat) : Prop where
  modify : ∀ n ∈ d.modify, n ∈ U
  kept : ∀ n ∈ d.kept, n ∈ U
  links : ∀ n ∈ U, ∀ m, Linked d.toLinks n m → m ∈ U
  noRoot : root ∉ U
  nodup : U.Nodup
  modifyOnce : d.modify.Nodup
  keptOnce : d.kept.Nodup
  rootCmd : d.isCmd root = false
  outputs : ∀ c o, d.isCmd c = true → o ∈ d.links c → d.isCmd o = false
  users : ∀ o r, r ∈ d.sticky o → d.isCmd r = true
  own : ∀ c o, o ∈ d.links c → c ∉ d.sticky o

/-- A transient command that is to be run again if its outputs are needed. -/
def Waiting (d : Db) (c : Nat) : Prop := c ∈ d.modify ∧ d.isCmd c = true ∧ d.temp c = true

/-- Where the graph starts: the modified nodes, except transient commands, and all nodes left from an earlier,
unfinished update. -/
def Start (d : Db) (n : Nat) : Prop := (n ∈ d.modify ∧ ¬ (d.isCmd n = true ∧ d.temp n = true)) ∨ n ∈ d.kept

/-- A transient file left from an earlier update which is not itself modified.  The graph is not extended beyond
it. -/
def Parked (d : Db) (n : Nat) : Prop := n ∈ d.kept ∧ d.isCmd n = false ∧ n ∉ d.modify

instance (d : Db) (n : Nat) : Decidable (Parked d n) :=
  inferInstanceAs (Decidable (n ∈ d.kept ∧ d.isCmd n = false ∧ n ∉ d.modify))

/-- A link the graph is extended along. -/
def Follows (d : Db) (a b : Nat) : Prop := Linked d.toLinks a b ∧ ¬ Parked d a

/-- What is reached from a start. -/
def Changed (d : Db) (n : Nat) : Prop := ∃ s, Start d s ∧ Star (Follows d) s n

/-- A transient command that is not reached, one of whose outputs does not exist and is an input of a command that
is reached, or that is itself wanted. -/
inductive Wanted (d : Db) : Nat → Prop where
  | reached {c o r} : Waiting d c → ¬ Changed d c → o ∈ d.links c → o ∉ d.kept → r ∈ d.sticky o → Changed d r →
      Wanted d c
  | wanted {c o r} : Waiting d c → ¬ Changed d c → o ∈ d.links c → o ∉ d.kept → r ∈ d.sticky o → Wanted d r →
      Wanted d c

/-- A node that may be removed: an output, not in the transient list, of a transient command that is not reached. -/
def Lost (d : Db) (x : Nat) : Prop := ∃ c, Waiting d c ∧ ¬ Changed d c ∧ x ∈ d.links c ∧ x ∉ d.kept

/-- No transient command other than `c` that is not reached fills `o`. -/
def Sole (d : Db) (c o : Nat) : Prop := ∀ c', Waiting d c' → ¬ Changed d c' → o ∈ d.links c' → c' = c

end Tup.Transient
