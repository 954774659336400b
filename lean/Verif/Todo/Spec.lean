import Verif.Todo.Model
import Verif.Transient.Spec

/-! Vocabulary for C82: what is reached from the lists of the database. -/

namespace Tup.Todo

open Tup.Graph

/-- `x` is in the list or behind something in it. -/
def Behind (w : World) (l : List Nat) (x : Nat) : Prop := ∃ s ∈ l, Star (Linked w.toLinks) s x

/-- The database is finite and self-contained; the node that the graphs start from is not in it.  Transient generated files point at commands and groups, which are neither generated files nor
directories; nothing that a tup.config leads to is one. -/
structure Ok (w : World) (root : Nat) (U : List Nat) : Prop where
  config : ∀ n ∈ w.config, n ∈ U
  create : ∀ n ∈ w.create, n ∈ U
  modify : ∀ n ∈ w.modify, n ∈ U
  links : ∀ n ∈ U, ∀ m, Linked w.toLinks n m → m ∈ U
  noRoot : root ∉ U
  nodup : U.Nodup
  modifyOnce : w.modify.Nodup
  rootCmd : w.isCmd root = false
  rootGen : w.isGen root = false
  rootInput : ∀ n, root ∉ w.inputs n
  genCmd : ∀ n, w.isGen n = true → w.isCmd n = false ∧ w.isDir n = false
  genLinks : ∀ a b, Linked w.toLinks a b → w.isGen a = true → w.isGen b = false
  genConfig : ∀ x, Behind w w.config x → w.isGen x = false

/-- Both are reached from the list, and there is a link, or the first is a declared input of the second. -/
def Leads (w : World) (l : List Nat) (a b : Nat) : Prop := Behind w l a ∧ Behind w l b ∧ (Linked w.toLinks a b ∨ (w.isCmd b = true ∧ a ∈ w.inputs b))

/-- Nothing that is reached from the list leads back to itself. -/
def NoCircle (w : World) (l : List Nat) : Prop := ∀ x, ¬ Plus (Leads w l) x x

/-- What is named are nodes behind the modify list.  A file has one command that makes it, if it has one, and is not a command; nothing leads to a normal file; groups are neither commands nor normal
files. -/
structure TargetsOk (w : World) (root : Nat) (ts : List Nat) : Prop where
  behind : ∀ t ∈ ts, Behind w w.modify t
  made : ∀ c d, Leads w w.modify c d → w.isCmd c = true → w.isGroup d = false → w.excl d = false → w.isCmd d = false ∧ ∀ a, Leads w w.modify a d → a = c
  file : ∀ a f, Leads w w.modify a f → w.isFile f = false
  group : ∀ n, w.isGroup n = true → w.isCmd n = false ∧ w.isFile n = false

/-- `a` comes before `b` in the list. -/
def Before (l : List Nat) (a b : Nat) : Prop := ∃ u v t, l = u ++ a :: v ++ b :: t

/-- A list of lines that shows each of the nodes with the property once, after `head`, and then `last`. -/
def Tells (ls : List Line) (head : Nat → Line) (p : Nat → Prop) (last : Line) : Prop :=
  ∃ l : List Nat, ls = head l.length :: l.map .node ++ [last] ∧ l.Nodup ∧ ∀ x, x ∈ l ↔ p x

end Tup.Todo
