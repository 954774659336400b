import Verif.TupDirs.Model
import Verif.Relative.Spec

/-! What it means that a path leads from one node to another. -/

namespace Tup.TupDirs

open Tup.Relative
open Tup.Pel (Comps Leads Name)

/-- The project is at the place `root` of the file system, and its nodes are as the database guarantees; the bound is large enough. -/
structure Sound (P : Proj) (root : List Str) : Prop where
  proper : Proper P.T
  dot : ∃ n, P.T dot = some ⟨n, none⟩
  deep : ∀ {id p}, Place P.T id p → p.length < P.fuel
  top : P.top = Pel.dirText root
  names : ∀ n ∈ root, Name n

/-- The directories of the variant are below `v` as the directories that they stand for are below the top (C73). -/
def Mirror (P : Proj) (v : List Str) : Prop := ∀ id s, P.srcid id = some s → ∃ p, Place P.T s p ∧ Place P.T id (v ++ p)

/-- The places of the file system at which there is a node of the project. -/
def Inside (P : Proj) (root : List Str) : List Str → Prop := fun x => ∃ y, x = root ++ y ∧ Exists P.T y

/-- The path `t`, taken apart at its slashes, leads from the node `a` to the node `b`, over places that exist. -/
def Goes (D : List Str → Prop) (P : Proj) (root : List Str) (a : Nat) (t : Str) (b : Nat) : Prop :=
  ∃ p q l, Place P.T a p ∧ Place P.T b q ∧ Comps t l ∧ Leads D (root ++ p) l (root ++ q)

/-- The node is somewhere in the tree. -/
def Known (P : Proj) (id : Nat) : Prop := ∃ p, Place P.T id p

/-- The file that is read belongs to the tree that is parsed: a file can be included only if both are in the variant or neither,
src/tup/parser.c:1403-1407. -/
def SameTree (P : Proj) (tf : Tupfile) : Prop := (P.srcid tf.tent).isSome = (P.srcid tf.cur).isSome

/-- Text in which nothing is replaced. -/
def Plain (s : Str) : Prop := '(' ∉ s ∧ '%' ∉ s ∧ s.getLast? ≠ some '\\'

/-- The name of a variable that has no special meaning. -/
def Ordinary (x : Str) : Prop :=
  ')' ∉ x ∧ x ≠ "TUP_CWD".toList ∧ x ≠ "TUP_VARIANTDIR".toList ∧ x ≠ "TUP_VARIANT_OUTPUTDIR".toList ∧ ∀ y, y ≠ [] → x ≠ "CONFIG_".toList ++ y

end Tup.TupDirs
