import Verif.Transact.Model

/-
What C43 says: the parts of the phase that parses, one after the other, without any transaction.
-/

namespace Tup.Transact

variable {F D : Type}

/-- The last state of a sequence that starts in `s`. -/
def lastState {S : Type} (s : S) : List S → S
  | [] => s
  | x :: xs => lastState x xs

/-- All the parts succeed, one after the other, and lead from the first state to the second one. -/
inductive Ran : List (Work F D) → F × D → F × D → Prop where
  | nil (s) : Ran [] s s
  | cons {p ps s s'} : 0 ≤ (p s).2 → Ran ps (lastState s (p s).1) s' → Ran (p :: ps) s s'

/-- The parts before it is known whether there is anything to parse. -/
def CreateParts.front (p : CreateParts F D) : List (Work F D) := [p.createGraph, p.select, p.variants, p.removing, p.buildGraph]

/-- The parts if there is. -/
def CreateParts.rest (p : CreateParts F D) : List (Work F D) :=
  [p.serverInit, p.lua, p.parse, p.normalDirs, p.deleteFiles, p.circCheck, p.gitignore]

/-- The parsing of all the Tupfiles succeeds, and leads from a state to another one.  When refactoring, this has to be
without an unexpected change. -/
inductive Parsed (p : CreateParts F D) (refactoring : Bool) : F × D → F × D → Prop where
  | none {s s1 s2} : Ran p.front s s1 → p.empty s1 = true → Ran [p.destroy] s1 s2 → (refactoring = true → p.changed s2 = false) →
      Parsed p refactoring s s2
  | some {s s1 s2} : Ran p.front s s1 → p.empty s1 = false → Ran (p.rest ++ [p.destroy]) s1 s2 →
      (refactoring = true → p.changed s2 = false) → Parsed p refactoring s s2

/-- execute_graph returns 0, -1 or -2 (src/tup/updater.c:1917-2070), delete_files, group_circ_check and gitignore
return 0 or -1. -/
structure Codes (p : CreateParts F D) : Prop where
  parse : ∀ s, (p.parse s).2 ≤ 0
  deleteFiles : ∀ s, (p.deleteFiles s).2 ≤ 0
  circCheck : ∀ s, (p.circCheck s).2 ≤ 0

/-- The files and the contents of the database as the process sees them. -/
def World.state (w : World F D) : F × D := (w.files, w.view)

end Tup.Transact
