import Verif.Include.Model
import Verif.Pel.Spec

/-! What inclusion means. -/

namespace Tup.Include

/-- Follow the components of a path by their names alone, from a directory of the project; `..` does not lead out of it. -/
def resolve : List Str → Path → Option Path
  | [], p => some p
  | e :: l, p =>
    if e = ".".toList then resolve l p
    else if e = "..".toList then if p = [] then none else resolve l p.dropLast
    else resolve l (p ++ [e])

/-- `file` means the node `p`, if it is written in a file that is read in the directory `cur`.  For the absolute paths see C12. -/
def Target (w : World) (cur : Path) (file : Str) (p : Path) : Prop :=
  if file.head? = some '/' then ∃ r, Pel.getPathElements w.top file = some r ∧ r.outside = false ∧ resolve r.elems [] = some p
  else ∃ l, Pel.Comps file l ∧ resolve l cur = some p

/-- The database and the disk are in order: the node of a path has a node for its directory, hidden names have no nodes, and what has nodes in it is not a file. -/
structure Proper (w : World) : Prop where
  parent : ∀ p n, w.node (p ++ [n]) ≠ none → p ≠ [] → w.node p ≠ none
  name : ∀ p, w.node p ≠ none → ∀ n ∈ p, Pel.Name n ∧ n ∉ Pel.hiddenNames
  leaf : ∀ p q, q ≠ [] → w.node (p ++ q) ≠ none → w.text p = none

/-- The directory and those above it are not files. -/
def IsDir (w : World) (d : Path) : Prop := ∀ k, w.text (d.take k) = none

/-- Something to be done: a file (or the rest of one), or the inclusion of the file `name` in each of the directories. -/
inductive Task (σ : Type) where
  | prog (p : Prog σ)
  | each (name : Str) (dirs : List Path) (s : σ)

/-- `Runs w sem rules cur task s`: the task ends in the state `s`.  An included file is read in its own directory, as if its text were in the place of the `include`; what follows
is again read in the directory `cur`.  The rules are the files `Tuprules.tup` of all directories from the top to `cur`, in this order, as far as there are any; these cannot
include the rules once more (`rules`). -/
inductive Runs {σ : Type} (w : World) (sem : Meaning σ) : Bool → Path → Task σ → σ → Prop where
  | ret {b cur s} : Runs w sem b cur (.prog (.ret s)) s
  | incl {b cur s file k p t s1 s2} : Target w cur file p → w.node p ≠ none → w.text p = some t →
      Runs w sem b p.dropLast (.prog (sem (isLua file) t p.dropLast s)) s1 → Runs w sem b cur (.prog (k s1)) s2 → Runs w sem b cur (.prog (.incl s file k)) s2
  | rules {cur s k s1 s2} : Runs w sem true cur (.each "Tuprules.tup".toList ((List.range (cur.length + 1)).map cur.take) s) s1 →
      Runs w sem false cur (.prog (k s1)) s2 → Runs w sem false cur (.prog (.rules s k)) s2
  | done {cur name s} : Runs w sem true cur (.each name [] s) s
  | skip {cur name d ds s s1} : w.text (d ++ [name]) = none → Runs w sem true cur (.each name ds s) s1 → Runs w sem true cur (.each name (d :: ds) s) s1
  | take {cur name d ds s t s1 s2} : w.text (d ++ [name]) = some t → w.node (d ++ [name]) ≠ none →
      Runs w sem true d (.prog (sem (isLua name) t d s)) s1 → Runs w sem true cur (.each name ds s1) s2 → Runs w sem true cur (.each name (d :: ds) s) s2

/-- The files from which a directory can be parsed, the first one first; with the flag for Lua. -/
def candidates (dir : Path) : List (Path × Bool) :=
  [(dir ++ ["Tupfile".toList], false), (dir ++ ["Tupfile.lua".toList], true)] ++
    ((List.range (dir.length + 1)).reverse.map dir.take).flatMap fun d => [(d ++ ["Tupdefault".toList], false), (d ++ ["Tupdefault.lua".toList], true)]

/-- There is such a file, in the database and on the disk. -/
def Exists (w : World) (p : Path) : Prop := w.node p = some true ∧ ∃ t, w.text p = some t

/-- The directory is parsed from the file `p`: of those that there are, it comes first. -/
def First (w : World) (dir p : Path) (lua : Bool) : Prop :=
  ∃ pre post, candidates dir = pre ++ (p, lua) :: post ∧ Exists w p ∧ ∀ q ∈ pre, ¬ Exists w q.1

/-- What parsing a directory means.  In front of a file in Lua the files `Tuprules.lua` of all directories from the top on are included.  A directory without a file makes no rules;
at the top, `Tuprules.tup` is looked at nevertheless (for the line `.gitignore`). -/
inductive Parses {σ : Type} (w : World) (sem : Meaning σ) (ign : Str → σ → σ) (dir : Path) (s : σ) : σ → Prop where
  | tup {p t s'} : First w dir p false → w.text p = some t → Runs w sem false dir (.prog (sem false t dir s)) s' → Parses w sem ign dir s s'
  | lua {p t s1 s'} : First w dir p true → w.text p = some t → Runs w sem true dir (.each "Tuprules.lua".toList ((List.range (dir.length + 1)).map dir.take) s) s1 →
      Runs w sem false dir (.prog (sem true t dir s1)) s' → Parses w sem ign dir s s'
  | nothing : (∀ q ∈ candidates dir, ¬ Exists w q.1) → ¬ (dir = [] ∧ Exists w ["Tuprules.tup".toList]) → Parses w sem ign dir s s
  | ignore {t} : (∀ q ∈ candidates dir, ¬ Exists w q.1) → dir = [] → w.node ["Tuprules.tup".toList] = some true → w.text ["Tuprules.tup".toList] = some t →
      Parses w sem ign dir s (ign t s)

/-- The two worlds are the same as far as these nodes are concerned. -/
def Agree (w w' : World) (l : List Path) : Prop := w.top = w'.top ∧ ∀ p ∈ l, w.node p = w'.node p ∧ w.text p = w'.text p

end Tup.Include
