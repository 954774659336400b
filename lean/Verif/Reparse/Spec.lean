import Verif.Reparse.Model

/-! What C74 says, apart from the functions of the model. -/

namespace Tup.Reparse

/-- A directory that is to be parsed: it is flagged, or it looks at such a directory. -/
inductive Reach (s : St) : Dir → Prop
  | flag {d} : d ∈ s.flags → Reach s d
  | link {b d} : Reach s b → (b, d) ∈ s.links → Reach s d

/-- The orders in which the nodes of the graph can come up: each directory that is to be parsed once, after those that it looked at when it was parsed the last time (C28, C30). -/
structure Valid (s : St) (order : List Dir) : Prop where
  nodup : order.Nodup
  mem : ∀ d, d ∈ order ↔ Reach s d
  sorted : ∀ b d, (b, d) ∈ s.links → b ∈ order → ∀ l r, order = l ++ d :: r → b ∈ l

inductive Path (L : List (Dir × Dir)) : Dir → Dir → Prop
  | one {a b} : (a, b) ∈ L → Path L a b
  | cons {a b c} : (a, b) ∈ L → Path L b c → Path L a c

def Acyclic (L : List (Dir × Dir)) : Prop := ∀ x, ¬ Path L x x

/-- The names that are seen in a directory: its ordinary files, and the files in it of two lists of commands. -/
def sees (files : Str → Bool) (b : Dir) (there mine : List Rule) : Str → Bool := fun n =>
  files n || there.any (fun r => r.outs.contains (b, n)) || mine.any (fun r => r.outs.contains (b, n))

/-- The commands of a Tupfile when the commands of the other Tupfiles are given. -/
def eval (src : Dir → Str → Bool) (others : Dir → Option (List Rule)) (d : Dir) : Prog → List Rule → Option (List Rule)
  | .done, mine => some mine
  | .fail, _ => none
  | .rule r k, mine => eval src others d k (mine ++ [r])
  | .look b k, mine =>
    if b = d then eval src others d (k (sees (src b) b mine mine)) mine
    else
      match others b with
      | some there => eval src others d (k (sees (src b) b there mine)) mine
      | none => none

/-- The commands of a Tupfile, if it is parsed after all those it looks at, and these after all those they look at, and so on, for `n` levels. -/
def meaning (s : St) : Nat → Dir → Option (List Rule)
  | 0, _ => none
  | n + 1, d => eval s.src (meaning s n) d (s.prog d) []

/-- The commands of a Tupfile: there is none if the Tupfile, or one that it looks at, is wrong or in a circle. -/
def Means (s : St) (d : Dir) (l : List Rule) : Prop := ∃ n, meaning s n d = some l

/-- Changes of the sources, and updates that succeed and do not leave a circle; an update that fails changes nothing. -/
inductive Hist : St → Prop
  | init : Hist init
  | edit {s d f p} : Hist s → Hist (edit s d f p)
  | update {s order s'} : Hist s → Valid s order → update s order = .ok s' → Acyclic s'.links → Hist s'

end Tup.Reparse
