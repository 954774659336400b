import Verif.Top.Model

/-! What C88 says of the directory of a project. -/

namespace Tup.Top

open Tup (Str)

/-- Directories in which tup looks from `d` on: `d` itself and those above, except for the root if tup is not started there. -/
def Looked (d p : Dir) : Prop := ∃ r, d = r ++ p ∧ (p = [] → d = [])

/-- `p` is the project of `d`: it has `.tup`, and no directory from `d` up to it has. -/
def Project (w : World) (d p : Dir) : Prop := ∃ r, d = r ++ p ∧ (p = [] → d = []) ∧ w.tup p = true ∧ ∀ r1 r2, r = r1 ++ r2 → r2 ≠ [] → w.tup (r2 ++ p) = false

/-- `p` is the topmost directory with a Tupfile.ini. -/
def TopIni (w : World) (d p : Dir) : Prop := Looked d p ∧ w.ini p = true ∧ ∀ q, Looked p q → q ≠ p → w.ini q = false

/-- Names as they are in directories. -/
def NameOk (c : Str) : Prop := c ≠ [] ∧ '/' ∉ c ∧ c ≠ ".".toList ∧ c ≠ "..".toList

def DirOk (d : Dir) : Prop := ∀ c, c ∈ d → NameOk c

/-- Names, outermost first, with slashes between. -/
def join : List Str → Str
  | [] => []
  | [c] => c
  | c :: l => c ++ '/' :: join l

end Tup.Top
