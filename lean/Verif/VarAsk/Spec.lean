import Verif.VarAsk.Model
import Verif.Pel.Spec
import Verif.DirInputs.Spec
import Verif.Config.Spec

/-! Which variables a program asks for, and what tup is to make of it, without the functions of the model. -/

namespace Tup.VarAsk

open Tup.Db Tup.Links Tup.Lookup Tup.Pel

/-- A name that can be asked for: a file name of at most 1024 bytes without a NUL, and not one that tup does not look at
(.git and the like). -/
structure Askable (n : Str) : Prop where
  name : Name n
  shown : n ∉ hiddenNames
  short : n.length ≤ 1024
  nul : Char.ofNat 0 ∉ n

/-- The directory `cwd` lies in the project, no directory between it and the top has "@tup@" in its name, and none is called
".tup". -/
structure Home (w : World) (cwd : List Str) : Prop where
  place : ∃ rs ds, rs ≠ [] ∧ w.top = dirText rs ∧ cwd = rs ++ ds ∧ ∀ d ∈ ds, ¬ Occurs "@tup@".toList d
  names : ∀ n ∈ cwd, n ≠ [] ∧ '/' ∉ n
  tup : ".tup".toList ∉ cwd

/-- The command has made no file and no directory called "@tup@" in `cwd` itself. -/
def Free (s : Info) (cwd : List Str) : Prop :=
  ∀ f, (f ∈ s.tmpdirs ∨ ∃ t, (f, t) ∈ s.maps) → ¬ ∃ r, f = dirText (cwd ++ ["@tup@".toList]) ++ r

/-- `Runs look p out keys`: with the values `look`, the program puts out `out` and asks for `keys`, in this order. -/
inductive Runs (look : Str → Option Str) : Prog → Str → List Str → Prop
  | done {out} : Runs look (.done out) out []
  | ask {key next out keys} : Runs look (next (look key)) out keys → Runs look (.ask key next) out (key :: keys)

/-- The names that stand between at signs in a text, in order (compare `Tup.Config.Sub`). -/
inductive Refs : Str → List Str → Prop
  | nil : Refs [] []
  | byte {c s l} : c ≠ '@' → Refs s l → Refs (c :: s) l
  | var {n s l} : Config.Word n → Refs s l → Refs ('@' :: n ++ '@' :: s) (n :: l)
  | at {s l} : (¬ ∃ n u, Config.Word n ∧ s = n ++ '@' :: u) → Refs s l → Refs ('@' :: s) l

/-- The file lies below the top directory and its name, or that of a directory on the way, has "@tup@" in it; `rest` is what
follows the first one. -/
def Virtual (top f rest : Str) : Prop :=
  ∃ a, f = top ++ "/".toList ++ a ++ "@tup@".toList ++ rest ∧
    ∀ a' b, a ++ "@tup@".toList ++ rest = a' ++ "@tup@".toList ++ b → a.length ≤ a'.length

/-- Neither in .tup/mnt nor made by the command. -/
structure Foreign (s : Info) (f : Str) : Prop where
  mnt : f ≠ ".tup/mnt".toList ∧ ¬ Occurs "/.tup/mnt".toList f
  dir : f ∉ s.tmpdirs
  map : ∀ t, (f, t) ∉ s.maps

/-- Files that tup does not keep track of: devices and the like, and the files of ccache. -/
def Untracked (f : Str) : Prop :=
  (∃ r, f = "/dev".toList ++ r) ∨ (∃ r, f = "/sys".toList ++ r) ∨ (∃ r, f = "/proc".toList ++ r) ∨
    Occurs "/.ccache".toList f ∨ Occurs "/.cache/ccache".toList f ∨ Occurs "/ccache-tmp/".toList f

/-- The rows in the tup.config `v` are variables or ghosts of them, and have a time (-1, see `INVALID_MTIME`). -/
def Vars (db : Db) (v : Nat) : Prop :=
  ∀ i n, db.node i = some n → n.dir = v → (n.kind = .var ∨ n.kind = .ghost) ∧ n.mtime.1 ≠ 0

/-- Existing rows that are not variables of `v`. -/
def Others (db : Db) (v : Nat) (l : List Nat) : Prop := ∀ a ∈ l, ∃ n, db.node a = some n ∧ n.dir ≠ v

end Tup.VarAsk
