import Verif.Depfile.Model

/-! What is to be reported. -/

namespace Tup.Depfile

/-- A name of a call as a path from the root; no second name stays no name. -/
def absolute (dir f : Bytes) : Bytes := if f.head? = some 47 then f else dir ++ 47 :: f

def absolute2 (dir f : Bytes) : Bytes := if f = [] then [] else absolute dir f

def access (c : Call) : Access := ⟨c.kind, absolute c.dir c.file, absolute2 c.dir c.file2⟩

/-- A call of C code: the strings have no null byte in them and are short enough for an `int`; the kind is one of the
enumeration. -/
structure Proper (c : Call) : Prop where
  dir : 0 ∉ c.dir
  file : 0 ∉ c.file
  file2 : 0 ∉ c.file2
  kind : 0 ≤ c.kind ∧ c.kind ≤ 4
  len : (absolute c.dir c.file).length < 2 ^ 31
  len2 : (absolute2 c.dir c.file2).length < 2 ^ 31

/-- Both paths are shorter than what the reader takes. -/
def Short (c : Call) : Prop := (absolute c.dir c.file).length < 4095 ∧ (absolute2 c.dir c.file2).length < 4095

/-- All processes have done all of their calls. -/
def Finished (s : Sys) : Prop := ∀ i, (s.procs i).todo = [] ∧ (s.procs i).cur = none

/-- The names that are left out: those in /dev, /sys and /proc, and those of ccache and icecream. -/
def Hidden (f : Bytes) : Prop :=
  (∃ r, f = lit "/dev/" ++ r) ∨ (∃ r, f = lit "/sys/" ++ r) ∨ (∃ r, f = lit "/proc/" ++ r) ∨
  (∃ r, f = lit "/tmp/.icecream-" ++ r) ∨
  ∃ l r, f = l ++ lit "/.ccache" ++ r ∨ f = l ++ lit "/.cache/ccache" ++ r ∨ f = l ++ lit "/ccache-tmp/" ++ r

/-- The calls that are to be reported. -/
def Seen (c : Call) : Prop := ¬Hidden c.file ∧ ¬Hidden c.file2

/-- The calls of process `i` in a list of calls with their processes. -/
def own (i : Nat) (log : List (Nat × Call)) : List Call := (log.filter (·.1 = i)).map (·.2)

open Classical in
/-- The list has the calls of all processes that are to be reported, those of each process in their order. -/
def Merges (progs : Nat → List Call) (log : List (Nat × Call)) : Prop :=
  ∀ i, own i log = (progs i).filter (fun c => decide (Seen c))

end Tup.Depfile
