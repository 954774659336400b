import Verif.Expand.Model

/-! What the expansion of a command should be. -/

namespace Tup.Expand

/-- A reference in a command, with the text before it: `%<body>` or `%<body>.res`. -/
structure Seg where
  pre : Str
  body : Str
  res : Bool

/-- How it is written. -/
def Seg.nm (s : Seg) : Str := '<' :: s.body ++ ['>']

def Seg.src (s : Seg) : Str := s.pre ++ '%' :: s.nm ++ (if s.res then ".res".toList else [])

/-- The command made of references and the text after the last one. -/
def write : List Seg → Str → Str
  | [], last => last
  | s :: ss, last => s.src ++ write ss last

/-- There is no `%<` in the text. -/
def NoRef (t : Str) : Prop := ¬ ∃ a b, t = a ++ '%' :: '<' :: b

/-- `Reading ss last`: these are the references: there are none in the texts between, no name goes beyond a `>`,
and `.res` after a reference belongs to it. -/
def Reading : List Seg → Str → Prop
  | [], _ => True
  | s :: ss, last => NoRef s.pre ∧ '>' ∉ s.body ∧ (s.res = false → ¬ ".res".toList <+: write ss last) ∧ Reading ss last

/-- The groups a reference means. -/
def meant (v : Env) (s : Seg) : List Nat := v.groups.filter fun g => decide (s.nm <+: v.name g)

/-- The files of these groups: those inputs that are generated. -/
def files (v : Env) (s : Seg) : List Nat := (meant v s).flatMap fun g => (v.inputs g).filter v.generated

/-- The expanded text, for paths `rel`, if the command's directory is `n` levels below the top. -/
def expanded (v : Env) (rel : Nat → Str) (n : Nat) : Nat → List Seg → Str → Str
  | _, [], last => last
  | k, s :: ss, last =>
    s.pre ++ (if s.res then (List.replicate n "../".toList).flatten ++ resName k
      else List.intercalate [' '] ((files v s).map rel)) ++ expanded v rel n (if s.res then k + 1 else k) ss last

/-- The resource files: one path on each line. -/
def resources (v : Env) (rel : Nat → Str) : Nat → List Seg → List (Nat × Str)
  | _, [] => []
  | k, s :: ss =>
    if s.res then (k, ((files v s).map fun i => rel i ++ ['\n']).flatten) :: resources v rel (k + 1) ss
    else resources v rel k ss

end Tup.Expand
