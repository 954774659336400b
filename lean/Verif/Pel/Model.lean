import Verif.Text

/-!
Model of how a path is taken apart (src/tup/pel_group.c).  On Unix `is_path_sep` is a slash, `is_full_path` a slash at
the beginning and `name_cmp_n` is `strncmp` (src/tup/compat.h:44-49).  The elements are pointers into the path with a
length in C, strings here.
-/

namespace Tup.Pel

/-- `pel_ignored`, pel_group.c:32-54. -/
def ignored (s : Str) : Bool :=
  s = ".".toList || s = "..".toList || s = ".tup".toList || s = ".git".toList || s = ".hg".toList ||
    s = ".bzr".toList || s = ".svn".toList || s = ".ccache".toList

/-- `path_list` and `num_elements` of `struct pel_group`. -/
structure Group where
  elems : List Str
  num : Int
deriving DecidableEq, Repr

/-- `del_pel` for the last element (pel_group.c:197-202); `none`: there is none, a null pointer is used. -/
def delLast (g : Group) : Option Group :=
  if g.elems = [] then none else some ⟨g.elems.dropLast, g.num - 1⟩

/-- What happens to one element, pel_group.c:98-126. -/
def addElem (g : Group) (e : Str) : Option Group :=
  if e = ".".toList then some g
  else if e = "..".toList then
    if g.num ≠ 0 then delLast g else some ⟨g.elems ++ [e], g.num⟩
  else some ⟨g.elems ++ [e], g.num + 1⟩

set_option linter.unusedVariables false in
/-- The loop of `split_path_elements`, pel_group.c:86-127. -/
def splitLoop (g : Group) (s : Str) : Option Group :=
  match h : s.dropWhile (· == '/') with
  | [] => some g
  | c :: t =>
    match addElem g ((c :: t).takeWhile (· != '/')) with
    | none => none
    | some g => splitLoop g ((c :: t).dropWhile (· != '/'))
termination_by s.length
decreasing_by
  have hc : c ≠ '/' := by
    intro hc
    have := List.head?_dropWhile_not (· == '/') s
    rw [h] at this
    simp [hc] at this
  have h1 : (t.dropWhile (· != '/')).length ≤ t.length := (List.dropWhile_suffix _).length_le
  have h2 : (c :: t).length ≤ s.length := by rw [← h]; exact (List.dropWhile_suffix _).length_le
  rw [List.dropWhile_cons, if_pos (by simpa using hc)]
  simp only [List.length_cons] at h2
  omega

/-- `split_path_elements` from an empty group, pel_group.c:77-129; the flag is `PG_ROOT`. -/
def splitPath (s : Str) : Option (Bool × Group) :=
  (splitLoop ⟨[], 0⟩ s).map fun g => (s.head? == some '/', g)

/-- The loop that compares the elements with the top directory, pel_group.c:148-156: what is left of the top directory,
and the number of elements passed.  `name_cmp_n(top, pel->path, pel->len) == 0` means that `top` begins with the
element. -/
def stripTop : Str → List Str → Nat → Str × Nat
  | top, [], k => (top, k)
  | top, e :: l, k =>
    let top := top.dropWhile (· == '/')
    if e.isPrefixOf top then stripTop (top.drop e.length) l (k + 1) else (top, k)

/-- `struct pel_group` with its flags. -/
structure Result where
  elems : List Str
  num : Int
  root : Bool
  outside : Bool
  hidden : Bool
  group : Bool
deriving DecidableEq, Repr

/-- The search for hidden elements, pel_group.c:170-180. -/
def isHidden (l : List Str) : Bool :=
  l.any fun e => e.head? == some '.' && e != "..".toList && ignored e

/-- The name of a group, pel_group.c:182-187. -/
def isGroup (l : List Str) : Bool :=
  match l.getLast? with
  | none => false
  | some e => e.head? == some '<' && e.getLast? == some '>'

/-- `get_path_elements`, pel_group.c:131-190, where the top directory is `top`. -/
def getPathElements (top s : Str) : Option Result :=
  match splitPath s with
  | none => none
  | some (root, g) =>
    let (outside, g) :=
      if root then
        match stripTop top g.elems 0 with
        | (rest, k) => if rest ≠ [] then (true, g) else (false, ⟨g.elems.drop k, g.num - k⟩)
      else (false, g)
    some ⟨g.elems, g.num, root, outside, isHidden g.elems, isGroup g.elems⟩

end Tup.Pel
