import Verif.Basic

/-!
Model of how a list of paths is read from a rule, `next_path` and `get_path_list`
(src/tup/parser.c:2365-2425) and `new_pl` (2289-2363).

A C string is the list of its bytes up to the terminating NUL byte.  `dest` in `get_path_list` is an array of
`PATH_MAX` bytes; writing behind it is undefined behaviour and gives `ub`.
-/

namespace Tup.PathList

/-- `PATH_MAX` of Linux (limits.h), the size of `dest` at src/tup/parser.c:2406. -/
def pathMax : Nat := 4096

/-- Outcome of a function that can also report an error (a negative return value) or leave an array. -/
inductive Res (α : Type) where
  | ok (a : α)
  | err
  | ub
deriving DecidableEq, Repr

/-- The `for` loop of `next_path`, src/tup/parser.c:2365-2397: `esc` and `quoted` are the C variables
`espace` and `quoted`, `dest` the bytes written so far.  Gives the path and the string at `s`. -/
def nextPath (esc quoted : Bool) (dest : Str) : Str → Res (Str × Str)
  | [] =>
    if quoted then .err
    else if dest.length < pathMax then .ok (dest, []) else .ub
  | c :: s =>
    if esc then
      if dest.length < pathMax then nextPath false quoted (dest ++ [c]) s else .ub
    else if c = '\\' then nextPath true quoted dest s
    else if c = '"' then nextPath esc (!quoted) dest s
    else if isSpace c && !quoted then
      if dest.length < pathMax then .ok (dest, c :: s) else .ub
    else if dest.length < pathMax then nextPath false quoted (dest ++ [c]) s else .ub

/-- What `new_pl` (2289-2363) makes of a path. -/
inductive Kind where
  | file
  | group
  | bin (name : Str)
  | excl (regex : Str)
deriving DecidableEq, Repr

/-- `new_pl`, src/tup/parser.c:2289-2363.  `bins` says which bins exist (`none`: the list may not contain
bins), `reOk` which regular expressions PCRE2 compiles.  Not modelled: the memory it allocates. -/
def newPl (bins : Option (Str → Bool)) (reOk : Str → Bool) (s : Str) : Option Kind :=
  match s with
  | '{' :: r =>
    match bins with
    | none => none
    | some bl =>
      if '}' ∈ r then
        let name := r.takeWhile (· ≠ '}')
        if bl name then some (.bin name) else none
      else none
  | '^' :: r => if reOk r then some (.excl r) else none
  | _ => if '<' ∈ s then if '>' ∈ s then some .group else none else some .file

/-- A `struct path_list` as `get_path_list` makes it (src/tup/parser.h:117-138): the text, its kind, and its
position in the list. -/
structure Pl where
  mem : Str
  kind : Kind
  orderid : Nat
deriving DecidableEq, Repr

/-- `get_path_list`, src/tup/parser.c:2399-2425.  After the first path `s` points behind white space, so
every iteration but the first consumes a byte: `fuel` (one more than the length) bounds the iterations. -/
def pathList (bins : Option (Str → Bool)) (reOk : Str → Bool) : Nat → Nat → Str → Res (List Pl)
  | 0, _, _ => .ok []
  | fuel + 1, orderid, s =>
    if s = [] then .ok []
    else match nextPath false false [] s with
      | .ub => .ub
      | .err => .err
      | .ok (dest, s) =>
        match newPl bins reOk dest with
        | none => .err
        | some k =>
          match pathList bins reOk fuel (orderid + 1) (s.dropWhile isSpace) with
          | .ok l => .ok (⟨dest, k, orderid⟩ :: l)
          | e => e

def getPathList (bins : Option (Str → Bool)) (reOk : Str → Bool) (s : Str) : Res (List Pl) :=
  pathList bins reOk (s.length + 1) 1 s

end Tup.PathList
