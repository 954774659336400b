import Verif.Tree.Model

/-!
Model of the file in which commands look up variables: `save_vardict_file`, src/tup/db.c:4882-4949, writes it;
`tup_vardict_init` and `tup_config_var`, src/tup/vardict.c:41-164, read it.  A file is a list of bytes.
-/

namespace Tup.Vardict

/-- The four bytes of an `unsigned int` (little endian). -/
def le32 (n : Nat) : Str :=
  [Char.ofNat (n % 256), Char.ofNat (n / 256 % 256), Char.ofNat (n / 65536 % 256), Char.ofNat (n / 16777216 % 256)]

/-- The `unsigned int` at position `i` of the file; `none`: outside of the file. -/
def rd32 (file : Str) (i : Nat) : Option Nat :=
  match file.drop i with
  | a :: b :: c :: d :: _ => some (a.toNat + 256 * b.toNat + 65536 * c.toNat + 16777216 * d.toNat)
  | _ => none

/-- The line of one variable, db.c:4925-4937: `variable=value` and a NUL byte. -/
def entry (v : Str × Str) : Str := v.1 ++ '=' :: (v.2 ++ [Char.ofNat 0])

/-- The index, db.c:4905-4917; `x` is an `unsigned int`. -/
def index : Nat → List (Str × Str) → Str
  | _, [] => []
  | x, v :: l => le32 x ++ index ((x + (v.1.length + 1 + v.2.length + 1)) % 4294967296) l

/-- `save_vardict_file`, db.c:4882-4949, for the variables in the order of the tree.  Simplified: writing does not fail;
the file is only written if a variable has changed (db.c:4889). -/
def save (vars : List (Str × Str)) : Str :=
  le32 vars.length ++ index 0 vars ++ vars.flatMap entry

/-- `struct vardict`, vardict.c:31-37: the length, the number of entries and the position of the entries. -/
structure Vars where
  file : Str
  num : Nat
  entries : Nat
deriving DecidableEq, Repr

/-- `tup_vardict_init`, vardict.c:41-107, for a file that is there; `none` for an error.  `expected` is an
`unsigned int`. -/
def openFile (file : Str) : Option Vars :=
  if file.length = 0 then some ⟨file, 0, 0⟩
  else if file.length < 4 then none
  else
    match rd32 file 0 with
    | none => none
    | some num =>
      let expected := (4 + 4 * num) % 4294967296
      if file.length < expected then none else some ⟨file, num, expected⟩

/-- The value of a (signed) `char`. -/
def schar (c : Char) : Int := if c.toNat < 128 then c.toNat else c.toNat - 256

inductive Cmp where
  | lt
  | gt
  | found (value : Str)
  | ub
deriving DecidableEq, Repr

/-- A string that ends at a NUL byte. -/
def cstring : Str → Option Str
  | [] => none
  | c :: s => if c = Char.ofNat 0 then some [] else (cstring s).map (c :: ·)

/-- The comparison of an entry with the key, vardict.c:137-160, where `p` is what follows in the file.  `ub`: memory
behind the file is read. -/
def compare : Str → Str → Cmp
  | [], _ => .ub
  | c :: p, [] =>
    if c ≠ '=' then .gt
    else
      match cstring p with
      | none => .ub
      | some v => .found v
  | c :: p, k :: key =>
    if c = '=' then .lt
    else if schar c < schar k then .lt
    else if schar c > schar k then .gt
    else compare p key

inductive Res where
  | value (v : Str)
  | absent
  | ub
deriving DecidableEq, Repr

/-- The loop of `tup_config_var`, vardict.c:123-163, with `left` and `right`. -/
def search (V : Vars) (key : Str) (left right : Int) : Res :=
  if h : (right - left) / 2 ≤ 0 then .absent
  else
    let cur := (right - left) / 2 + left
    if cur ≥ V.num then .absent
    else if cur < 0 then .ub
    else
      match rd32 V.file (4 + 4 * cur.toNat) with
      | none => .ub
      | some off =>
        if off ≥ V.file.length then .absent
        else
          match compare (V.file.drop (V.entries + off)) key with
          | .lt => search V key cur right
          | .gt => search V key left cur
          | .found v => .value v
          | .ub => .ub
termination_by (right - left).toNat
decreasing_by all_goals omega

/-- `tup_config_var`, vardict.c:109-164.  The report of the access to the server is not modelled. -/
def lookup (V : Vars) (key : Str) : Res := search V key (-1) V.num

end Tup.Vardict
