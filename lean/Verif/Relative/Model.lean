import Verif.Text

/-!
Model of the relative path from one node to another (src/tup/entry.c:702-795).
-/

namespace Tup.Relative

/-- The fields of `struct tup_entry` that matter here: `name` and the `parent` pointer, which is null for the top
directory. -/
structure Node where
  name : Str
  parent : Option Nat
deriving DecidableEq, Repr

/-- The entries that are loaded.  There is one `struct tup_entry` for each id (the tree `tup_root` of entry.c), so
pointers to entries are ids here. -/
abbrev Table := Nat → Option Node

/-- `get_full_path_tents`, entry.c:702-714: the entries from the top down to `id`.  `none`: an entry is missing
(`tup_entry_get` ends the program), or the loop has not come to an end after `fuel` rounds. -/
def fullPath (T : Table) : Nat → Nat → List (Nat × Str) → Option (List (Nat × Str))
  | 0, _, _ => none
  | fuel + 1, id, acc =>
    match T id with
    | none => none
    | some n =>
      match n.parent with
      | none => some ((id, n.name) :: acc)
      | some p => fullPath T fuel p ((id, n.name) :: acc)

/-- The loop that removes what is common, entry.c:740-750. -/
def dropCommon : List (Nat × Str) → List (Nat × Str) → List (Nat × Str) × List (Nat × Str)
  | a :: l, b :: m => if a.1 = b.1 then dropCommon l m else (a :: l, b :: m)
  | l, m => (l, m)

/-- One round of the output loops: a separator unless it is the first, and the text; entry.c:752-784. -/
def put (sep : Char) (out : Bool × Str) (s : Str) : Bool × Str :=
  if out.1 then (true, out.2 ++ [sep] ++ s) else (true, out.2 ++ s)

/-- `get_relative_dir_sep`, entry.c:724-795; memory never runs out here. -/
def relative (T : Table) (fuel : Nat) (start stop : Nat) (sep : Char) : Option Str :=
  match fullPath T fuel start [], fullPath T fuel stop [] with
  | some l, some m =>
    let (l, m) := dropCommon l m
    let out := l.foldl (fun o _ => put sep o "..".toList) (false, [])
    let out := m.foldl (fun o b => put sep o b.2) out
    some (if out.1 then out.2 else out.2 ++ ".".toList)
  | _, _ => none

end Tup.Relative
