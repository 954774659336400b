import Verif.Basic

/-
Model of the .gitignore files that tup writes (C21, C58).
-/

namespace Tup.Gitignore

open Tup (Str)

/-- `tg_str`, src/tup/updater.c:1267 and src/tup/parser.c:1149. -/
def marker : Str := "##### TUP GITIGNORE #####\n".toList

/-- The new value of `tg_idx`, src/tup/updater.c:1305-1309, src/tup/parser.c:1182-1186. -/
def match1 (k : Nat) (c : Char) : Nat := if marker[k]? = some c then k + 1 else 0

/-- The loop that copies the old file up to the end of the marker, src/tup/updater.c:1293-1321, src/tup/parser.c:1177-1196: what is
copied, and whether the marker was found (`copied_tg_str`); the first argument is `tg_idx`.  Read and write errors are left out. -/
def copyOld : Nat → Str → Str × Bool
  | _, [] => ([], false)
  | k, c :: cs =>
    if match1 k c = 26 then ([c], true)
    else
      let r := copyOld (match1 k c) cs
      (c :: r.1, r.2)

/-- The escaping in `write_gitignore_line`, src/tup/db.c:2343-2359. -/
def escape : Str → Str
  | [] => []
  | c :: cs => if c = '[' ∨ c = ']' then '\\' :: c :: escape cs else c :: escape cs

/-- `write_gitignore_line`, src/tup/db.c:2333-2372.  The buffer has PATH_MAX + 1 = 4097 bytes that are zero: a longer text is an error
(`some none`), one of exactly that length is printed without a terminator, which reads beyond the buffer (`none`). -/
def writeLine (name : Str) : Option (Option Str) :=
  if (escape name).length < 4097 then some (some ('/' :: escape name ++ ['\n']))
  else if (escape name).length = 4097 then none
  else some none

/-- `tup_db_write_gitignore`, src/tup/db.c:2374-2437.  `names` are the generated files and directories of the directory, in the order in
which the query gives them. -/
def writeNames (skipSelf : Bool) : List Str → Option (Option Str)
  | [] => some (some [])
  | n :: ns =>
    if skipSelf && decide (n = ".gitignore".toList) then writeNames skipSelf ns
    else
      match writeLine n with
      | none => none
      | some none => some none
      | some (some l) =>
        match writeNames skipSelf ns with
        | none => none
        | some none => some none
        | some (some r) => some (some (l ++ r))

/-- The two lines after the marker, src/tup/updater.c:1340-1347. -/
def header : Str := "##### Lines below automatically generated by Tup.\n##### Do not edit.\n".toList

/-- `bytes_copied` at its end, src/tup/updater.c:1292, 1314-1318, and `skip_self`, 1326-1332. -/
def keepsText (copied : Str) (found : Bool) : Bool := decide (0 < copied.length - (if found then 26 else 0))

/-- `gitignore`, src/tup/updater.c:1257-1382: the new content of the file.  `old` is the old content, if there is a file; `top` says
whether it is the top directory.  Files and system errors are left out. -/
def regenerate (old : Option Str) (top : Bool) (names : List Str) : Option (Option Str) :=
  let c := match old with
    | none => ([], false)
    | some s => copyOld 0 s
  match writeNames (keepsText c.1 c.2) names with
  | none => none
  | some none => some none
  | some (some l) => some (some (c.1 ++ (if c.2 then [] else marker) ++ header ++ (if top then ".tup\n".toList else []) ++ l))

/-- `remove_tup_gitignore`, src/tup/parser.c:1144-1240: the content of the file after that, `none` if the file is deleted.  (It is
deleted later, because its node is in `gen_delete_root`.) -/
def remove (old : Str) : Option Str :=
  let c := copyOld 0 old
  let n := if c.2 then c.1.length - 26 else c.1.length
  if n = 0 then none else some (c.1.take n)

end Tup.Gitignore
