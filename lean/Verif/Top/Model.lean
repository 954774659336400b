import Verif.Text

/-!
Model of how tup finds the directory of the project, how a Tupfile.ini makes one, and of `tup init` (src/tup/config.c:48-136, src/tup/option.c:121-230, src/tup/init.c:145-263, src/tup/tup/main.c:189-270).

A directory is the list of the names from it up to the root, the innermost one first; `[]` is the root.  Only directories are in the file system here: which directories there are, which have a directory `.tup` in them and which a readable
Tupfile.ini.  There are no symbolic links, all system calls that can succeed do, and no path is longer than `PATH_MAX`.
-/

namespace Tup.Top

open Tup (Str)

/-- A directory, innermost name first. -/
abbrev Dir := List Str

/-- The file system. -/
structure World where
  isDir : Dir → Bool
  tup : Dir → Bool
  ini : Dir → Bool

/-- `chdir("..")`. -/
def up (d : Dir) : Dir := d.tail

/-- The names with a slash before each. -/
def slashed : Dir → Str
  | [] => []
  | c :: d => slashed d ++ '/' :: c

/-- `getcwd`. -/
def getcwd (d : Dir) : Str := if d = [] then ['/'] else slashed d

/-- The inner loop of `find_tup_dir`, config.c:75-81: to the slash before. -/
def back (wd : Str) : Nat → Int → Nat × Int
  | 0, sub => (0, sub)
  | top + 1, sub => if wd[top]? = some '/' then (top, sub + 1) else back wd top (sub + 1)

/-- What `find_tup_dir` leaves: the directory the process is in, and `tup_wd`, `tup_top_len`, `tup_wd_offset`, `tup_sub_len`. -/
structure Found where
  dir : Dir
  wd : Str
  top : Nat
  offset : Nat
  sub : Int
deriving DecidableEq, Repr

/-- `loops`: there were not enough rounds. -/
inductive Res where
  | found (f : Found)
  | notFound
  | loops
deriving DecidableEq, Repr

/-- The loop of `find_tup_dir`, config.c:60-85. -/
def findLoop (w : World) (wd : Str) : Nat → Dir → Nat → Int → Res
  | 0, _, _, _ => .loops
  | n + 1, dir, top, sub =>
    if w.tup dir then
      let k := ((wd.drop top).takeWhile (· = '/')).length
      .found ⟨dir, wd, top, top + k, sub - k⟩
    else
      let r := back wd top sub
      if r.1 = 0 then .notFound else findLoop w wd n (up dir) r.1 r.2

/-- `find_tup_dir`, config.c:48-87. -/
def find (w : World) (d : Dir) : Res := findLoop w (getcwd d) ((getcwd d).length + 1) d (getcwd d).length 0

/-- `get_tup_top`, config.c:121: `tup_wd`, which ends where `find_tup_dir` has put a 0 (config.c:67). -/
def Found.topPath (f : Found) : Str := f.wd.take f.top

/-- `get_sub_dir`, config.c:131-136. -/
def Found.subDir (f : Found) : Str :=
  let rest := if f.offset = f.top then [] else f.wd.drop f.offset
  if rest = [] then ".".toList else rest

/-! ### `tup init` -/

/-- Splits at slashes. -/
def split : Str → List Str
  | [] => [[]]
  | c :: s => if c = '/' then [] :: split s else
    match split s with
    | [] => [[c]]
    | x :: l => (c :: x) :: l

/-- Names from a directory on; every one must exist. -/
def walk (w : World) : Dir → List Str → Option Dir
  | d, [] => some d
  | d, c :: l =>
    if c = [] ∨ c = ".".toList then walk w d l
    else if c = "..".toList then walk w (up d) l
    else if w.isDir (c :: d) then walk w (c :: d) l else none

/-- The directory of a path, as for `open`. -/
def resolve (w : World) (d : Dir) (path : Str) : Option Dir :=
  match path with
  | [] => none
  | c :: _ => walk w (if c = '/' then [] else d) (split path)

/-- What `mkdir` does: `none` for an error other than `EEXIST`.  The last name is that before slashes at the end. -/
def mkdir (w : World) (d : Dir) (path : Str) : Option World :=
  match path with
  | [] => none
  | c :: _ =>
    match (split path).reverse.dropWhile (· = []) with
    | [] => some w
    | last :: before =>
      match walk w (if c = '/' then [] else d) before.reverse with
      | none => none
      | some p => if last = ".".toList ∨ last = "..".toList then some w else some { w with isDir := fun x => w.isDir x || decide (x = last :: p) }

/-- The paths that `mkdirtree` makes: up to each slash, and the whole. -/
def prefixes : Str → List Str
  | [] => [[]]
  | c :: s => if c = '/' then [] :: (prefixes s).map (c :: ·) else (prefixes s).map (c :: ·)

/-- `mkdirtree`, init.c:145-188; on an error the directories made so far stay, which is not kept here. -/
def mkdirtree (w : World) (d : Dir) (path : Str) : Option World := (prefixes path).foldl (fun r p => match r with | none => none | some w => mkdir w d p) (some w)

/-- The arguments of `tup init`, init.c:190-211: `--no-sync`, `--force` and the directory. -/
def args : List Str → Option (Bool × Bool × Option Str)
  | [] => some (true, false, none)
  | a :: l =>
    match args l with
    | none => none
    | some (sync, force, dir) =>
      if a = "--no-sync".toList then some (false, force, dir)
      else if a = "--force".toList then some (sync, true, dir)
      else
        match dir with
        | some _ => none
        | none => some (sync, force, some a)

/-- What `tup init` does: `made` with the directory that has got `.tup`, and whether the database is synchronised; `already` with the warning that there is a project. -/
inductive Init where
  | made (w : World) (dir : Dir) (sync : Bool)
  | already (w : World)
  | error

/-- `init_command` behind the reading of arguments, init.c:213-263; `d` is the current directory.  `tup_db_create` succeeds. -/
def initIn (w : World) (d : Dir) (sync force : Bool) (dir : Option Str) : Init :=
  match (match dir with | none => some w | some p => mkdirtree w d p) with
  | none => .error
  | some w =>
    match resolve w d (match dir with | none => ".".toList | some p => p) with
    | none => .error
    | some t =>
      if !force && (match find w d with | .found _ => true | _ => false) then .already w
      else if w.tup t then .error
      else .made { w with tup := fun x => w.tup x || decide (x = t) } t sync

/-- `init_command`, init.c:190-263. -/
def init (w : World) (d : Dir) (l : List Str) : Init :=
  match args l with
  | none => .error
  | some (sync, force, dir) => initIn w d sync force dir

/-! ### Tupfile.ini -/

/-- The loop of `tup_option_process_ini`, option.c:134-178: `best_root` and `found_tup_dir`.  After `chdir("..")` the loop ends in the root. -/
def iniLoop (w : World) : Dir → Option Dir → Option Dir × Bool
  | [], best => (if w.ini [] then some [] else best, w.tup [])
  | c :: d, best =>
    let best := if w.ini (c :: d) then some (c :: d) else best
    if w.tup (c :: d) then (best, true)
    else if d = [] then (best, false)
    else iniLoop w d best

/-- `tup_option_process_ini`, option.c:121-230, with the file system behind it; `none`: tup exits.  At the end tup is in the directory in which it started. -/
def processIni (w : World) (d : Dir) : Option World :=
  match iniLoop w d none with
  | (none, _) => some w
  | (some _, true) => some w
  | (some r, false) =>
    match init w r [] with
    | .made w _ _ => some w
    | _ => none

end Tup.Top
