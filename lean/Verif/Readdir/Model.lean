import Verif.Fuse.Model

/-!
The names that a command finds in a directory: `tup_fs_readdir`, src/tup/server/fuse_fs.c:587-722, on top of the model of the
command's file system (`Verif/Fuse`).  Not modelled here: the lists that the parser gives to scripts (`SERVER_PARSER_MODE`), and
directories outside of what tup watches (`finfo == NULL`).  The buffer that takes the names is never full (FUSE enlarges it).
-/

namespace Tup.Readdir

open Tup (Str)
open Tup.Fuse

variable {C : Type}

/-- The name in directory `d` of something that is directly in it, fuse_fs.c:657-673 and 687-713.  The names are absolute, so that the
case of a directory that begins with '.' (657-659) does not occur. -/
def child (d f : Str) : Option Str :=
  if below d f then
    if '/' ∈ f.drop (d.length + 1) then none else some (f.drop (d.length + 1))
  else none

/-- The loop over the mappings, fuse_fs.c:647-683.  It fails if the file in .tup/tmp is missing. -/
def listMaps (s : Fs C) (d : Str) : List (Str × Nat) → Option (List Str)
  | [] => some []
  | m :: ms =>
    match child d m.1 with
    | none => listMaps s d ms
    | some n =>
      match s.tmp m.2 with
      | none => none
      | some _ =>
        match listMaps s d ms with
        | none => none
        | some l => some (n :: l)

/-- The loop over the temporary directories, fuse_fs.c:686-713. -/
def listDirs (d : Str) : List Str → List Str
  | [] => []
  | t :: ts =>
    match child d t with
    | none => listDirs d ts
    | some n => n :: listDirs d ts

/-- `add_dir_entries`, fuse_fs.c:541-555, and `fill_actual_directory`, 557-573: `ents` is what readdir() gives for the real directory,
`none` if it cannot be opened. -/
def actual (ents : Str → Option (List Str)) (d : Str) : List Str :=
  match ents d with
  | none => []
  | some l => l.filter fun n => n ≠ ".tup".toList

/-- `tup_fs_readdir`, fuse_fs.c:587-722. -/
def readdir (ents : Str → Option (List Str)) (s : Fs C) (d : Str) : Fs C × Option (List Str) :=
  match listMaps s d s.maps with
  | none => (s, none)
  | some l =>
    let l := l ++ listDirs d s.dirs
    if d ∈ s.dirs then (s, some l)
    else (recRead d s, some (l ++ actual ents d))

/-- The directory is looked up first, and the kernel lists only directories. -/
def list (real : Str → Option (Node C)) (ents : Str → Option (List Str)) (s : Fs C) (d : Str) : Fs C × Option (List Str) :=
  match lookup real s d with
  | some .dir => readdir ents (attr s d) d
  | _ => (attr s d, none)

end Tup.Readdir
