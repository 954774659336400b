import Verif.Basic

/-
Model of the file system that a command sees (src/tup/server/fuse_fs.c) and of the record of its accesses (src/tup/file.c), C22.

Names are absolute paths, as `peel` gives them (src/tup/server/fuse_fs.c:142-163).  Only names are considered that are neither hidden
nor ignored (`is_hidden`, 92-107, and `ignore_file`, 283-294).  The process belongs to the job (`context_check`), memory and the
operations on the temporary files in .tup/tmp do not fail, and opening, writing and closing a file are one operation.

Before it calls the file system the kernel looks up the names (`getattr`) and refuses what can't be done with what is there; this part
(`kernel` in the comments below) is not tup's and is trusted.
-/

namespace Tup.Fuse

open Tup (Str)

/-- What is at a path. -/
inductive Node (C : Type) where
  | dir
  | file (content : C)
deriving DecidableEq

/-- `struct file_info`, src/tup/file.h, with the files in .tup/tmp (`tmp`) and the number of the next one (`filenum`). -/
structure Fs (C : Type) where
  /-- `mapping_list`: the name of a file and the number of the file in .tup/tmp that has its content -/
  maps : List (Str × Nat) := []
  next : Nat := 0
  tmp : Nat → Option C := fun _ => none
  /-- `tmpdir_list` -/
  dirs : List Str := []
  /-- `read_list`, `write_list`, `unlink_list` -/
  reads : List Str := []
  writes : List Str := []
  unlinks : List Str := []

variable {C : Type}

/-- `find_mapping`, src/tup/server/fuse_fs.c:229-241. -/
def findMap (f : Str) : List (Str × Nat) → Option Nat
  | [] => none
  | m :: ms => if m.1 = f then some m.2 else findMap f ms

/-- `del_map` on what `find_mapping` found, src/tup/file.c:604-610. -/
def delMap (f : Str) : List (Str × Nat) → List (Str × Nat)
  | [] => []
  | m :: ms => if m.1 = f then ms else m :: delMap f ms

/-- Set the name of what `find_mapping` found, src/tup/server/fuse_fs.c:1024-1025. -/
def renameMap (f g : Str) : List (Str × Nat) → List (Str × Nat)
  | [] => []
  | m :: ms => if m.1 = f then (g, m.2) :: ms else m :: renameMap f g ms

/-- `handle_open_file` with ACCESS_READ, src/tup/file.c:208-211. -/
def recRead (f : Str) (s : Fs C) : Fs C := { s with reads := s.reads ++ [f] }

/-- `handle_open_file` with ACCESS_WRITE, src/tup/file.c:212-215, with `check_unlink_list`, 612-621. -/
def recWrite (f : Str) (s : Fs C) : Fs C := { s with writes := s.writes ++ [f], unlinks := s.unlinks.filter fun u => u ≠ f }

/-- `handle_open_file` with ACCESS_UNLINK, src/tup/file.c:216-218. -/
def recUnlink (f : Str) (s : Fs C) : Fs C := { s with unlinks := s.unlinks ++ [f] }

/-- `handle_rename`, src/tup/file.c:573-602. -/
def recRename (f g : Str) (s : Fs C) : Fs C :=
  { s with writes := s.writes.map fun w => if w = f then g else w
           reads := s.reads.map fun r => if r = f then g else r
           unlinks := s.unlinks.filter fun u => u ≠ g }

/-- What `tup_fs_getattr` finds, src/tup/server/fuse_fs.c:344-435: a temporary directory, else the file of a mapping, else what is
really there (`real`). -/
def lookup (real : Str → Option (Node C)) (s : Fs C) (f : Str) : Option (Node C) :=
  if f ∈ s.dirs then some .dir
  else
    match findMap f s.maps with
    | some t =>
      match s.tmp t with
      | some c => some (.file c)
      | none => none
    | none => real f

/-- The record that `tup_fs_getattr` makes: none for a temporary directory, src/tup/server/fuse_fs.c:376-383, 434. -/
def attr (s : Fs C) (f : Str) : Fs C := if f ∈ s.dirs then s else recRead f s

/-- `add_mapping_internal`, src/tup/server/fuse_fs.c:165-214. -/
def addMap (f : Str) (s : Fs C) : Fs C :=
  let s := recWrite f s
  { s with maps := s.maps ++ [(f, s.next)], next := s.next + 1 }

/-- Content is written to a file in .tup/tmp. -/
def setTmp (t : Nat) (c : Option C) (s : Fs C) : Fs C := { s with tmp := fun i => if i = t then c else s.tmp i }

/-- `strncmp(name, d, len) == 0 && name[len] == '/'`, src/tup/server/fuse_fs.c:912, 919. -/
def below (d f : Str) : Bool := (d ++ ['/']).isPrefixOf f

/-- What a process of the command asks for. -/
inductive Op (C : Type) where
  /-- look at a file or read it -/
  | read (f : Str)
  /-- open a file for writing, creating it if necessary, write the content and close it -/
  | put (f : Str) (c : C)
  | unlink (f : Str)
  | rename (f g : Str)
  | mkdir (f : Str)
  | rmdir (f : Str)
  | truncate (f : Str) (c : C)

/-- `tup_fs_create`, src/tup/server/fuse_fs.c:1239-1258, with `mknod_internal`, 725-800; the kernel calls it if there is nothing.
The directory is there and writable. -/
def create (f : Str) (c : C) (s : Fs C) : Fs C := setTmp s.next (some c) (recWrite f (addMap f s))

/-- `tup_fs_open` for writing, src/tup/server/fuse_fs.c:1260-1317, with FUSE 3, for a name that is not excluded; the kernel calls it
(without O_CREAT) if there is a file.  A new mapping has no file in .tup/tmp, so that the open fails. -/
def openWrite (f : Str) (c : C) (s : Fs C) : Fs C × Bool :=
  match findMap f s.maps with
  | some t => (recWrite f (setTmp t (some c) s), true)
  | none => (recWrite f (addMap f s), false)

/-- `tup_fs_unlink`, src/tup/server/fuse_fs.c:856-890. -/
def unlinkOp (f : Str) (s : Fs C) : Fs C × Bool :=
  match findMap f s.maps with
  | some t => (recUnlink f { setTmp t none s with maps := delMap f s.maps }, true)
  | none => (s, false)

/-- Set the name of the first temporary directory with that name, src/tup/server/fuse_fs.c:981-992. -/
def renameDir (f g : Str) : List Str → List Str
  | [] => []
  | d :: ds => if d = f then g :: ds else d :: renameDir f g ds

/-- The mapping of the new name is removed first, src/tup/server/fuse_fs.c:1001-1005. -/
def dropTarget (g : Str) (s : Fs C) : Fs C :=
  match findMap g s.maps with
  | some t => { setTmp t none s with maps := delMap g s.maps }
  | none => s

/-- `tup_fs_rename`, src/tup/server/fuse_fs.c:957-1039, for names without ".fuse_hidden". -/
def renameOp (f g : Str) (s : Fs C) : Fs C × Bool :=
  if f ∈ s.dirs then ({ s with dirs := renameDir f g s.dirs }, true)
  else
    let s := dropTarget g s
    match findMap f s.maps with
    | some _ => (recRename f g { s with maps := renameMap f g s.maps }, true)
    | none => (s, false)

/-- `tup_fs_rmdir`, src/tup/server/fuse_fs.c:892-935. -/
def rmdirOp (d : Str) (s : Fs C) : Fs C × Bool :=
  if s.dirs.any (below d) || s.maps.any (fun m => below d m.1) then (s, false)
  else if d ∈ s.dirs then ({ s with dirs := s.dirs.erase d }, true)
  else (s, false)

/-- `tup_fs_truncate`, src/tup/server/fuse_fs.c:1129-1181, for a name that is not excluded; `c` is the content after it. -/
def truncateOp (f : Str) (c : C) (s : Fs C) : Fs C × Bool :=
  let s := recWrite f s
  match findMap f s.maps with
  | some t => (setTmp t (some c) s, true)
  | none => (s, false)

/-- One operation, with the lookups and the refusals of the kernel; `mkdir` is `tup_fs_mkdir`, src/tup/server/fuse_fs.c:808-854. -/
def step (real : Str → Option (Node C)) (s : Fs C) : Op C → Fs C × Bool
  | .read f => (attr s f, (lookup real s f).isSome)
  | .put f c =>
    match lookup real s f with
    | none => (create f c (attr s f), true)
    | some .dir => (attr s f, false)
    | some (.file _) => openWrite f c (attr s f)
  | .unlink f =>
    match lookup real s f with
    | some (.file _) => unlinkOp f (attr s f)
    | _ => (attr s f, false)
  | .rename f g =>
    if f = g then (attr s f, (lookup real s f).isSome)
    else
      match lookup real s f, lookup real s g with
      | none, _ => (attr (attr s f) g, false)
      | some .dir, some (.file _) => (attr (attr s f) g, false)
      | some (.file _), some .dir => (attr (attr s f) g, false)
      | _, _ => if below f g then (attr (attr s f) g, false) else renameOp f g (attr (attr s f) g)
  | .mkdir f =>
    match lookup real s f with
    | none => ({ attr s f with dirs := s.dirs ++ [f] }, true)
    | some _ => (attr s f, false)
  | .rmdir f =>
    match lookup real s f with
    | some .dir => rmdirOp f (attr s f)
    | _ => (attr s f, false)
  | .truncate f c =>
    match lookup real s f with
    | some (.file _) => truncateOp f c (attr s f)
    | _ => (attr s f, false)

/-- Any number of operations: the end, and which of them succeeded. -/
def run (real : Str → Option (Node C)) : Fs C → List (Op C) → Fs C × List Bool
  | s, [] => (s, [])
  | s, o :: os =>
    let r := step real s o
    let t := run real r.1 os
    (t.1, r.2 :: t.2)

/-- `handle_unlink`, src/tup/file.c:623-643: the files that are reported as written and as read. -/
def reportWrites (s : Fs C) : List Str := s.writes.filter fun w => w ∉ s.unlinks
def reportReads (s : Fs C) : List Str := s.reads.filter fun r => r ∉ s.unlinks

/-- The last loop of `update_write_info`, src/tup/file.c:814-833: the files of the mappings are moved to their places.  (Which of them
are, is the subject of C23.) -/
def settle (s : Fs C) : List (Str × Nat) → (Str → Option (Node C)) → Str → Option (Node C)
  | [], real => real
  | m :: ms, real => settle s ms fun f => if f = m.1 then (s.tmp m.2).map .file else real f

end Tup.Fuse
