import Verif.Readdir.Model

/-!
A command as a program that asks the file system of its job, C105.  What it asks for next depends on all answers it has had so far, and
on nothing else: it uses no clock, no process of another job and no file that tup ignores (/dev, /sys, /proc, the cache of ccache,
`ignore_file`, src/tup/server/fuse_fs.c:283-294).  The file system is that of C22 and C80 (`Fuse`, `Readdir`, with their assumptions).

A symbolic link is a file here, whose content is its target: `tup_fs_readlink` (src/tup/server/fuse_fs.c:497-539) finds the mapping and
makes the record as `tup_fs_getattr` does, and the kernel, which follows links by reading them, is part of the program.  `tup_fs_access`
(437-495) makes no record; the kernel calls `tup_fs_getattr` before it.
-/

namespace Tup.Again

open Tup (Str)
open Tup.Fuse Tup.Readdir

variable {C : Type}

/-- What is in the file system when the command starts: what is at a path, and the list of each directory. -/
structure Tree (C : Type) where
  real : Str → Option (Node C)
  ents : Str → Option (List Str)

inductive Ask (C : Type) where
  | op (o : Op C)
  /-- the list of a directory -/
  | list (d : Str)

inductive Answer (C : Type) where
  /-- what is there, with its content -/
  | found (n : Option (Node C))
  /-- whether the operation succeeds -/
  | done (b : Bool)
  | names (l : Option (List Str))

/-- One request: `tup_fs_getattr`, `tup_fs_open` and `tup_fs_read` for a look at a file, the operations of C22 (`step`), and
`tup_fs_readdir` (src/tup/server/fuse_fs.c:344-723). -/
def ask (t : Tree C) (s : Fs C) : Ask C → Fs C × Answer C
  | .op (.read f) => ((step t.real s (.read f)).1, .found (lookup t.real s f))
  | .op o => ((step t.real s o).1, .done (step t.real s o).2)
  | .list d => ((list t.real t.ents s d).1, .names (list t.real t.ents s d).2)

/-- The command: what it asks for next, if it does not end. -/
abbrev Prog (C : Type) := List (Answer C) → Option (Ask C)

/-- The first `n` requests of the command with their answers, and the record at that time. -/
def exec (t : Tree C) (p : Prog C) : Nat → Fs C × List (Ask C × Answer C)
  | 0 => ({}, [])
  | n + 1 =>
    let r := exec t p n
    match p (r.2.map Prod.snd) with
    | none => r
    | some a => ((ask t r.1 a).1, r.2 ++ [(a, (ask t r.1 a).2)])

end Tup.Again
