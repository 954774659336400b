import Verif.Fuse.Model

/-!
Model of the open files of a command: `tup_fs_create`, `tup_fs_open`, `tup_fs_read`, `tup_fs_write` and `tup_fs_release` with their limit on descriptors, the operations on names while files are open, and those on the attributes of files
(src/tup/server/fuse_fs.c:725-800, 856-890, 957-1039, 1052-1394, 1456-1471), and the wait for the end of all of them (src/tup/server/fuse_server.c:433-462).

Names are absolute paths, as `peel` gives them.  Directories, symbolic links, pipes and sockets are left out; so is the record of the accesses, which is in `Verif/Fuse`.  There are no hard links in the tree.

What libfuse does in between is trusted: it gives a file the id of which is known the name that it has now; a file that is removed or replaced while it is open is first renamed to `.fuse_hidden…`
(the option hard_remove is not set, fuse_server.c:69-103), a name that nothing else has.  The kernel looks up names before it calls the file system, and does not let a file be written that was opened for reading only.
-/

namespace Tup.OpenFiles

open Tup (Str)
open Tup.Fuse (findMap delMap renameMap)

/-- A file: its content, whether it may be read and written, its owner, and the time it was given.  (That writing changes the time is left out.) -/
structure File where
  bytes : List Nat
  r : Bool
  w : Bool
  owner : Nat := 0
  mtime : Nat := 0
deriving DecidableEq

/-- What a descriptor refers to: a file in .tup/tmp, which may have been removed there, or a file of the tree. -/
inductive Obj where
  | tmp (t : Nat)
  | real (f : Str)
deriving DecidableEq

/-- A file that is open: the name that libfuse gives for it (`none` for `.fuse_hidden…`), `fi->fh` (`none` is 0), and whether it was opened for writing too. -/
structure Handle where
  name : Option Str
  fd : Option Obj
  wr : Bool
deriving DecidableEq

/-- `struct file_info`, src/tup/file.h:60-80, the files in .tup/tmp and those of the tree.  A file in .tup/tmp is removed when it is not `linked`, but its `data` can still be reached by descriptors. -/
structure St where
  maps : List (Str × Nat) := []
  next : Nat := 0
  linked : Nat → Bool := fun _ => false
  data : Nat → File := fun _ => ⟨[], false, false, 0, 0⟩
  real : Str → Option File
  handles : List (Nat × Handle) := []
  hnext : Nat := 0
  /-- `open_count` -/
  count : Int := 0

/-- What does not change: `max_open_files` (fuse_fs.c:48, 66), whether libfuse 3 is used, and which names may be changed in the tree: those that are hidden (92-107) or match an exclusion, in the form with (`freeOpen`, 1287-1291) and without
(`free`, 1167, 1216) the directory of the job. -/
structure Cfg where
  max : Nat
  fuse3 : Bool := true
  free : Str → Bool := fun _ => false
  freeOpen : Str → Bool := fun _ => false
  /-- Names with `.fuse_hidden` in them (876, 1007). -/
  hid : Str → Bool := fun _ => false

/-- What a process of the command asks for.  `create` is an open with O_CREAT. -/
inductive Op where
  | create (f : Str) (r w : Bool)
  | open (f : Str) (wr : Bool)
  | read (h off n : Nat)
  | write (h off : Nat) (b : List Nat)
  | release (h : Nat)
  | unlink (f : Str)
  | rename (f g : Str)
  | truncate (f : Str) (n : Nat)
  | chmod (f : Str) (r w : Bool)
  | chown (f : Str) (u : Nat)
  | utimens (f : Str) (t : Nat)
  | link (f g : Str)

/-- The answer; the number of the error is left out. -/
inductive Res where
  | ok
  | opened (h : Nat)
  | bytes (b : List Nat)
  | fail
deriving DecidableEq

/-- `pread`. -/
def pread (b : List Nat) (off n : Nat) : List Nat := (b.drop off).take n

/-- `ftruncate`. -/
def ftruncate (b : List Nat) (n : Nat) : List Nat := b.take n ++ List.replicate (n - b.length) 0

/-- `pwrite`. -/
def pwrite (b : List Nat) (off : Nat) (x : List Nat) : List Nat :=
  if x = [] then b else ftruncate b off |>.take off |>.append x |>.append (b.drop (off + x.length))

/-- The file that a descriptor refers to. -/
def St.file (s : St) : Obj → Option File
  | .tmp t => some (s.data t)
  | .real f => s.real f

/-- A file is changed. -/
def St.set (s : St) (o : Obj) (x : File) : St :=
  match o with
  | .tmp t => { s with data := fun i => if i = t then x else s.data i }
  | .real f => { s with real := fun g => if g = f then some x else s.real g }

/-- `openat` of a file in .tup/tmp. -/
def openTmp (s : St) (t : Nat) (wr : Bool) : Option Obj :=
  if s.linked t && (s.data t).r && (!wr || (s.data t).w) then some (.tmp t) else none

/-- `openat` of a file of the tree. -/
def openReal (s : St) (f : Str) (wr : Bool) : Option Obj :=
  match s.real f with
  | some x => if x.r && (!wr || x.w) then some (.real f) else none
  | none => none

/-- Is there a file?  (`tup_fs_getattr`, fuse_fs.c:344-435.) -/
def present (s : St) (f : Str) : Bool :=
  match findMap f s.maps with
  | some t => s.linked t
  | none => (s.real f).isSome

/-- The end of `tup_fs_create` and `tup_fs_open`, fuse_fs.c:1248-1254, 1302-1308. -/
def addHandle (c : Cfg) (s : St) (f : Str) (o : Obj) (wr : Bool) : St × Res :=
  ({ s with handles := s.handles ++ [(s.hnext, ⟨some f, if s.count ≥ c.max then none else some o, wr⟩)], hnext := s.hnext + 1, count := s.count + 1 }, .opened s.hnext)

/-- `tup_fs_create`, fuse_fs.c:1239-1258, with `mknod_internal`, 725-763; the kernel calls it if there is nothing.  The directory can be written.  `add_mapping` is in 165-227. -/
def create (c : Cfg) (s : St) (f : Str) (r w : Bool) : St × Res :=
  let t := s.next
  addHandle c { s with maps := s.maps ++ [(f, t)], next := t + 1, linked := fun i => s.linked i || decide (i = t), data := fun i => if i = t then ⟨[], r, w, 0, 0⟩ else s.data i } f (.tmp t) true

/-- `tup_fs_open`, fuse_fs.c:1260-1317; the kernel calls it, without O_CREAT, if there is a file. -/
def openOp (c : Cfg) (s : St) (f : Str) (wr : Bool) : St × Res :=
  match findMap f s.maps with
  | some t =>
    match openTmp s t wr with
    | some o => addHandle c s f o wr
    | none => (s, .fail)
  | none =>
    if c.fuse3 && wr && !c.freeOpen f then ({ s with maps := s.maps ++ [(f, s.next)], next := s.next + 1 }, .fail)
    else
      match openReal s f wr with
      | some o => addHandle c s f o wr
      | none => (s, .fail)

/-- The handle with that id. -/
def findHandle {α : Type} (h : Nat) : List (Nat × α) → Option α
  | [] => none
  | x :: l => if x.1 = h then some x.2 else findHandle h l

/-- `tup_fs_read`, fuse_fs.c:1319-1356. -/
def read (s : St) (h off n : Nat) : Res :=
  match findHandle h s.handles with
  | none => .fail
  | some x =>
    let o := match x.fd with
      | some o => some o
      | none =>
        match x.name with
        | none => none
        | some f =>
          match findMap f s.maps with
          | some t => openTmp s t false
          | none => openReal s f false
    match o with
    | none => .fail
    | some o =>
      match s.file o with
      | some y => .bytes (pread y.bytes off n)
      | none => .fail

/-- `tup_fs_write`, fuse_fs.c:1358-1394.  Without a descriptor the file is opened with O_WRONLY. -/
def write (s : St) (h off : Nat) (b : List Nat) : St × Res :=
  match findHandle h s.handles with
  | none => (s, .fail)
  | some x =>
    if x.wr then
      let o := match x.fd with
        | some o => some o
        | none =>
          match x.name with
          | none => none
          | some f =>
            match findMap f s.maps with
            | some t => if s.linked t && (s.data t).w then some (.tmp t) else none
            | none => none
      match o with
      | none => (s, .fail)
      | some o =>
        match s.file o with
        | some y => (s.set o { y with bytes := pwrite y.bytes off b }, .ok)
        | none => (s, .fail)
    else (s, .fail)

/-- `tup_fs_release`, fuse_fs.c:1456-1471. -/
def release (s : St) (h : Nat) : St × Res :=
  match findHandle h s.handles with
  | none => (s, .fail)
  | some _ => ({ s with handles := s.handles.filter fun x => x.1 ≠ h, count := s.count - 1 }, .ok)

/-- Is a file with that name open?  (libfuse.) -/
def isOpen (s : St) (f : Str) : Bool := s.handles.any fun x => decide (x.2.name = some f)

/-- The files that are open under the first name get the second (libfuse). -/
def moveName (f : Str) (g : Option Str) (l : List (Nat × Handle)) : List (Nat × Handle) :=
  l.map fun x => if x.2.name = some f then (x.1, { x.2 with name := g }) else x

/-- Remove a mapping and its file, fuse_fs.c:868-869, 1003-1004, 1019-1020. -/
def drop (s : St) (f : Str) (t : Nat) : St := { s with maps := delMap f s.maps, linked := fun i => s.linked i && !decide (i = t) }

/-- `tup_fs_rename` to a name with `.fuse_hidden`, fuse_fs.c:1007-1022; `none` is -ENOENT. -/
def hide (s : St) (f : Str) : Option St :=
  match findMap f s.maps with
  | none => none
  | some t => some { drop s f t with handles := moveName f none s.handles }

/-- `tup_fs_unlink`, fuse_fs.c:856-890, called if the file is not open: so no descriptor refers to a file of the tree that is removed here.  (The directory can be written.) -/
def unlinkOp (c : Cfg) (s : St) (f : Str) : St × Res :=
  if isOpen s f then
    match hide s f with
    | some s => (s, .ok)
    | none => (s, .fail)
  else
    match findMap f s.maps with
    | some t => (drop s f t, .ok)
    | none => if c.hid f then ({ s with real := fun g => if g = f then none else s.real g }, .ok) else (s, .fail)

/-- `tup_fs_rename`, fuse_fs.c:957-1039. -/
def renameMapped (c : Cfg) (s : St) (f g : Str) : St × Res :=
  let s := match findMap g s.maps with
    | some t => drop s g t
    | none => s
  match findMap f s.maps with
  | none => (s, .fail)
  | some t =>
    if c.hid g then ({ drop s f t with handles := moveName f (some g) s.handles }, .ok)
    else ({ s with maps := renameMap f g s.maps, handles := moveName f (some g) s.handles }, .ok)

/-- `rename`: a file that is open under the new name is hidden first (libfuse). -/
def renameOp (c : Cfg) (s : St) (f g : Str) : St × Res :=
  if isOpen s g then
    match hide s g with
    | some s => renameMapped c s f g
    | none => (s, .fail)
  else renameMapped c s f g

/-- `tup_fs_truncate`, fuse_fs.c:1129-1181. -/
def truncateOp (c : Cfg) (s : St) (f : Str) (n : Nat) : St × Res :=
  match findMap f s.maps with
  | some t => if s.linked t && (s.data t).w then (s.set (.tmp t) { s.data t with bytes := ftruncate (s.data t).bytes n }, .ok) else (s, .fail)
  | none =>
    if c.free f then
      match s.real f with
      | some x => if x.w then (s.set (.real f) { x with bytes := ftruncate x.bytes n }, .ok) else (s, .fail)
      | none => (s, .fail)
    else (s, .fail)

/-- `tup_fs_chmod` and `tup_fs_chown`, fuse_fs.c:1052-1127: only for files that have a mapping. -/
def attrOp (s : St) (f : Str) (g : File → File) : St × Res :=
  match findMap f s.maps with
  | some t => if s.linked t then (s.set (.tmp t) (g (s.data t)), .ok) else (s, .fail)
  | none => (s, .fail)

/-- `tup_fs_utimens`, fuse_fs.c:1186-1237. -/
def utimensOp (c : Cfg) (s : St) (f : Str) (m : Nat) : St × Res :=
  match findMap f s.maps with
  | some t => if s.linked t then (s.set (.tmp t) { s.data t with mtime := m }, .ok) else (s, .fail)
  | none =>
    if c.free f then
      match s.real f with
      | some x => (s.set (.real f) { x with mtime := m }, .ok)
      | none => (s, .fail)
    else (s, .fail)

/-- One operation, with the lookups of the kernel. `link` is `tup_fs_link`, fuse_fs.c:1041-1047. -/
def step (c : Cfg) (s : St) : Op → St × Res
  | .create f r w => if present s f then (s, .fail) else create c s f r w
  | .open f wr => if present s f then openOp c s f wr else (s, .fail)
  | .read h off n => (s, read s h off n)
  | .write h off b => write s h off b
  | .release h => release s h
  | .unlink f => if present s f then unlinkOp c s f else (s, .fail)
  | .rename f g => if present s f then if f = g then (s, .ok) else renameOp c s f g else (s, .fail)
  | .truncate f n => if present s f then truncateOp c s f n else (s, .fail)
  | .chmod f r w => if present s f then attrOp s f fun x => { x with r := r, w := w } else (s, .fail)
  | .chown f u => if present s f then attrOp s f fun x => { x with owner := u } else (s, .fail)
  | .utimens f m => if present s f then utimensOp c s f m else (s, .fail)
  | .link _ _ => (s, .fail)

/-- Any number of operations. -/
def run (c : Cfg) : St → List Op → St × List Res
  | s, [] => (s, [])
  | s, o :: os =>
    let r := step c s o
    let t := run c r.1 os
    (t.1, r.2 :: t.2)

/-- What `finfo_wait_open_count`, src/tup/server/fuse_server.c:433-462, does with the value that it finds: it waits for a signal of `tup_fs_release`, and gives up after ten seconds without one. -/
inductive Wait where
  | waits
  | done
  | internalError
deriving DecidableEq

/-- `finfo_wait_open_count`, src/tup/server/fuse_server.c:436, 454-461. -/
def wait (s : St) : Wait := if s.count > 0 then .waits else if s.count < 0 then .internalError else .done

end Tup.OpenFiles
