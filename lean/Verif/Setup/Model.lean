import Verif.Basic

/-!
What a command sees when it starts: `setup_subprocess` (src/tup/server/master_fork.c:375-539) sets up the output files, the mounts, the root
and the working directory of the process that then executes the command. Linux.
-/

namespace Tup.Setup

/-- A path: its components. There are no `.`, `..` and symbolic links in those that are modelled. -/
abbrev Path := List Str

/-- A place in the file system: a path in the real one, or one that is handed to tup's own (src/tup/server/fuse_fs.c), which records every
access, and which has the path of the real file that is meant (`peel`, fuse_fs.c:142-163, takes off the name of the job). -/
inductive Place where
  | real (p : Path)
  | fuse (p : Path)
  deriving DecidableEq

/-- The place with this path below the first one. -/
def Place.add : Place → Path → Place
  | .real p, q => .real (p ++ q)
  | .fuse p, q => .fuse (p ++ q)

/-- The mounts that the process sees, latest first: where, and what is there instead. -/
abbrev Mounts := List (Place × Place)

/-- How the kernel walks along a path: at a mount point it goes on in what is mounted there. -/
def walk (ms : Mounts) (w : Place) : Path → Place
  | [] => w
  | n :: p => walk ms (match ms.lookup (w.add [n]) with | some t => t | none => w.add [n]) p

/-- What an open file is: the two files for what the command writes, master_fork.c:383 and 400, or another one. -/
inductive Out where
  | output
  | errors
  | other (n : Nat)
  deriving DecidableEq

/-- The process. -/
structure Proc where
  fds : Nat → Option Out
  mounts : Mounts
  root : Place
  cwd : Place

/-- The calls of the kernel, in the order of the code. -/
inductive Call where
  | creatOut | chownOut | creatErr | chownErr | dupOut | dupErr | closeOut | closeErr
  | unshare | makePrivate
  | mountDev | mountProc | chroot | chdirRoot
  | bind | chdirJob
  | drop | chdirDir
  deriving DecidableEq

/-- `top`: the path of the project; `name`: the directory of the job below .tup/mnt, fuse_server.c:481; `sub`: the directory of the command in the
project; the others are the fields of `struct execmsg` and the settings of master_fork.c:78-80. `can`: the calls that succeed. `ofd` and `efd`
are the descriptors that the kernel gives. -/
structure Cfg where
  top : Path
  name : Str
  sub : Path
  streaming : Bool
  single : Bool
  need : Bool
  namespacing : Bool
  privileged : Bool
  full : Bool
  can : Call → Bool
  ofd : Nat
  efd : Nat

/-- `TUP_MNT "/" TUP_JOB "%i"`, fuse_server.c:481; it is relative to the working directory of the process that forks, which is the project's. -/
def Cfg.job (c : Cfg) : Path := [['.', 't', 'u', 'p'], ['m', 'n', 't'], c.name]

/-- The path that is handed over for the command's directory, fuse_server.c:486-490; it has no slash at the beginning. -/
def Cfg.dir (c : Cfg) : Path := c.top ++ c.sub

def dev : Path := [['d', 'e', 'v']]
def proc : Path := [['p', 'r', 'o', 'c']]

/-- A call, and what it changes. -/
def call (c : Cfg) (k : Call) (f : Proc → Proc) (p : Proc) : Option Proc := if c.can k then some (f p) else none

/-- `fds[i] = v`. -/
def setFd (i : Nat) (v : Proc → Option Out) (p : Proc) : Proc := { p with fds := fun k => if k = i then v p else p.fds k }

/-- The file for the errors, master_fork.c:397-413. -/
def errorFile (c : Cfg) (p : Proc) : Option Proc :=
  if c.single then some p else (call c .creatErr (setFd c.efd fun _ => some .errors) p).bind (call c .chownErr id)

/-- master_fork.c:380-434; the names of the files, their modes and owners are not modelled. -/
def outputs (c : Cfg) (p : Proc) : Option Proc :=
  if c.streaming then some p
  else do
    let p ← call c .creatOut (setFd c.ofd fun _ => some .output) p
    let p ← call c .chownOut id p
    let efd := if c.single then c.ofd else c.efd
    let p ← errorFile c p
    let p ← call c .dupOut (setFd 1 fun p => p.fds c.ofd) p
    let p ← call c .dupErr (setFd 2 fun p => p.fds efd) p
    let p ← call c .closeOut (setFd c.ofd fun _ => none) p
    if c.single then some p else call c .closeErr (setFd c.efd fun _ => none) p

/-- `chdir` and the target of `mount` with a path that has no slash at the beginning. -/
def Proc.rel (p : Proc) (q : Path) : Place := walk p.mounts p.cwd q

/-- The same with a path that has one. -/
def Proc.abs (p : Proc) (q : Path) : Place := walk p.mounts p.root q

/-- master_fork.c:459-464. -/
def Cfg.doChroot (c : Cfg) : Bool := if c.full then true else c.need && c.privileged && !c.namespacing

/-- master_fork.c:436-452: nothing changes at first in what the process sees. -/
def ownMounts (c : Cfg) (p : Proc) : Option Proc :=
  if c.namespacing then (call c .unshare id p).bind (call c .makePrivate id) else some p

/-- master_fork.c:436-530, for Linux. In the last case the result of `chdir` is not looked at. The length of `srcmount` is not modelled. -/
def view (c : Cfg) (p : Proc) : Option Proc := do
  let p ← ownMounts c p
  if c.need && !c.namespacing && !c.privileged then none
  else if c.doChroot then do
    let p ← call c .mountDev (fun p => { p with mounts := (p.rel (c.job ++ dev), p.abs dev) :: p.mounts }) p
    let p ← call c .mountProc (fun p => { p with mounts := (p.rel (c.job ++ proc), p.abs proc) :: p.mounts }) p
    let p ← call c .chroot (fun p => { p with root := p.rel c.job }) p
    call c .chdirRoot (fun p => { p with cwd := p.root }) p
  else if c.namespacing then do
    let p ← call c .bind (fun p => { p with mounts := (p.abs c.top, p.rel (c.job ++ c.top)) :: p.mounts }) p
    call c .chdirRoot (fun p => { p with cwd := p.root }) p
  else if c.can .chdirJob then some { p with cwd := p.rel c.job } else some p

/-- `setup_subprocess`, master_fork.c:375-539. -/
def setup (c : Cfg) (p : Proc) : Option Proc := do
  let p ← outputs c p
  let p ← view c p
  let p ← call c .drop id p
  call c .chdirDir (fun p => { p with cwd := p.rel c.dir }) p

/-- The process that is forked: it is in the directory of the project, and tup's file system is mounted at the job's directory. -/
def start (c : Cfg) (fds : Nat → Option Out) : Proc where
  fds := fds
  mounts := [(.real (c.top ++ c.job), .fuse [])]
  root := .real []
  cwd := .real c.top

end Tup.Setup
