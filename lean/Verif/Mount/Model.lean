import Verif.Fuse.Model

/-!
The commands that run at the same time share one mounted file system.  Each has its own directory `@tupjob-N` in it, by which the requests are assigned to it, and its own
`struct file_info`; the files in .tup/tmp and the number of the next one are common to all.
src/tup/server/fuse_fs.c:71-163, src/tup/server/fuse_server.c:464-584, on top of the model of the file system that one command sees (`Fuse`).

A request is one step: the functions of fuse_fs.c release the lock of the `file_info` in between, but what another command does meanwhile concerns other objects.
-/

namespace Tup.Mount

open Tup.Fuse (Fs Node Op)

/-- `TUP_JOB`, src/tup/server/tup_fuse_fs.h:36. -/
def jobPrefix : Str := "@tupjob-".toList

/-- The digits at the beginning, as `strtol` reads them in the base. -/
def digits (base : Nat) : Nat → Str → Nat
  | acc, [] => acc
  | acc, c :: s =>
    let d := if '0' ≤ c ∧ c ≤ '9' then c.toNat - '0'.toNat else if 'a' ≤ c ∧ c ≤ 'z' then c.toNat - 'a'.toNat + 10 else if 'A' ≤ c ∧ c ≤ 'Z' then c.toNat - 'A'.toNat + 10 else 36
    if d < base then digits base (acc * base + d) s else acc

/-- `strtol(path, NULL, 0)` for a text without a sign or spaces in front (`@tupjob-` is followed by what `%i` printed), and without overflow: `0` in front means octal, `0x`
hexadecimal. -/
def strtol : Str → Nat
  | '0' :: 'x' :: s => digits 16 0 s
  | '0' :: 'X' :: s => digits 16 0 s
  | '0' :: s => digits 8 0 s
  | s => digits 10 0 s

/-- The job of a path, `get_finfo`, src/tup/server/fuse_fs.c:109-125. -/
def jobOf : Str → Option Nat
  | '/' :: p => if jobPrefix.isPrefixOf p then some (strtol (p.drop jobPrefix.length)) else none
  | _ => none

/-- `peel`, src/tup/server/fuse_fs.c:142-163; `none` is the null pointer. -/
def peel : Str → Option Str
  | '/' :: p =>
    if jobPrefix.isPrefixOf p then
      match (p.drop jobPrefix.length).dropWhile (· ≠ '/') with
      | [] => some ['/']
      | q => some q
    else some ('/' :: p)
  | _ => none

/-- The directory of a job in the mounted file system, src/tup/server/fuse_server.c:391, 481. -/
def jobDir (id : Nat) : Str := '/' :: jobPrefix ++ Nat.toDigits 10 id

variable {C : Type}

/-- `troot` with the `file_info` of each job (in which the fields `next` and `tmp` have no meaning), the common part, and the tree. -/
structure Mount (C : Type) where
  jobs : Nat → Option (Fs C) := fun _ => none
  next : Nat := 0
  tmp : Nat → Option C := fun _ => none
  real : Str → Option (Node C)

/-- What happens. -/
inductive Ev (C : Type) where
  /-- `tup_fuse_add_group`, src/tup/server/fuse_fs.c:71-80 -/
  | start (id : Nat)
  /-- a request of a process of the job, with peeled names -/
  | call (id : Nat) (o : Op C)
  /-- `tup_fuse_rm_group`, 82-86, and the moving or deletion of the files, src/tup/file.c:700-833; which ones are moved is given -/
  | finish (id : Nat) (keep : Str → Bool)
  /-- a file of the tree is changed by tup itself or from outside -/
  | change (f : Str) (n : Option (Node C))

/-- The `file_info` with the common part. -/
def load (m : Mount C) (s : Fs C) : Fs C := { s with next := m.next, tmp := m.tmp }

/-- The result of a request for a job that there is not: `finfo` is NULL, src/tup/server/fuse_fs.c:216-227, 853, 889, 934, 1038, 1180, 1314.  A rename is said to succeed. -/
def late (real : Str → Option (Node C)) : Op C → Bool
  | .read f => (real f).isSome
  | .rename f g =>
    if f = g then (real f).isSome
    else
      match real f, real g with
      | none, _ => false
      | some .dir, some (.file _) => false
      | some (.file _), some .dir => false
      | _, _ => !Fuse.below f g
  | _ => false

/-- One event, and the answer to a request. -/
def step (m : Mount C) : Ev C → Mount C × Option (Nat × Bool)
  | .start id =>
    match m.jobs id with
    | some _ => (m, none)
    | none => ({ m with jobs := fun j => if j = id then some {} else m.jobs j }, none)
  | .call id o =>
    match m.jobs id with
    | none => (m, some (id, late m.real o))
    | some s =>
      let r := Fuse.step m.real (load m s) o
      ({ m with jobs := fun j => if j = id then some r.1 else m.jobs j, next := r.1.next, tmp := r.1.tmp }, some (id, r.2))
  | .finish id keep =>
    match m.jobs id with
    | none => (m, none)
    | some s =>
      ({ m with jobs := fun j => if j = id then none else m.jobs j
                real := Fuse.settle (load m s) (s.maps.filter fun p => keep p.1) m.real
                tmp := fun t => if t ∈ s.maps.map Prod.snd then none else m.tmp t }, none)
  | .change f n => ({ m with real := fun x => if x = f then n else m.real x }, none)

/-- Any number of events, and the answers. -/
def run : Mount C → List (Ev C) → Mount C × List (Nat × Bool)
  | m, [] => (m, [])
  | m, e :: es =>
    let r := step m e
    let t := run r.1 es
    (t.1, r.2.toList ++ t.2)

end Tup.Mount
