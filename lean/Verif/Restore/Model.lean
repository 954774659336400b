import Verif.Basic

/-
Model of what `update` in src/tup/updater.c does with the previous outputs of a command (C52, C59).

The outputs of the command are the destinations of its edges.  The content of a file is a list of bytes; time stamps are numbers.
What can fail in the operating system, and what the command and `write_files` (C22, C23) leave in the tree, is a parameter.
-/

namespace Tup.Restore

open Tup (Str)

/-- What `lstat` and `read` (or `readlink`) give.  The size is the length of the content. -/
structure File where
  mode : Nat
  content : List Nat
  mtime : Int
deriving DecidableEq

/-- `S_ISLNK` (the bits of the mode that give the type are 0120000). -/
def File.isLink (f : File) : Bool := f.mode / 4096 % 16 == 10

/-- An output: a destination of an edge of the command's node. -/
structure Output where
  id : Nat
  path : Str
  /-- `skip_output`, src/tup/updater.c:2270-2277: a group, or in a virtual directory -/
  virtual : Bool := false
  /-- `transient == TRANSIENT_DELETE` -/
  transient : Bool := false
deriving DecidableEq

/-- The tree, the files .tup/tmp/backup-ID, the recorded time stamps of the outputs, and `skip` of their nodes. -/
structure Disk where
  tree : Str → Option File
  backup : Nat → Option File
  mtime : Nat → Int
  skip : Nat → Bool

/-- What the command and `write_files` leave. -/
structure Left where
  tree : Str → Option File
  mtime : Nat → Int
  /-- the command exited with 0 and `write_files` accepted its accesses -/
  ok : Bool
  /-- `important_link_removed` -/
  removed : Bool

/-- Results of system calls, and the command. -/
structure Env where
  /-- `tup_entry_open(n->tent->parent)` -/
  opens : Bool := true
  /-- `tup_entry_open(output->tent->parent)` -/
  opensDir : Nat → Bool := fun _ => true
  /-- the renames in `move_outputs` and `restore_outputs` and the `unlinkat` in `unlink_outputs` -/
  moves : Nat → Bool := fun _ => true
  restores : Nat → Bool := fun _ => true
  unlinks : Nat → Bool := fun _ => true
  /-- everything from there up to and including `server_exec` or `do_ln` -/
  starts : Bool := true
  command : (Str → Option File) → Left
  /-- everything after the outputs have been dealt with -/
  reports : Bool := true

/-- A loop that stops at the first failure. -/
def each (f : Output → Disk → Disk × Bool) : List Output → Disk → Disk × Bool
  | [], d => (d, true)
  | o :: os, d =>
    match f o d with
    | (d, true) => each f os d
    | (d, false) => (d, false)

/-- The body of the loop of `move_outputs`, src/tup/updater.c:2286-2324; that there is no such file is not an error. -/
def moveOne (e : Env) (o : Output) (d : Disk) : Disk × Bool :=
  if o.virtual || o.transient then (d, true)
  else if !e.opensDir o.id then (d, false)
  else
    match d.tree o.path with
    | none => (d, true)
    | some f =>
      if !e.moves o.id then (d, false)
      else
        ({ d with tree := fun p => if p = o.path then none else d.tree p
                  backup := fun i => if i = o.id then some f else d.backup i }, true)

/-- `tup_db_set_mtime` with the time stamp that `lstat` gives, if there is a file, src/tup/updater.c:2361-2371. -/
def stamp (o : Output) (d : Disk) : Disk :=
  match d.tree o.path with
  | some f => { d with mtime := fun i => if i = o.id then f.mtime else d.mtime i }
  | none => d

/-- The body of the loop of `restore_outputs`, src/tup/updater.c:2336-2374. -/
def restoreOne (e : Env) (o : Output) (d : Disk) : Disk × Bool :=
  if o.virtual then (d, true)
  else
    match d.backup o.id with
    | none => (stamp o d, true)
    | some f =>
      if !e.restores o.id then (d, false)
      else
        (stamp o { d with tree := fun p => if p = o.path then some f else d.tree p
                          backup := fun i => if i = o.id then none else d.backup i }, true)

/-- The body of the loop of `unlink_outputs`, src/tup/updater.c:2542-2572. -/
def unlinkOne (e : Env) (o : Output) (d : Disk) : Disk × Bool :=
  if o.virtual || o.transient then (d, true)
  else
    let d := { d with skip := fun i => if i = o.id then false else d.skip i }
    if !e.opensDir o.id then (d, false)
    else
      match d.tree o.path with
      | none => (d, true)
      | some _ =>
        if !e.unlinks o.id then (d, false)
        else ({ d with tree := fun p => if p = o.path then none else d.tree p }, true)

/-- `compare_files`, src/tup/updater.c:2379-2433; each `read` gives 4096 bytes or, at the end, what is left. -/
def compareFiles (a b : List Nat) : Bool :=
  if (a.take 4096).length ≠ (b.take 4096).length then false
  else if h : (a.take 4096).length = 0 then true
  else if a.take 4096 ≠ b.take 4096 then false
  else compareFiles (a.drop 4096) (b.drop 4096)
termination_by a.length
decreasing_by
  rw [List.length_drop]
  rw [List.length_take] at h
  omega

/-- `compare_links`, src/tup/updater.c:2435-2461; `readlinkat` gives at most 4096 bytes. -/
def compareLinks (a b : List Nat) : Bool :=
  if (a.take 4096).length ≠ (b.take 4096).length then false
  else decide (a.take 4096 = b.take 4096)

/-- `compare_paths`, src/tup/updater.c:2463-2493. -/
def comparePaths (a b : Option File) : Bool :=
  match a, b with
  | some f, some g =>
    if f.content.length ≠ g.content.length then false
    else if f.mode ≠ g.mode then false
    else if f.isLink then compareLinks f.content g.content
    else compareFiles f.content g.content
  | _, _ => false

/-- The body of the loop of `check_outputs`, src/tup/updater.c:2512-2534. -/
def checkOne (o : Output) (d : Disk) : Disk × Bool :=
  if o.virtual then (d, true)
  else if comparePaths (d.backup o.id) (d.tree o.path) then (d, true)
  else ({ d with skip := fun i => if i = o.id then false else d.skip i }, true)

/-- The body of the loop of `unskip_outputs`, src/tup/updater.c:2495-2504. -/
def unskipOne (o : Output) (d : Disk) : Disk × Bool :=
  ({ d with skip := fun i => if i = o.id then false else d.skip i }, true)

/-- The flags of a command, src/tup/updater.c:2943-2974: does 'o' occur?  Nothing if there is an unknown one. -/
def compareFlag : List Char → Option Bool
  | [] => some false
  | c :: cs =>
    if c ∈ ['c', 'b', 'j', 't', 's'] then compareFlag cs
    else if c = 'o' then (compareFlag cs).map fun _ => true
    else none

/-- The part of `process_output` that deals with outputs, src/tup/updater.c:2618-2661, on what the command has left. -/
def process (e : Env) (compare : Bool) (os : List Output) (d : Disk) : Disk × Bool :=
  let l := e.command d.tree
  let d := { d with tree := l.tree, mtime := l.mtime }
  if compare then
    if !l.ok then ((each (restoreOne e) os d).1, false)
    else
      let r := if l.removed then each unskipOne os d else each checkOne os d
      (r.1, r.2 && e.reports)
  else (d, l.ok && e.reports)

/-- `update`, src/tup/updater.c:2924-3082: the disk afterwards, and whether the command counts as done. -/
def update (e : Env) (flags : List Char) (os : List Output) (d : Disk) : Disk × Bool :=
  match compareFlag flags with
  | none => (d, false)
  | some compare =>
    if !e.opens then (d, false)
    else
      let r := if compare then each (moveOne e) os d else each (unlinkOne e) os d
      if !r.2 then r
      else if !e.starts then (r.1, false)
      else process e compare os r.1

/-- The next start of tup removes everything in .tup/tmp: `server_init`, src/tup/server/fuse_server.c:282-300. -/
def restart (d : Disk) : Disk := { d with backup := fun _ => none }

end Tup.Restore
