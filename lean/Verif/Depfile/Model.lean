/-!
Model of the file in which the processes of a command record their accesses to files, when the dependencies are found
with a preloaded library instead of FUSE: src/ldpreload/ldpreload.c writes it and src/tup/server/depfile.c reads it.
A byte is a number below 256, an `int` has 4 bytes, the lowest first.
-/

namespace Tup.Depfile

abbrev Bytes := List Nat

/-- The bytes of a literal. -/
def lit (s : String) : Bytes := s.toList.map Char.toNat

/-- The bytes of an `int`. -/
def putInt (n : Int) : Bytes :=
  let u := (n % 2 ^ 32).toNat
  [u % 256, u / 256 % 256, u / 65536 % 256, u / 16777216 % 256]

/-- The `int` at the beginning of some bytes.  Only used if there are four. -/
def getInt : Bytes → Int
  | a :: b :: c :: d :: _ =>
    let u : Int := a + 256 * b + 65536 * c + 16777216 * d
    if u < 2 ^ 31 then u else u - 2 ^ 32
  | _ => 0

/-! ### The writer -/

/-- A call that the library sees: the directory relative to which the names are meant (the current one or that of a
descriptor), the names as in the call, and the `enum access_type` (access_event.h:37-43).  `file2` is empty except for
renames. -/
structure Call where
  dir : Bytes
  file : Bytes
  file2 : Bytes
  kind : Int
deriving DecidableEq

/-- `is_full_path`, compat.h:45 -/
def isFull (f : Bytes) : Bool := f.head? == some 47

/-- `strstr(s, p) != NULL` -/
def contains (p : Bytes) : Bytes → Bool
  | [] => p.isPrefixOf []
  | c :: s => p.isPrefixOf (c :: s) || contains p s

/-- `is_ccache_path`, ccache.c:24-44 -/
def isCcache (f : Bytes) : Bool :=
  contains (lit "/.ccache") f || contains (lit "/.cache/ccache") f || contains (lit "/ccache-tmp/") f ||
  (lit "/tmp/.icecream-").isPrefixOf f

/-- `ignore_file`, ldpreload.c:726-737 -/
def ignored (f : Bytes) : Bool :=
  (lit "/dev/").isPrefixOf f || (lit "/sys/").isPrefixOf f || (lit "/proc/").isPrefixOf f || isCcache f

/-- ldpreload.c:639-642: whether the call is recorded.  That an earlier write has failed, or that the library is not
initialised yet (lines 637, 643), is not modelled. -/
def recorded (c : Call) : Bool := !ignored c.file && !ignored c.file2

/-- The writes of `handle_file_locked`, ldpreload.c:655-681, in their order. -/
def chunks (c : Call) : List Bytes :=
  let len : Int := c.file.length + if isFull c.file then 0 else c.dir.length + 1
  let two := c.file2 ≠ [] ∧ isFull c.file2 = false
  let len2 : Int := c.file2.length + if two then c.dir.length + 1 else 0
  [putInt c.kind ++ putInt len ++ putInt len2] ++
  (if isFull c.file then [] else [c.dir, lit "/"]) ++ [c.file ++ [0]] ++
  (if two then [c.dir, lit "/"] else []) ++ [c.file2 ++ [0]]

/-- A process: the calls it is still going to make, and if it is in the middle of recording one, the writes that are
still to be done.  Its threads exclude each other with a mutex (ldpreload.c:694-698), so that they count as one. -/
structure Proc where
  todo : List Call
  cur : Option (List Bytes)

/-- The file, the process that has it locked, and the processes. -/
structure Sys where
  file : Bytes
  lock : Option Nat
  procs : Nat → Proc

def upd (f : Nat → Proc) (i : Nat) (p : Proc) : Nat → Proc := fun j => if j = i then p else f j

/-- One step of process `i` in `handle_file_locked`, ldpreload.c:631-690: begin with the next call and lock the file, or
wait for the lock; write; unlock.  Writes are appended (`O_APPEND`, line 161) and do not fail. -/
def step (i : Nat) (s : Sys) : Sys :=
  let p := s.procs i
  match p.cur with
  | none =>
    match p.todo with
    | [] => s
    | c :: t =>
      if recorded c = false then { s with procs := upd s.procs i ⟨t, none⟩ }
      else match s.lock with
        | none => { s with lock := some i, procs := upd s.procs i ⟨t, some (chunks c)⟩ }
        | some _ => s
  | some (w :: ws) => { s with file := s.file ++ w, procs := upd s.procs i ⟨p.todo, some ws⟩ }
  | some [] => { s with lock := none, procs := upd s.procs i ⟨p.todo, none⟩ }

/-- The processes take steps in some order. -/
def run : List Nat → Sys → Sys
  | [], s => s
  | i :: sched, s => run sched (step i s)

/-- At the beginning (depfile.c:282) the file is empty. -/
def begin (progs : Nat → List Call) : Sys := ⟨[], none, fun i => ⟨progs i, none⟩⟩

/-- Process `i` is killed; the system releases its lock. -/
def kill (i : Nat) (s : Sys) : Sys :=
  { s with lock := if s.lock = some i then none else s.lock, procs := upd s.procs i ⟨[], none⟩ }

/-! ### The reader -/

/-- What is handed to `handle_file` (depfile.c:457). -/
structure Access where
  kind : Int
  path : Bytes
  path2 : Bytes
deriving DecidableEq

/-- `short`: the file ends in the middle; `long`: a path is too long; `noNul`: a path does not end where it should;
`ub`: a negative length, for which the code reads outside of its buffers; `fuel` does not happen. -/
inductive Err
  | short | long | noNul | ub | fuel
deriving DecidableEq

/-- A buffer as a C string. -/
def cstr (b : Bytes) : Bytes := b.takeWhile (· ≠ 0)

/-- `process_depfile`, depfile.c:390-463, without the list of mappings (lines 436-456); `handle_file` is only
recorded. -/
def loop : Nat → Bytes → Except Err (List Access)
  | 0, _ => .error .fuel
  | n + 1, bs =>
    if bs = [] then .ok []
    else if bs.length < 12 then .error .short
    else
      let len := getInt (bs.drop 4)
      let len2 := getInt (bs.drop 8)
      let r := bs.drop 12
      if len = 0 then loop n r
      else if len ≥ 4095 then .error .long
      else if len2 ≥ 4095 then .error .long
      else if len < 0 ∨ len2 < 0 then .error .ub
      else if r.length < len.toNat + 1 then .error .short
      else
        let r2 := r.drop (len.toNat + 1)
        if r2.length < len2.toNat + 1 then .error .short
        else if r[len.toNat]? ≠ some 0 ∨ r2[len2.toNat]? ≠ some 0 then .error .noNul
        else match loop n (r2.drop (len2.toNat + 1)) with
          | .error e => .error e
          | .ok as => .ok (⟨getInt bs, cstr (r.take len.toNat), cstr (r2.take len2.toNat)⟩ :: as)

def process (bs : Bytes) : Except Err (List Access) := loop (bs.length + 1) bs

end Tup.Depfile
