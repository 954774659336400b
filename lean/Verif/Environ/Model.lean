/-!
Model of how the environment of a command is put together (src/tup/db.c:5223-5289, src/tup/server/master_fork.c:700-721,
src/tup/server/depfile.c:80-122, src/tup/server/fuse_server.c:721-743) and of the imported variables (src/tup/parser.c:1068-1140).
Strings are lists of bytes; in memory they end in a byte 0.  Memory has a size, and cells that have not been written; an
access outside, or the use of a cell that has not been written, is `none`.
-/

namespace Tup.Environ

abbrev Bytes := List Nat

def eq : Nat := 61

/-- `CCACHE_NODIRECT=1`, src/tup/db.c:5229. -/
def ccache : Bytes := "CCACHE_NODIRECT=1".toList.map Char.toNat

/-- The value in `envdb`, `envdb_set`, src/tup/db.c:5074-5091: the name, `=`, and the value, or NULL for a variable that is not
set. -/
def full (n : Bytes) (v : Option Bytes) : Option Bytes := v.map (fun v => n ++ eq :: v)

/-- An entry of the tree that is given to `tup_db_get_environ`: a variable in the directory of the environment with its value in
`envdb`, or another entry. -/
inductive Ent
  | var (value : Option Bytes)
  | other
deriving DecidableEq

/-- A piece of memory. -/
abbrev Mem := List (Option Nat)

def fresh (n : Nat) : Mem := List.replicate n none

/-- `memcpy` to the offset `at`. -/
def write (m : Mem) (off : Nat) (b : Bytes) : Option Mem :=
  if off + b.length ≤ m.length then some (m.take off ++ (b.map some ++ m.drop (off + b.length))) else none

/-- The first loop, src/tup/db.c:5233-5257: the size of the block and the number of entries. -/
def count : List Ent → Nat × Nat → Nat × Nat
  | [], r => r
  | .var (some v) :: es, (b, n) => count es (b + (v.length + 1), n + 1)
  | .var none :: es, r => count es r
  | .other :: es, r => count es r

/-- The second loop, src/tup/db.c:5267-5280: the block and the position in it. -/
def fill : List Ent → Mem × Nat → Option (Mem × Nat)
  | [], r => some r
  | .var (some v) :: es, (m, cur) =>
    match write m cur v with
    | none => none
    | some m => match write m (cur + v.length) [0] with
      | none => none
      | some m => fill es (m, cur + v.length + 1)
  | .var none :: es, r => fill es r
  | .other :: es, r => fill es r

/-- `struct tup_env`, src/tup/environ.h:42-46 (the size of the block is that of the memory). -/
structure TupEnv where
  block : Mem
  num : Nat
deriving DecidableEq

/-- `tup_db_get_environ`, src/tup/db.c:5223-5289. -/
def getEnviron (es : List Ent) : Option TupEnv :=
  let (size, num) := count es (1, 0)
  match fill es (fresh (size + (ccache.length + 1)), 0) with
  | none => none
  | some (m, cur) => match write m cur ccache with
    | none => none
    | some m => match write m (cur + ccache.length) [0] with
      | none => none
      | some m => match write m (cur + ccache.length + 1) [0] with
        | none => none
        | some m => some ⟨m, num + 1⟩

/-- The string that begins at the start of the memory (what `strlen` and a later reader see). -/
def str : Mem → Option Bytes
  | [] => none
  | none :: _ => none
  | some 0 :: _ => some []
  | some (b + 1) :: m => (str m).map (fun s => (b + 1) :: s)

/-- The loop that makes pointers of the block, src/tup/server/master_fork.c:714-718; the pointers are given as the strings they point
to, and `room` is how many of them may be written.  `limit` is the test of `i` in the loop of fuse_server.c:737-742, or larger than
the size of the block. -/
def pointers (limit : Nat) (room : Nat) (m : Mem) : Option (List Bytes × Nat) :=
  match m with
  | [] => none
  | none :: _ => none
  | some 0 :: _ => some ([], room)
  | some (b + 1) :: r =>
    match limit with
    | 0 => some ([], room)
    | limit + 1 =>
      match str (some (b + 1) :: r), room with
      | none, _ => none
      | some _, 0 => none
      | some s, room + 1 =>
        (pointers limit room ((some (b + 1) :: r).drop (s.length + 1))).map (fun x => (s :: x.1, x.2))
termination_by limit

/-- Further pointers behind them: one for each string and the NULL at the end. -/
def finish (more : List Bytes) : Option (List Bytes × Nat) → Option (List Bytes)
  | none => none
  | some (l, room) => if more.length + 1 ≤ room then some (l ++ more) else none

/-- The environment of a command with the FUSE server: master_fork.c:700-721, where `vardict` is the variable with the name of the file of
the variables. -/
def commandEnv (te : TupEnv) (vardict : Bytes) : Option (List Bytes) :=
  finish [vardict] (pointers te.block.length (te.num + 2) te.block)

/-- The environment of a script that is run by a Tupfile: fuse_server.c:726-743. -/
def scriptEnv (te : TupEnv) : Option (List Bytes) :=
  finish [] (pointers te.num (te.num + 2) te.block)

/-- The block of the preload server, depfile.c:88-97, with the arguments as strings: the three texts with a byte 0 after each, cut off by
`snprintf` if the memory is too small, and the byte 0 of `snprintf`.  The names are `tup_depfile`, `tup_vardict` and `LD_PRELOAD`. -/
def preloadBlock (n1 depfile n2 fd n3 lib : Bytes) : Mem :=
  let len := (n1.length + 1 + depfile.length + 1) + (n2.length + 1 + 32 + 1) + (n3.length + 1 + lib.length + 1)
  let text := (n1 ++ eq :: depfile ++ [0]) ++ (n2 ++ eq :: fd ++ [0]) ++ (n3 ++ eq :: lib ++ [0])
  let cut := text.take (len - 1) ++ [0]
  cut.map some ++ fresh (len - cut.length)

/-- `server_setenv`, depfile.c:80-122. -/
def preloadEnv (te : TupEnv) (pre : Mem) : Option (List Bytes) :=
  match pointers te.block.length (te.num + 4) te.block with
  | none => none
  | some (l, room) => match pointers pre.length room pre with
    | none => none
    | some (l', room) => finish [] (some (l ++ l', room))

/-- `import`, parser.c:1093-1107: the name and the default in the argument. -/
def splitImport : Bytes → Bytes × Option Bytes
  | [] => ([], none)
  | b :: r => if b = eq then ([], some r) else ((b :: (splitImport r).1), (splitImport r).2)

/-- The value behind the name, parser.c:1119-1128. -/
def skipName : Bytes → Bytes
  | [] => []
  | _ :: r => go r
where
  go : Bytes → Bytes
    | [] => []
    | b :: r => if b = eq then r else go r

/-- What a variable is set to by `import`, parser.c:1093-1140, with the environment `getenv` and an `envdb` that agrees with it; `none`: it
has no value. -/
def importVar (getenv : Bytes → Option Bytes) (arg : Bytes) : Bytes × Option Bytes :=
  let (n, d) := splitImport arg
  (n, match full n (getenv n) with
    | some v => some (skipName v)
    | none => d)

end Tup.Environ
