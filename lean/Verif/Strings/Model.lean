import Verif.Basic

/-!
Model of the growable strings of src/tup/estring.c, of the escaping done for quoted %-flags, and of
`print_json` (src/tup/db.c:7472-7491).

An allocation of `n` bytes is a list of `n` cells, `none` standing for a byte that was never written.  Access
behind an allocation and overflow of a C `int` are undefined behaviour and give `ub`.
-/

namespace Tup.Strings

inductive Res (α : Type) where
  | ok (a : α)
  /-- a function returned an error: memory could not be allocated -/
  | err
  | ub
deriving DecidableEq, Repr

def Res.bind {α β} (r : Res α) (f : α → Res β) : Res β :=
  match r with
  | .ok a => f a
  | .err => .err
  | .ub => .ub

abbrev Mem := List (Option Char)

/-- `INT_MAX` for the 32-bit `int` of all supported platforms. -/
def intMax : Nat := 2147483647

/-- `struct estring`, src/tup/estring.h:24-28. -/
structure Estring where
  s : Mem
  len : Nat
  maxlen : Nat
deriving DecidableEq, Repr

/-- Writing bytes at an offset; `none`: behind the end of the allocation. -/
def write (m : Mem) (off : Nat) (src : Str) : Option Mem :=
  if off + src.length ≤ m.length then
    some (m.take off ++ src.map some ++ m.drop (off + src.length))
  else none

/-- `estring_init`, src/tup/estring.c:28-39, with `ESTRING_DEFAULT_SIZE` 4096.  `alloc n` says whether `malloc`
or `realloc` gives `n` bytes. -/
def init (alloc : Nat → Bool) : Res Estring :=
  if alloc 4096 then
    match write (List.replicate 4096 none) 0 ['\x00'] with
    | some s => .ok ⟨s, 0, 4096⟩
    | none => .ub
  else .err

/-- `while(e->len + len + 1 > e->maxlen) e->maxlen *= 2;`, src/tup/estring.c:44-46; `none`: the
multiplication overflows.  (A positive `maxlen` doubles at most 31 times before it overflows.) -/
def grow (need : Nat) : Nat → Nat → Option Nat
  | 0, _ => none
  | fuel + 1, maxlen =>
    if need > maxlen then
      if 2 * maxlen ≤ intMax then grow need fuel (2 * maxlen) else none
    else some maxlen

/-- `realloc`: the old bytes are kept, the new ones are unwritten. -/
def realloc (m : Mem) (n : Nat) : Mem := m.take n ++ List.replicate (n - m.length) none

/-- `estring_append`, src/tup/estring.c:41-57. -/
def append (alloc : Nat → Bool) (e : Estring) (src : Str) : Res Estring :=
  let need := e.len + src.length + 1
  if need > intMax then .ub
  else
    let put (e : Estring) : Res Estring :=
      match write e.s e.len src with
      | none => .ub
      | some s =>
        match write s (e.len + src.length) ['\x00'] with
        | none => .ub
        | some s => .ok ⟨s, e.len + src.length, e.maxlen⟩
    if need > e.maxlen then
      match grow need 32 e.maxlen with
      | none => .ub
      | some maxlen => if alloc maxlen then put ⟨realloc e.s maxlen, e.len, maxlen⟩ else .err
    else put e

/-- Several appends. -/
def appendAll (alloc : Nat → Bool) (e : Estring) : List Str → Res Estring
  | [] => .ok e
  | s :: l => (append alloc e s).bind fun e => appendAll alloc e l

/-- `memchr`: the bytes before the first `c` and those behind it. -/
def memchr (c : Char) : Str → Option (Str × Str)
  | [] => none
  | d :: s => if d = c then some ([], s) else (memchr c s).map fun (a, b) => (d :: a, b)

/-- The appends that `estring_append_escape` makes, src/tup/estring.c:59-83.  Every iteration consumes a
byte. -/
def escapePieces (escape : Char) : Nat → Str → List Str
  | 0, _ => []
  | fuel + 1, p =>
    if p = [] then []
    else match memchr escape p with
      | none => [p]
      | some (a, b) =>
        a :: (if escape = '\'' then "'\"'\"'".toList else "\\\"".toList) :: escapePieces escape fuel b

/-- `estring_append_escape`, src/tup/estring.c:59-83. -/
def appendEscape (alloc : Nat → Bool) (e : Estring) (src : Str) (escape : Char) : Res Estring :=
  appendAll alloc e (escapePieces escape (src.length + 1) src)

/-- The `for` loop of `print_json`, src/tup/db.c:7480-7487: `buf` and `offs` as in C. -/
def jsonLoop : Str → Mem → Nat → Option (Mem × Nat)
  | [], buf, offs => some (buf, offs)
  | c :: s, buf, offs =>
    if c = '\\' ∨ c = '"' then
      match write buf offs ['\\'] with
      | none => none
      | some buf =>
        match write buf (offs + 1) [c] with
        | none => none
        | some buf => jsonLoop s buf (offs + 2)
    else
      match write buf offs [c] with
      | none => none
      | some buf => jsonLoop s buf (offs + 1)

/-- The bytes that `fprintf(f, "%s", buf)` prints: up to the first NUL byte; `none` if an unwritten byte or
the end of the allocation is met first. -/
def cString : Mem → Option Str
  | [] => none
  | none :: _ => none
  | some c :: m => if c = '\x00' then some [] else (cString m).map (c :: ·)

/-- `print_json`, src/tup/db.c:7472-7491: what is printed.  Simplified: `malloc` succeeds (the code does not
check it), and the product `len * 2` does not overflow. -/
def printJson (str : Str) : Res Str :=
  match jsonLoop str (List.replicate (str.length * 2) none) 0 with
  | none => .ub
  | some (buf, offs) =>
    match write buf offs ['\x00'] with
    | none => .ub
    | some buf =>
      match cString buf with
      | none => .ub
      | some s => .ok s

end Tup.Strings
