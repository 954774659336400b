import Verif.Basic

/-!
The names of the files that tup makes in .tup/tmp while it runs commands.
-/

namespace Tup.TmpNames

/-- The digits of a number to a base, as printf writes them: `%x` and the digits of `%i` and `%lli`. Part of the C library, trusted. -/
def digits (b n : Nat) : Str := if h : n < b ∨ b < 2 then [n.digitChar] else digits b (n / b) ++ [(n % b).digitChar]
termination_by n
decreasing_by exact Nat.div_lt_self (by omega) (by omega)

/-- `%i` and `%lli`. -/
def decimal (z : Int) : Str := if z < 0 then '-' :: digits 10 z.natAbs else digits 10 z.natAbs

/-- The files: what a command has written to a file (src/tup/server/fuse_fs.c:153-215), its output and its messages (src/tup/server/master_fork.c:382-400,
src/tup/server/fuse_server.c:512-532, src/tup/server/depfile.c:290-291 and 335-336), the copy of an output that is kept to compare or put back
(src/tup/updater.c:2308, 2347, 2522), the list of the files of a group for `%<group>.res` (src/tup/updater.c:2789). The dependencies that the preloaded library notes
(src/tup/server/depfile.c:280). -/
inductive Tmp where
  | written (n : Nat)
  | output (id : Int)
  | errors (id : Int)
  | backup (id : Int)
  | res (n : Int)
  | deps (id : Int)
  deriving DecidableEq

/-- `TUP_TMP` (src/tup/server/tup_fuse_fs.h:35) and a slash. -/
def dir : Str := ['.', 't', 'u', 'p', '/', 't', 'm', 'p', '/']

/-- The rest of the format, at the lines given with `Tmp`: output-, errors-, backup-, res-, deps-. -/
def base : Tmp → Str
  | .written n => digits 16 n
  | .output z => ['o', 'u', 't', 'p', 'u', 't', '-'] ++ decimal z
  | .errors z => ['e', 'r', 'r', 'o', 'r', 's', '-'] ++ decimal z
  | .backup z => ['b', 'a', 'c', 'k', 'u', 'p', '-'] ++ decimal z
  | .res z => ['r', 'e', 's', '-'] ++ decimal z
  | .deps z => ['d', 'e', 'p', 's', '-'] ++ decimal z

/-- The text that is made with snprintf. For `deps` the top directory, which is put before, is left out. -/
def text (t : Tmp) : Str := dir ++ base t

/-- The sizes of the buffers: fuse_fs.c:194 with `int` of 4 bytes (`sizeof(TUP_TMP)` is the length of `dir`), master_fork.c:382, updater.c:2284, 2335, 2510 and 2710. For `deps`, PATH_MAX (depfile.c:275)
without the top directory `top` and the slash. -/
def size (top : Nat) : Tmp → Nat
  | .written _ => 4 * 2 + dir.length + 1
  | .output _ => 64
  | .errors _ => 64
  | .backup _ => 4096
  | .res _ => 32
  | .deps _ => 4096 - (top + 1)

/-- What is in the buffer after snprintf: one byte is for the NUL. -/
def stored (top : Nat) (t : Tmp) : Str := (text t).take (size top t - 1)

end Tup.TmpNames
