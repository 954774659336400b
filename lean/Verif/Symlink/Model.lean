import Verif.Text

/-!
Model of what is recorded when a file is read through a symbolic link: `get_symlink` and `add_symlinks`,
src/tup/file.c:94-144, in `handle_file`, src/tup/file.c:174-195.  They serve the reads of the parser itself (Tupfiles,
included files) and those that a command reports through the preloaded library; the FUSE server sees links itself.

What the kernel says about links is given by a function; see `Reads` in the specification.  Windows is not modelled.
-/

namespace Tup.Symlink

/-- `PATH_MAX` on Linux. -/
def pathMax : Nat := 4096

/-- `get_symlink` can find no link, find the path of what it points to, or write behind the end of its buffer. -/
inductive Link where
  | none
  | path (p : Str)
  | undefined
deriving DecidableEq, Repr

/-- The part of a path up to and with its last slash, and nothing if there is none: `strrchr`, src/tup/file.c:111-123. -/
def dirPart (s : Str) : Str := (s.reverse.dropWhile (· ≠ '/')).reverse

/-- `get_symlink`, src/tup/file.c:94-126.  `readlink` is `readlinkat` from the top of the project for a buffer that
is large enough; at most `PATH_MAX` characters are delivered, and the NUL behind that many is outside of the buffer
(file.c:99-102).  An empty text is the same as an error (file.c:100). -/
def getSymlink (readlink : Str → Option Str) (filename : Str) : Link :=
  match readlink filename with
  | .none => .none
  | some text =>
    let buf := text.take pathMax
    if buf = [] then .none
    else if buf.length = pathMax then .undefined
    else if buf.head? = some '/' then .path buf
    else if '/' ∈ filename then .path (dirPart filename ++ buf)
    else .path buf

/-- What a read adds to the list: `handle_file` with `ACCESS_READ`, src/tup/file.c:174-195, `handle_open_file`, 197-230
(the entries go to the end of the list), `add_symlinks`, 128-144.  `none`: undefined behaviour. -/
def handleRead (readlink : Str → Option Str) (list : List Str) (filename : Str) : Option (List Str) :=
  match getSymlink readlink filename with
  | .none => some (list ++ [filename])
  | .path p => some (list ++ [filename] ++ [p])
  | .undefined => .none

end Tup.Symlink
