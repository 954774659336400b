import Verif.Symlink.Spec

/-!
Model of `tup variant`: `create_variant` and `variant` of src/tup/tup/main.c, on a file system as in `Verif.Symlink.Spec`.
-/

namespace Tup.MkVariant

open Tup.Symlink (Fs)

/-- The disk: a file system, which objects are directories, what `readdir` lists, the top directory of the project, and a number from
which on no objects exist. -/
structure Disk where
  fs : Fs
  isDir : Nat → Bool
  names : Nat → List Str
  top : Nat
  next : Nat

/-- `mkdir` of a name that does not exist yet in the top directory. -/
def Disk.mkdir (k : Disk) (n : Str) : Disk where
  fs := { k.fs with
    parent := fun i => if i = k.next then k.top else k.fs.parent i
    entry := fun d m => if d = k.top ∧ m = n then some k.next else k.fs.entry d m }
  isDir := fun i => if i = k.next then true else k.isDir i
  names := fun d => if d = k.top then n :: k.names d else k.names d
  top := k.top
  next := k.next + 1

/-- `symlink` in the directory `D` for a name that does not exist yet in it. -/
def Disk.symlink (k : Disk) (D : Nat) (n t : Str) : Disk where
  fs := { k.fs with
    parent := fun i => if i = k.next then D else k.fs.parent i
    entry := fun d m => if d = D ∧ m = n then some k.next else k.fs.entry d m
    link := fun i => if i = k.next then some t else k.fs.link i }
  isDir := k.isDir
  names := fun d => if d = D then n :: k.names d else k.names d
  top := k.top
  next := k.next + 1

/-- The name of the file, src/tup/tup/main.c:820-825. -/
def fileName (config : Str) : Str := (config.reverse.takeWhile (· ≠ '/')).reverse

/-- The name of the directory, src/tup/tup/main.c:827-834, with a buffer of `PATH_MAX`. -/
def dirName (config : Str) : Str := ("build-".toList ++ (fileName config).takeWhile (· ≠ '.')).take 4095

/-- `dir_empty`, src/tup/tup/main.c:790-809: files whose name begins with a dot are not seen. -/
def dirEmpty (names : List Str) : Bool := names.all fun n => n.head? = some '.'

/-- The text of the link, src/tup/tup/main.c:856-866; `sub` is empty in the top directory. -/
def linkText (sub config : Str) : Str :=
  if sub ≠ [] then "../".toList ++ sub ++ "/".toList ++ config else "../".toList ++ config

/-- src/tup/tup/main.c:840-855.  `mkdir` fails if the name is there, whatever it is, and if the name is longer than 255
characters.  `chdir` is that of the kernel, from the top directory. -/
def makeDir (chdir : Disk → Str → Option Nat) (k : Disk) (n : Str) : Disk × Bool :=
  if n.length > 255 then (k, false)
  else match k.fs.entry k.top n with
    | none => (k.mkdir n, true)
    | some _ =>
      match chdir k n with
      | none => (k, false)
      | some D => (k, dirEmpty (k.names D))

/-- `create_variant`, src/tup/tup/main.c:811-890, not for Windows; the flag is false for an error.  `symlink` follows what is at the
name of the directory, and fails if there is a tup.config already. -/
def createVariant (chdir : Disk → Str → Option Nat) (sub config : Str) (k : Disk) : Disk × Bool :=
  let n := dirName config
  let r := makeDir chdir k n
  if !r.2 then r
  else if (linkText sub config).length ≥ 4096 then (r.1, false)
  else if (n ++ "/tup.config".toList).length ≥ 4096 then (r.1, false)
  else match chdir r.1 n with
    | none => (r.1, false)
    | some D =>
      if (r.1.fs.entry D "tup.config".toList).isSome then (r.1, false)
      else (r.1.symlink D "tup.config".toList (linkText sub config), true)

/-- The loop of `variant`, src/tup/tup/main.c:903-906. -/
def variants (chdir : Disk → Str → Option Nat) (sub : Str) : List Str → Disk → Disk × Bool
  | [], k => (k, true)
  | c :: cs, k =>
    let r := createVariant chdir sub c k
    if r.2 then variants chdir sub cs r.1 else (r.1, false)

end Tup.MkVariant
