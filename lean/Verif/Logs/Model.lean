import Verif.Text

/-!
Model of the debug logs: src/tup/logging.c, with `save_graph` of src/tup/graph.c.

The files of the directory .tup/log are given by their names and contents (a number stands for a content).
-/

namespace Tup.Logs

/-- The directory .tup/log. -/
structure Dir where
  there : Bool
  file : Str → Option Nat

/-- `NUM_LOGS`, src/tup/logging.c:34. -/
def numLogs : Nat := 20

/-- `get_log`, src/tup/logging.c:41-48; the names are shorter than the buffer. -/
def getLog (name : Str) (n : Nat) : Str := name ++ '.' :: Nat.toDigits 10 n

/-- `unlinkat`: `none` for an error that is not ENOENT, which happens for the files in `bad`. -/
def unlink (bad : Str → Bool) (f : Str → Option Nat) (n : Str) : Option (Str → Option Nat) :=
  if (f n).isSome && bad n then none else some fun m => if m = n then none else f m

/-- `renameat`: the same, ENOENT being no error. -/
def rename (bad : Str → Bool) (f : Str → Option Nat) (a b : Str) : Option (Str → Option Nat) :=
  match f a with
  | none => some f
  | some c => if bad a then none else some fun m => if m = b then some c else if m = a then none else f m

/-- The loop, src/tup/logging.c:73-83; the flag is false for a return of -1. -/
def renames (bad : Str → Bool) (name : Str) : Nat → (Str → Option Nat) → (Str → Option Nat) × Bool
  | 0, f => (f, true)
  | i + 1, f =>
    match rename bad f (getLog name i) (getLog name (i + 1)) with
    | none => (f, false)
    | some f => renames bad name i f

/-- `rotate`, src/tup/logging.c:51-89. -/
def rotate (bad : Str → Bool) (name : Str) (d : Dir) : Dir × Bool :=
  if d.there then
    match unlink bad d.file (getLog name (numLogs - 1)) with
    | none => (d, false)
    | some f =>
      let r := renames bad name (numLogs - 1) f
      ({ d with file := r.1 }, r.2)
  else (d, true)

/-- `logging_enable`, src/tup/logging.c:91-138, where `log` is what is written to the log; the flag is `enabled`.  `mkdirat` and
`fopen` do not fail. -/
def enable (bad : Str → Bool) (log : Nat) (d : Dir) : Dir × Bool :=
  let r := rotate bad "debug.log".toList d
  if !r.2 then (r.1, false)
  else
    let r := rotate bad "create.dot".toList r.1
    if !r.2 then (r.1, false)
    else
      let r := rotate bad "update.dot".toList r.1
      if !r.2 then (r.1, false)
      else (⟨true, fun m => if m = "debug.log.0".toList then some log else r.1.file m⟩, true)

/-- `log_graph`, src/tup/logging.c:172-182, for the file in the directory. -/
def logGraph (name : Str) (content : Nat) (enabled : Bool) (d : Dir) : Dir :=
  if enabled then { d with file := fun m => if m = name ++ ".dot.0".toList then some content else d.file m } else d

/-- An update with logging: the log, and the graphs that it comes to.  src/tup/updater.c:169, 1526, 1661. -/
structure Run where
  log : Nat
  create : Option Nat
  update : Option Nat

def Run.go (bad : Str → Bool) (r : Run) (d : Dir) : Dir :=
  let e := enable bad r.log d
  let d := match r.create with
    | some c => logGraph "create".toList c e.2 e.1
    | none => e.1
  match r.update with
  | some u => logGraph "update".toList u e.2 d
  | none => d

/-! ### The name of a graph is a format -/

/-- `snprintf` in `save_graph`, src/tup/graph.c:936: the name of the file is the format, with two numbers.  `none`: undefined
behaviour, or a conversion that the model does not have. -/
def format : List Nat → Str → Option Str
  | _, [] => some []
  | args, '%' :: '%' :: s => (format args s).map ('%' :: ·)
  | a :: args, '%' :: 'i' :: s => (format args s).map (Nat.toDigits 10 a ++ ·)
  | a :: args, '%' :: 'd' :: s => (format args s).map (Nat.toDigits 10 a ++ ·)
  | _, '%' :: _ => none
  | args, c :: s => (format args s).map (c :: ·)

/-- The file that `log_graph` writes: src/tup/logging.c:176-180 and src/tup/graph.c:936-945.  The name fits. -/
def graphFile (pid count : Nat) (top name : Str) : Option Str :=
  format [pid, count] (top ++ "/.tup/log/".toList ++ name ++ ".dot.0".toList)

end Tup.Logs
