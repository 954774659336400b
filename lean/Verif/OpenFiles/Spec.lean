import Verif.OpenFiles.Model

/-! What C84 says: the files of a command behave like those of a private file system on top of the tree.  Nothing here refers to mappings, temporary files, or descriptors of tup. -/

namespace Tup.OpenFiles

open Tup (Str)

/-- The files that the command has made, by number; their names, which they may have lost; and the files that it has open.  An open file is `late` if as many were open before as tup keeps descriptors for. -/
structure OpenFile where
  obj : Obj
  wr : Bool
  late : Bool
deriving DecidableEq

structure Own where
  name : Str → Option Nat := fun _ => none
  made : Nat := 0
  data : Nat → File := fun _ => ⟨[], false, false, 0, 0⟩
  real : Str → Option File
  opened : List (Nat × OpenFile) := []
  ids : Nat := 0

/-- What a name stands for: a file the command has made, else one of the tree. -/
def Own.at (r : Own) (f : Str) : Option Obj :=
  match r.name f with
  | some i => some (.tmp i)
  | none => if (r.real f).isSome then some (.real f) else none

/-- The file itself. -/
def Own.file (r : Own) : Obj → Option File
  | .tmp i => some (r.data i)
  | .real f => r.real f

/-- The file is changed. -/
def Own.set (r : Own) (o : Obj) (x : File) : Own :=
  match o with
  | .tmp i => { r with data := fun j => if j = i then x else r.data j }
  | .real f => { r with real := fun g => if g = f then some x else r.real g }

/-- May the command change it? -/
def mine (ok : Str → Bool) : Obj → Bool
  | .tmp _ => true
  | .real f => ok f

/-- Open a file. -/
def Own.addOpen (c : Cfg) (r : Own) (o : Obj) (wr : Bool) : Own × Res :=
  ({ r with opened := r.opened ++ [(r.ids, ⟨o, wr, decide (c.max ≤ r.opened.length)⟩)], ids := r.ids + 1 }, .opened r.ids)

/-- What each operation does. -/
def Own.does (c : Cfg) (r : Own) : Op → Own × Res
  | .create f a w =>
    match r.at f with
    | some _ => (r, .fail)
    | none =>
      ({ r with name := fun g => if g = f then some r.made else r.name g, made := r.made + 1, data := fun i => if i = r.made then ⟨[], a, w, 0, 0⟩ else r.data i } : Own).addOpen c (.tmp r.made) true
  | .open f wr =>
    match r.at f with
    | none => (r, .fail)
    | some o =>
      match r.file o with
      | none => (r, .fail)
      | some x => if x.r && (!wr || (x.w && mine c.freeOpen o)) then r.addOpen c o wr else (r, .fail)
  | .read h off n =>
    match findHandle h r.opened with
    | none => (r, .fail)
    | some x =>
      match r.file x.obj with
      | none => (r, .fail)
      | some y => (r, .bytes (pread y.bytes off n))
  | .write h off b =>
    match findHandle h r.opened with
    | none => (r, .fail)
    | some x =>
      match r.file x.obj with
      | none => (r, .fail)
      | some y => if x.wr then (r.set x.obj { y with bytes := pwrite y.bytes off b }, .ok) else (r, .fail)
  | .release h =>
    match findHandle h r.opened with
    | none => (r, .fail)
    | some _ => ({ r with opened := r.opened.filter fun x => x.1 ≠ h }, .ok)
  | .unlink f =>
    match r.name f with
    | some _ => ({ r with name := fun g => if g = f then none else r.name g }, .ok)
    | none => (r, .fail)
  | .rename f g =>
    if f = g then (r, if (r.at f).isSome then .ok else .fail)
    else
      match r.name f with
      | some i => ({ r with name := fun x => if x = g then some i else if x = f then none else r.name x }, .ok)
      | none => (r, .fail)
  | .truncate f n =>
    match r.at f with
    | none => (r, .fail)
    | some o =>
      match r.file o with
      | none => (r, .fail)
      | some x => if x.w && mine c.free o then (r.set o { x with bytes := ftruncate x.bytes n }, .ok) else (r, .fail)
  | .chmod f a w =>
    match r.name f with
    | some i => (r.set (.tmp i) { r.data i with r := a, w := w }, .ok)
    | none => (r, .fail)
  | .chown f u =>
    match r.name f with
    | some i => (r.set (.tmp i) { r.data i with owner := u }, .ok)
    | none => (r, .fail)
  | .utimens f m =>
    match r.at f with
    | none => (r, .fail)
    | some o =>
      match r.file o with
      | none => (r, .fail)
      | some x => if mine c.free o then (r.set o { x with mtime := m }, .ok) else (r, .fail)
  | .link _ _ => (r, .fail)

/-- No file that is open late loses its name. -/
def Own.spares (r : Own) (f : Str) : Prop := ∀ i, r.name f = some i → ∀ x ∈ r.opened, x.2.obj = .tmp i → x.2.late = false

/-- The operations for which tup keeps to the private file system.  Left out: opening a file of the tree for writing, giving the name of a file that the command has made to one that it has not made, or that of an open file of the tree to one that it
has made; taking the names that libfuse uses for files that are removed while they are open; and for files that are open late: removing or replacing them, reading or writing them when their permissions forbid that by now, and writing them in the tree. -/
def Own.usual (c : Cfg) (r : Own) : Op → Prop
  | .open f wr => wr = true → r.at f = some (.real f) → c.freeOpen f = true
  | .read h _ _ => ∀ x, findHandle h r.opened = some x → x.late = true → ∀ y, r.file x.obj = some y → y.r = true
  | .write h _ _ => ∀ x, findHandle h r.opened = some x → x.late = true → x.wr = true → (∀ f, x.obj ≠ .real f) ∧ ∀ y, r.file x.obj = some y → y.w = true
  | .unlink f => r.spares f ∧ (r.name f = none → c.hid f = false)
  | .rename f g => f ≠ g → c.hid g = false ∧ r.spares g ∧ (r.name f = none → r.name g = none) ∧ (r.name g = none → ∀ x ∈ r.opened, x.2.obj ≠ .real g)
  | _ => True

/-- Any number of operations, all of them usual. -/
inductive Runs (c : Cfg) : Own → List Op → List Res → Own → Prop where
  | nil (r) : Runs c r [] [] r
  | cons {r o os rs r'} : r.usual c o → Runs c (r.does c o).1 os rs r' → Runs c r (o :: os) ((r.does c o).2 :: rs) r'

/-- The number of files that a process has open after these operations with these answers. -/
def openAfter : List Op → List Res → Int
  | o :: os, x :: xs =>
    (match o, x with
      | .create _ _ _, .opened _ => 1
      | .open _ _, .opened _ => 1
      | .release _, .ok => -1
      | _, _ => 0) + openAfter os xs
  | _, _ => 0

/-- At the beginning of a command: nothing is open, nothing is made. -/
def start (real : Str → Option File) : St := { real := real }

/-- The same for the private file system. -/
def Own.start (real : Str → Option File) : Own := { real := real }

end Tup.OpenFiles
