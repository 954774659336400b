import Verif.Links.Compare
import Verif.Db.Model
import Verif.Graph.Model

/-! What is recorded about the files a command has read. -/

namespace Tup.Links

open Tup.Db

/-- `link_insert`, src/tup/db.c:6691-6776, for normal links: a link from a node to itself, a link of node 0 and a link
that is already there (the primary key of the table) are errors. -/
def insertLink (db : Db) (a b : Nat) : Option Db :=
  if a = b ∨ a = 0 ∨ b = 0 ∨ db.normal a b then none
  else some { db with normal := fun x y => db.normal x y || (decide (x = a) && decide (y = b)) }

/-- `link_remove`, src/tup/db.c:6778-6852, for normal links. -/
def removeLink (db : Db) (a b : Nat) : Db :=
  { db with normal := fun x y => db.normal x y && !(decide (x = a) && decide (y = b)) }

/-- `get_normal_inputs`, src/tup/db.c:5514-5582; in the order of the ids, as the tree keeps them. -/
def normalInputs (db : Db) (c : Nat) : List Nat := (List.range db.top).filter fun a => db.normal a c

/-- `get_sticky_inputs`, src/tup/db.c:5584-5636 (the cached copy of src/tup/db.c:5714-5745 holds the same rows). -/
def stickyInputs (db : Db) (c : Nat) : List Nat := (List.range db.top).filter fun a => db.sticky a c

/-- The groups among them. -/
def groupInputs (db : Db) (c : Nat) : List Nat := (stickyInputs db c).filter fun a => db.isKind .group a

/-- Does the node live in that directory? -/
def inDir (db : Db) (d a : Nat) : Bool :=
  match db.node a with
  | some n => decide (n.dir = d)
  | none => false

/-- The tree `normal_root` when the command has finished: the recorded inputs without the environment variables
among the declared inputs, which `tup_db_get_environ`, src/tup/db.c:5223-5256, takes out. -/
def recordedInputs (db : Db) (env c : Nat) : List Nat :=
  (normalInputs db c).filter fun a => !(db.sticky a c && inDir db env a)

/-- What the callbacks change: `struct actual_input_data`, src/tup/db.c:6072-6080. -/
structure Inp where
  db : Db
  missing : List Nat
  important : Bool

/-- What the check is about: the command, the variant of each node (`none`: the root variant), the trees. -/
structure Cmd where
  id : Nat
  variant : Nat → Option Nat
  sticky : List Nat
  groups : List Nat
  outputs : List Nat

/-- `new_input`, src/tup/db.c:6082-6103. -/
def newInput (c : Cmd) (s : Inp) (a : Nat) : Option Inp :=
  if a ∈ c.outputs then some s
  else if c.variant a ≠ none ∧ c.variant a ≠ c.variant c.id then none
  else if s.db.isKind .generated a then some { s with missing := s.missing ++ [a] }
  else some s

/-- `new_normal_link`, src/tup/db.c:6105-6125. -/
def newNormalLink (c : Cmd) (s : Inp) (a : Nat) : Option Inp :=
  if a ∈ c.outputs then some s
  else if a ∈ s.missing then some s
  else if s.db.isKind .cmd a then none
  else
    match insertLink s.db a c.id with
    | some db => some { s with db := db }
    | none => none

/-- `del_normal_link`, src/tup/db.c:6127-6148. -/
def delNormalLink (c : Cmd) (s : Inp) (a : Nat) : Option Inp :=
  let s := if s.db.isKind .generated a then { s with important := true } else s
  let db := removeLink s.db a c.id
  some { s with db := if a ∈ c.sticky then db else db.addGhost a }

/-- The links that `nodes_are_connected` follows (`tup_db_select_node_by_link`, src/tup/db.c:4428-4446): all normal
links from the node. -/
def linksFrom (db : Db) (a : Nat) : List Nat := (List.range db.top).filter fun b => db.normal a b

/-- All ids. -/
def allIds (db : Db) : List Nat := (List.range db.top).filter fun a => a ≠ 0

/-- The loop of `check_generated_inputs`, src/tup/db.c:6161-6182: those of the given inputs that are left.  An error of
`nodes_are_connected` (a cycle) leaves the rest as it is. -/
def checkGenerated (db : Db) (c : Cmd) : List Nat → List Nat
  | [] => []
  | a :: l =>
    if c.groups.any fun g => db.normal a g then checkGenerated db c l
    else
      match Tup.Graph.nodesAreConnected (linksFrom db) 0 (allIds db) a fun v => decide (v ∈ c.sticky) with
      | none => a :: l
      | some true => checkGenerated db c l
      | some false => a :: checkGenerated db c l

/-- `tup_db_check_actual_inputs`, src/tup/db.c:6198-6240, called by `update_read_info`, src/tup/file.c:872.  `read` is what
the command has read, in the order of the ids.  The result has the tables, whether the check succeeds
(it is an error if an input is still missing; an error of `nodes_are_connected` also leaves one), and
`important_link_removed`; `none` is an error that stops the check half way. -/
def checkInputs (db : Db) (env cmd : Nat) (variant : Nat → Option Nat) (outputs read : List Nat) :
    Option (Db × Bool × Bool) :=
  let c : Cmd := ⟨cmd, variant, stickyInputs db cmd, groupInputs db cmd, outputs⟩
  match compare (newInput c) (fun s _ => some s) read c.sticky ⟨db, [], false⟩ with
  | none => none
  | some s =>
    let missing := checkGenerated s.db c s.missing
    match compare (newNormalLink c) (delNormalLink c) read (recordedInputs db env cmd) { s with missing := missing } with
    | none => none
    | some s => some (s.db, missing.isEmpty, s.important)

/-- `tup_db_check_config_inputs`, src/tup/db.c:6242-6266: the same second step for a tup.config that is a
link to or is read through other files. -/
def checkConfigInputs (db : Db) (t : Nat) (read : List Nat) : Option Db :=
  let c : Cmd := ⟨t, fun _ => none, stickyInputs db t, [], []⟩
  match compare (newNormalLink c) (delNormalLink c) read (normalInputs db t) ⟨db, [], false⟩ with
  | none => none
  | some s => some s.db

end Tup.Links
