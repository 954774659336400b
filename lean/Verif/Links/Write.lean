import Verif.Links.Inputs

/-! How the links that a rule declares are written. -/

namespace Tup.Links

open Tup.Db

/-- What `do_rule`, src/tup/parser.c:3475-3726, has found out about a rule when it writes the links: the node of the command and
whether its string or flags are new (`command_modified`), the trees `input_root` and `tf->env_root` (which has been added to
`input_root`, parser.c:3694-3697), `output_root`, `exclusion_root`, and the group. -/
structure Rule where
  cmd : Nat
  modified : Bool := false
  inputs : List Nat
  env : List Nat := []
  outputs : List Nat
  exclusions : List Nat := []
  group : Option Nat := none

/-- `link_insert`, src/tup/db.c:6691-6776, for sticky links. -/
def insertSticky (db : Db) (a b : Nat) : Option Db :=
  if a = b ∨ a = 0 ∨ b = 0 ∨ db.sticky a b then none
  else some { db with sticky := fun x y => db.sticky x y || (decide (x = a) && decide (y = b)) }

/-- `link_remove`, src/tup/db.c:6778-6852, for sticky links. -/
def removeSticky (db : Db) (a b : Nat) : Db :=
  { db with sticky := fun x y => db.sticky x y && !(decide (x = a) && decide (y = b)) }

/-- `group_link_insert`, src/tup/db.c:6854-6908. -/
def insertGroup (db : Db) (a b c : Nat) : Option Db :=
  if a = b ∨ a = 0 ∨ b = 0 ∨ c = 0 ∨ db.group a b c then none
  else some { db with group := fun x y z => db.group x y z || (decide (x = a) && decide (y = b) && decide (z = c)) }

/-- `group_link_remove`, src/tup/db.c:6910-6955. -/
def removeGroup (db : Db) (a b c : Nat) : Db :=
  { db with group := fun x y z => db.group x y z && !(decide (x = a) && decide (y = b) && decide (z = c)) }

/-- `delete_group_links`, src/tup/db.c:6957-6992. -/
def deleteGroupLinks (db : Db) (c : Nat) : Db := { db with group := fun x y z => db.group x y z && !decide (z = c) }

/-- `delete_normal_inputs`, src/tup/db.c:3529-3563. -/
def deleteNormalInputs (db : Db) (c : Nat) : Db := { db with normal := fun x y => db.normal x y && !decide (y = c) }

/-- `get_outputs`, src/tup/db.c:4361-4426, in the order of the ids. -/
def linkedTo (db : Db) (c : Nat) : List Nat := (List.range db.top).filter fun b => db.normal c b

/-- The groups that the command writes to. -/
def oldGroups (db : Db) (c : Nat) : List Nat := (linkedTo db c).filter fun b => db.isKind .group b

/-- The old exclusions: links to nodes of the directory of the exclusions. -/
def oldExclusions (db : Db) (excl c : Nat) : List Nat :=
  (linkedTo db c).filter fun b => !db.isKind .group b && inDir db excl b

/-- The old outputs. -/
def oldOutputs (db : Db) (excl c : Nat) : List Nat :=
  (linkedTo db c).filter fun b => !db.isKind .group b && !inDir db excl b

/-- `tup_db_get_outputs`, src/tup/db.c:5469-5512: the outputs, the exclusions, and the group; more than one group is an
error.  `excl` is `local_exclusion_dt`. -/
def getOutputs (db : Db) (excl c : Nat) : Option (List Nat × List Nat × Option Nat) :=
  match oldGroups db c with
  | [] => some (oldOutputs db excl c, oldExclusions db excl c, none)
  | [g] => some (oldOutputs db excl c, oldExclusions db excl c, some g)
  | _ => none

/-- `struct parse_output_data`, src/tup/db.c:6268-6274, what changes. -/
structure Pod where
  db : Db
  differ : Bool

/-- A link to a group, if there is one. -/
def insertOpt (db : Db) (a : Nat) : Option Nat → Option Db
  | some g => insertLink db a g
  | none => some db

/-- The same for its removal. -/
def removeOpt (db : Db) (a : Nat) : Option Nat → Db
  | some g => removeLink db a g
  | none => db

/-- `add_output`, src/tup/db.c:6276-6299. -/
def addOutput (refactoring : Bool) (c : Nat) (g : Option Nat) (s : Pod) (i : Nat) : Option Pod :=
  if refactoring then some { s with differ := true }
  else do
    let db ← insertLink s.db c i
    let db ← insertOpt db i g
    some ⟨db, true⟩

/-- `rm_output`, src/tup/db.c:6301-6331. -/
def rmOutput (refactoring : Bool) (c : Nat) (g : Option Nat) (s : Pod) (i : Nat) : Option Pod :=
  if refactoring then some { s with differ := true }
  else
    let db := removeOpt (removeLink s.db c i) i g
    some ⟨if db.isKind .ghost i then db.addGhost i else db, true⟩

/-- Links from all those nodes to the group: src/tup/db.c:6368-6372. -/
def insertAll (g : Nat) : List Nat → Db → Option Db
  | [], db => some db
  | i :: l, db => do
    let db ← insertLink db i g
    insertAll g l db

/-- The links from the old outputs to the old group are removed, and the commands that use the outputs are scheduled:
src/tup/db.c:6383-6396. -/
def leaveAll (g : Nat) : List Nat → Db → Db
  | [], db => db
  | i :: l, db => leaveAll g l ((removeLink db i g).modifyByInput i)

/-- The new group, src/tup/db.c:6361-6375. -/
def joinGroup (r : Rule) (db : Db) : Option Db :=
  match r.group with
  | none => some db
  | some g => do
    let db ← insertAll g r.outputs db
    insertLink db r.cmd g

/-- The old group, src/tup/db.c:6376-6408. -/
def leaveGroup (r : Rule) (old : List Nat) (db : Db) : Option Nat → Db
  | none => db
  | some g => ((removeLink (leaveAll g old db) r.cmd g).addModify g).addGhost g

/-- The end of `tup_db_write_outputs`, src/tup/db.c:6414-6437. -/
def scheduleRule (r : Rule) (db : Db) : Db :=
  let db := db.addModify r.cmd
  let db := if (match db.node r.cmd with | some n => n.transient | none => false) then db.addTransient r.cmd else db
  match r.group with
  | some g => db.addModify g
  | none => db

/-- The first part of `tup_db_write_outputs`, src/tup/db.c:6353-6409. -/
def changeGroup (r : Rule) (old : List Nat) (oldGroup : Option Nat) (db : Db) : Option Pod :=
  if oldGroup = r.group then some ⟨db, r.modified⟩
  else (joinGroup r db).map fun db => ⟨leaveGroup r old db oldGroup, true⟩

/-- The group that does not change, if there is one: `pod.group`, src/tup/db.c:6357, and `wid.groupid`, 6021-6023. -/
def sameGroup (r : Rule) (oldGroup : Option Nat) : Option Nat := if oldGroup = r.group then r.group else none

/-- `tup_db_write_outputs`, src/tup/db.c:6333-6441.  The result has the old group. -/
def writeOutputs (refactoring : Bool) (excl : Nat) (r : Rule) (db : Db) : Option (Db × Option Nat) :=
  match getOutputs db excl r.cmd with
  | none => none
  | some (outs, excls, oldGroup) => do
    let s ← changeGroup r outs oldGroup db
    let s ← compare (rmOutput refactoring r.cmd (sameGroup r oldGroup)) (addOutput refactoring r.cmd (sameGroup r oldGroup)) outs r.outputs s
    let s ← compare (rmOutput refactoring r.cmd none) (addOutput refactoring r.cmd none) excls r.exclusions s
    if s.differ then
      if refactoring then none else some (scheduleRule r s.db, oldGroup)
    else some (s.db, oldGroup)

/-- `struct write_input_data`, src/tup/db.c:5899-5908, what changes; `new_groups` only says whether the groups are to be checked for
cycles later (src/tup/db.c:6065-6068). -/
structure Wid where
  db : Db
  invalid : Bool
  failed : Bool

/-- The group link of an input that is a group, src/tup/db.c:5922-5926. -/
def addGroupLink (db : Db) (c i : Nat) : Option Nat → Option Db
  | some g => if db.isKind .group i then insertGroup db i g c else some db
  | none => some db

/-- The link of a variable of the environment, src/tup/db.c:5928-5940. -/
def addEnvLink (db : Db) (c : Nat) (env : List Nat) (i : Nat) : Option Db :=
  if i ∈ env then (insertLink db i c).map (·.addModify c) else some db

/-- `add_sticky`, src/tup/db.c:5910-5942. -/
def addSticky (refactoring : Bool) (c : Nat) (env : List Nat) (g : Option Nat) (s : Wid) (i : Nat) : Option Wid :=
  if refactoring then some { s with failed := true }
  else do
    let db ← addGroupLink s.db c i g
    let db ← addEnvLink db c env i
    let db ← insertSticky db i c
    some { s with db := db }

/-- The end of that link, src/tup/db.c:5984-5990. -/
def rmGroupLink (db : Db) (c i : Nat) : Option Nat → Db
  | some g => removeGroup db i g c
  | none => db

/-- `rm_sticky`, src/tup/db.c:5944-5999. -/
def rmSticky (refactoring : Bool) (c : Nat) (g : Option Nat) (s : Wid) (i : Nat) : Option Wid :=
  if refactoring then some { s with failed := true }
  else
    let db := removeSticky s.db i c
    let db := if db.normal i c then (removeLink db i c).addModify c else db
    if db.isKind .group i then some { s with db := rmGroupLink (db.addGhost i) c i g, invalid := true }
    else some { s with db := db }

/-- src/tup/db.c:6035-6039 -/
def insertEnv (c : Nat) : List Nat → Db → Option Db
  | [], db => some db
  | i :: l, db => do
    let db ← insertLink db i c
    insertEnv c l db

/-- src/tup/db.c:6052-6061 -/
def insertGroups (c g : Nat) : List Nat → Db → Option Db
  | [], db => some db
  | i :: l, db => do
    let db ← addGroupLink db c i (some g)
    insertGroups c g l db

/-- After a group has been taken away, src/tup/db.c:6029-6040. -/
def forgetInputs (r : Rule) (invalid : Bool) (db : Db) : Option Db :=
  if invalid then insertEnv r.cmd r.env (deleteNormalInputs (db.addModify r.cmd) r.cmd) else some db

/-- If the group has changed, src/tup/db.c:6043-6062. -/
def changeGroupLinks (r : Rule) (oldGroup : Option Nat) (db : Db) : Option Db :=
  if oldGroup = r.group then some db
  else
    let db := if oldGroup.isSome then deleteGroupLinks db r.cmd else db
    match r.group with
    | some g => insertGroups r.cmd g r.inputs db
    | none => some db

/-- `tup_db_write_inputs`, src/tup/db.c:6001-6070.  Not modelled: `add_group_circ_check`, which only remembers the group. -/
def writeInputs (refactoring : Bool) (r : Rule) (oldGroup : Option Nat) (db : Db) : Option Db := do
  let s ← compare (addSticky refactoring r.cmd r.env (sameGroup r oldGroup)) (rmSticky refactoring r.cmd (sameGroup r oldGroup))
    r.inputs (stickyInputs db r.cmd) ⟨db, false, false⟩
  let db ← forgetInputs r s.invalid s.db
  let db ← changeGroupLinks r oldGroup db
  if s.failed then none else some db

/-- The end of `do_rule`, src/tup/parser.c:3718-3721. -/
def writeRule (refactoring : Bool) (excl : Nat) (r : Rule) (db : Db) : Option Db := do
  let (db, oldGroup) ← writeOutputs refactoring excl r db
  writeInputs refactoring r oldGroup db

end Tup.Links
