import Verif.Links.Inputs
import Verif.Links.Create

/-! What is done with the files that a command has written. -/

namespace Tup.Links

open Tup.Db

/-- A file that the command has written (an entry of `write_list`): its path; what `get_path_elements` says about it;
whether it matches an exclusion pattern of the command (`exclusion_match`, src/tup/entry.c:812-829); and the
directory and name that `find_dir_tupid_dt_pg` finds for it (`none`: the directory is not in the database).  Path
names are the subject of C11 to C13. -/
structure Written where
  path : Str
  hidden : Bool := false
  excluded : Bool := false
  outside : Bool := false
  dir : Option Nat
  name : Str

/-- A file that lies in a temporary place, and where it belongs: `struct mapping`, src/tup/file.h. -/
structure Map where
  tmp : Str
  real : Str
  node : Option Nat := none
deriving DecidableEq

/-- What is done to the files. -/
inductive Act where
  | unlink (path : Str)
  | deleteFile (node : Nat)
  | rename (tmp real : Str)
deriving DecidableEq

/-- What `update_write_info` works on: `struct file_info` without the list of written files, the tree `root`,
`write_bork`, and the actions so far. -/
structure Out where
  db : Db
  maps : List Map
  root : List Nat
  bork : Bool
  acts : List Act

/-- The node of a written file, src/tup/file.c:741-756. -/
def nodeOf (db : Db) (w : Written) : Option Nat :=
  match w.dir with
  | some d => db.select d w.name
  | none => none

/-- `create_ignored_file`, src/tup/file.c:645-691.  Simplified: if the directory is not in the database the code makes
directories first; here nothing is done. -/
def createIgnored (sort : List (Nat × Kind) → List (Nat × Kind)) (fuel : Nat) (db : Db) (w : Written) : Option Db :=
  match w.dir with
  | none => some db
  | some d =>
    if (match db.select d w.name with
      | some i => db.isKind .generated i
      | none => false) then none
    else (createNode sort fuel db d w.name (if w.outside then .ghost else .file) none false).map (·.1)

/-- `tent_tree_add_dup`: the tree is kept in the order of the ids. -/
def addId (i : Nat) : List Nat → List Nat
  | [] => [i]
  | j :: l => if i < j then i :: j :: l else if i = j then j :: l else j :: addId i l

/-- The mapping with that name is removed, the first one only: src/tup/file.c:767-772. -/
def dropMap (p : Map → Bool) : List Map → List Map
  | [] => []
  | m :: l => if p m then l else m :: dropMap p l

/-- The mappings with that name get the node; if there is none, one is added that does not move anything:
src/tup/file.c:780-805. -/
def setMap (path : Str) (i : Nat) (l : List Map) : List Map :=
  if l.any fun m => decide (m.real = path) then l.map fun m => if m.real = path then { m with node := some i } else m
  else l ++ [⟨path, path, some i⟩]

/-- The other entries for the same path are removed, src/tup/file.c:733-738. -/
def otherPaths (path : Str) (l : List Written) : List Written := l.filter fun r => r.path ≠ path

/-- The loop of `update_write_info`, src/tup/file.c:703-809. -/
def writeLoop (sort : List (Nat × Kind) → List (Nat × Kind)) (fuel : Nat) (doUnlink : Bool) :
    List Written → Out → Option Out
  | [], s => some s
  | w :: l, s =>
    if w.hidden then writeLoop sort fuel doUnlink l s
    else if w.excluded then
      match createIgnored sort fuel s.db w with
      | none => none
      | some db => writeLoop sort fuel doUnlink l { s with db := db }
    else
      match nodeOf s.db w with
      | none => writeLoop sort fuel doUnlink (otherPaths w.path l)
          { s with
            bork := true
            acts := if doUnlink then s.acts ++ [.unlink w.path] else s.acts
            maps := dropMap (fun m => decide (m.real = w.path)) s.maps }
      | some i => writeLoop sort fuel doUnlink (otherPaths w.path l)
          { s with root := addId i s.root, maps := setMap w.path i s.maps }
  termination_by l => l.length
  decreasing_by
    all_goals
      simp only [List.length_cons]
    · omega
    · omega
    · exact Nat.lt_succ_of_le (List.length_filter_le _ _)
    · exact Nat.lt_succ_of_le (List.length_filter_le _ _)

/-- `extra_output`, src/tup/db.c:5795-5844. -/
def extraOutput (doUnlink : Bool) (s : Out) (i : Nat) : Option Out :=
  let s := { s with bork := true, maps := dropMap (fun m => decide (m.node = some i)) s.maps }
  some <|
    if doUnlink then
      if s.db.isKind .ghost i then { s with acts := s.acts ++ [.deleteFile i] }
      else if s.db.isKind .generated i then { s with db := s.db.modifyByOutput i }
      else s
    else s

/-- `missing_output`, src/tup/db.c:5846-5865; it is only called if the command was successful. -/
def missingOutput (complain : Bool) (s : Out) (_ : Nat) : Option Out :=
  some (if complain then { s with bork := true } else s)

/-- The last loop of `update_write_info`, src/tup/file.c:814-833, with `file_set_mtime`, 453-470.  `moved` says which renames
succeed, `stat` gives the time of the file (`none`: an error, or a FIFO). -/
def moveMaps (moved : Str → Bool) (stat : Str → Option (Int × Int)) : List Map → Out → Option Out
  | [], s => some s
  | m :: l, s =>
    let s := if m.tmp = m.real then s
      else { s with acts := s.acts ++ [.rename m.tmp m.real], bork := s.bork || !moved m.real }
    match m.node with
    | none => moveMaps moved stat l s
    | some i =>
      match stat m.real with
      | none => none
      | some t => moveMaps moved stat l { s with db := s.db.setMtime i t }

/-- The disk as `update_write_info` sees it. -/
structure Disk where
  moved : Str → Bool
  stat : Str → Option (Int × Int)

/-- `update_write_info`, src/tup/file.c:693-840.  `success` is `check_only == CHECK_SUCCESS`.  The result is an error if
`bork` is set or it is `none`. -/
def updateWriteInfo (sort : List (Nat × Kind) → List (Nat × Kind)) (fuel : Nat) (disk : Disk) (doUnlink success : Bool)
    (outputs : List Nat) (written : List Written) (maps : List Map) (db : Db) : Option Out :=
  match writeLoop sort fuel doUnlink written ⟨db, maps, [], false, []⟩ with
  | none => none
  | some s =>
    match compare (extraOutput doUnlink) (missingOutput success) s.root outputs s with
    | none => none
    | some s => moveMaps disk.moved disk.stat s.maps s

/-- How the command ended: `s->exited`, `s->exit_status`, `s->signalled`, src/tup/updater.c:2622-2648. -/
inductive Ended where
  | exited (status : Int)
  | signalled
  | unknown
deriving DecidableEq

/-- What the command did, as recorded by the server. -/
structure Trace where
  written : List Written
  unlinked : List Str
  maps : List Map
  read : List (Str × Nat)
  tmpdirs : List (Str × Bool)

/-- `handle_unlink`, src/tup/file.c:623-643: files that were removed again are neither written nor read. -/
def handleUnlink (t : Trace) : Trace :=
  { t with
    written := t.written.filter fun w => decide (w.path ∉ t.unlinked)
    read := t.read.filter fun r => decide (r.1 ∉ t.unlinked)
    unlinked := [] }

/-- The set of the read nodes, in the order of their ids. -/
def idSet (l : List Nat) : List Nat := l.foldl (fun s i => addId i s) []

/-- `write_files`, src/tup/file.c:232-313, for a command that was not killed, and the decision of `process_output`,
src/tup/updater.c:2622-2648: is the command accepted?  `tmpdirs` are the directories that the command made and did not
remove, with whether they match an exclusion.  Simplified: the nodes of the read files are given (`add_node_to_tree`,
file.c:334-400), and the paths that match an exclusion are left out of `read` already. -/
def accepts (sort : List (Nat × Kind) → List (Nat × Kind)) (fuel : Nat) (disk : Disk) (doUnlink : Bool) (env cmd : Nat)
    (variant : Nat → Option Nat) (outputs : List Nat) (ended : Ended) (t : Trace) (db : Db) : Bool :=
  match ended with
  | .exited 0 =>
    let t := handleUnlink t
    if t.tmpdirs.any fun d => !d.2 then false
    else
      match updateWriteInfo sort fuel disk doUnlink true outputs t.written t.maps db with
      | none => false
      | some s =>
        match checkInputs s.db env cmd variant outputs (idSet (t.read.map (·.2))) with
        | none => false
        | some (_, ok, _) => !s.bork && ok
  | _ => false

end Tup.Links
