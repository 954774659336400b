import Verif.Scan.Model

/-! `tup_db_create_node_part_display`: the node with that name becomes one of that type. -/

namespace Tup.Links

open Tup.Db

/-- The change of a ghost into another type, src/tup/db.c:1011-1052. -/
def upgradeGhost (db : Db) (i : Nat) (kind : Kind) (src : Option Nat) : Db :=
  if kind = .ghost then db
  else
    let db := if kind = .var then db.addCreate i
      else if kind = .generated then ((db.createByInput i).modifyByInput i).deleteLinks i
      else db
    ((db.addModify i).setKind i kind).setSrc i src

/-- `tup_db_set_flags`, src/tup/db.c:2137-2185, for the flag 't'. -/
def setTransient (db : Db) (i : Nat) (t : Bool) : Db :=
  { db with node := fun j => if j = i then (db.node j).map fun n => { n with transient := t } else db.node j }

/-- `tup_db_create_node_part_display`, src/tup/db.c:999-1139, for files, directories, ghosts and variables.  The first
argument bounds the depth of the recursion (`none`: it is deeper, or there is an error).  Left out are the
removal of a variant (1054-1069) and the change of upper and lower case on Windows. -/
def createNode (sort : List (Nat × Kind) → List (Nat × Kind)) :
    Nat → Db → Nat → Str → Kind → Option Nat → Bool → Option (Db × Nat)
  | 0, _, _, _, _, _, _ => none
  | fuel + 1, db, d, name, kind, src, trans =>
    match db.select d name with
    | none =>
      let (db, i) := db.insertNode { dir := d, kind := kind, name := name, src := src, transient := trans }
      some (if kind = .dir then db.addCreate i else db, i)
    | some i =>
      match db.node i with
      | none => none
      | some n =>
        if n.kind = .ghost then some (upgradeGhost db i kind src, i)
        else if n.kind ≠ kind ∧ ¬ (n.kind = .generatedDir ∧ kind = .dir) then
          match Scan.del sort fuel db i n.kind true with
          | none => none
          | some db => createNode sort fuel db d name kind src trans
        else
          let db := match src with
            | some s => db.setSrc i (some s)
            | none => db
          some (setTransient db i trans, i)

/-- A directory or file with the name of a group makes it call itself without end: groups are not deleted
(src/tup/create_name_file.c:339-344). -/
theorem createNode_group (sort : List (Nat × Kind) → List (Nat × Kind)) {db : Db} {d i : Nat} {name : Str} {n : Node}
    (hs : db.select d name = some i) (hn : db.node i = some n) (hg : n.kind = .group) (ht : n.name ≠ Scan.tupConfig)
    {kind : Kind} (hk : kind ≠ .group) (src : Option Nat) (trans : Bool) :
    ∀ fuel, createNode sort fuel db d name kind src trans = none := by
  intro fuel
  induction fuel with
  | zero => rfl
  | succ fuel ih =>
    have hk' : Kind.group ≠ kind := fun h => hk h.symm
    have hd : Scan.del sort fuel db i .group true = some db ∨ Scan.del sort fuel db i .group true = none := by
      cases fuel with
      | zero => right; rfl
      | succ f => left; simp [Scan.del, hn, ht]
    unfold createNode
    simp only [hs, hn, hg]
    rw [if_neg (show ¬ Kind.group = .ghost from by decide)]
    rw [if_pos ⟨hk', fun h => by cases h.1⟩]
    rcases hd with hd | hd
    · rw [hd]; exact ih
    · rw [hd]

end Tup.Links
