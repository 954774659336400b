import Verif.Db.Model

/-!
Model of the removal of entries that are not needed any more at the end of a transaction, src/tup/db.c:7080-7460.
-/

namespace Tup.Ghosts

open Db

/-- Is there an id for which `p` holds?  (All ids in the tables are below the bound.) -/
def anyId (db : Db) (p : Nat → Bool) : Bool := (List.range db.top).any p

/-- `ghost_reclaimable`, src/tup/db.c:7150-7177, with the statements 7184 (`exclusion_reclaimable`), 7233 and 7288
(`group_reclaimable1`, `2`), 7347 and 7402 (`ghost_reclaimable1`, `2`).  `ex` is `exclusion_dt()`. -/
def reclaimable (ex : Nat) (db : Db) (i : Nat) (n : Node) : Bool :=
  if n.dir = ex then !anyId db fun j => db.normal j i
  else if n.kind = .ghost ∨ n.kind = .generatedDir then !db.hasGhosts i && !anyId db fun j => db.normal i j
  else (!anyId db fun j => db.normal i j || db.normal j i) && !anyId db fun j => db.sticky i j

/-- `TUP_CONFIG`, src/tup/config.h. -/
def tupConfig : Str := "tup.config".toList

/-- What one round of the loop can do. -/
inductive Round where
  | done (db : Db)
  /-- "shouldn't be type", 7110-7114 -/
  | internalError
  | next (db : Db) (tmp : Nat → Bool)

/-- One round of the loop in `reclaim_ghosts`, src/tup/db.c:7100-7145; `db.ghosts` is `ghost_root`.  The directory
that `rm_generated_dir` removes from the disk (7133) is not modelled. -/
def round (ex : Nat) (db : Db) (tmp : Nat → Bool) : Round :=
  match (List.range db.top).find? db.ghosts with
  | none => .done db
  | some i =>
    match db.node i with
    | none => .internalError
    | some n =>
      if db.ghosty i then
        let db := db.delGhost i
        let (db, tmp) :=
          if reclaimable ex db i n && decide (n.name ≠ tupConfig) then
            let tmp := fun j => tmp j && !decide (j = i)
            let db := db.delGhost n.dir
            let tmp := fun j => tmp j || (decide (j = n.dir) && db.ghosty n.dir)
            (db.deleteNameFile i, tmp)
          else (db, tmp)
        if anyId db db.ghosts then .next db tmp else .next { db with ghosts := tmp } fun _ => false
      else .internalError

/-- The loop, for at most that many rounds; `none`: more are needed. -/
def loop (ex : Nat) : Nat → Db → (Nat → Bool) → Option Round
  | 0, _, _ => none
  | k + 1, db, tmp =>
    match round ex db tmp with
    | .next db tmp => loop ex k db tmp
    | r => some r

/-- `reclaim_ghosts`, src/tup/db.c:7080-7148: the loop runs until the set is empty. -/
def Reclaims (ex : Nat) (db db' : Db) : Prop := ∃ k, loop ex k db (fun _ => false) = some (.done db')

end Tup.Ghosts
