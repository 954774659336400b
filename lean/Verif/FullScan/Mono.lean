import Verif.FullScan.Watch

/-! The result of a scan does not depend on the bound. -/

namespace Tup.FullScan

open Tup.Db Tup.Scan

variable {sort : List (Nat × Kind) → List (Nat × Kind)} {order : List Nat → List Nat} {db : Db} {d i : Nat} {name : Str} {fuel : Nat}

theorem fileMissing_mono {x : Db} (h : fileMissing sort fuel db i = some x) : fileMissing sort (fuel + 1) db i = some x := by
  unfold fileMissing at h ⊢
  cases hn : db.node i with
  | none => rw [hn] at h; cases h
  | some n => rw [hn] at h; exact del_mono sort fuel _ _ _ _ _ h

theorem missing_mono (l : List Nat) : ∀ (db x : Db), missing sort fuel db l = some x → missing sort (fuel + 1) db l = some x := by
  induction l with
  | nil => exact fun _ _ h => h
  | cons a l ih =>
    intro db x h
    rw [missing] at h ⊢
    cases h1 : fileMissing sort fuel db a with
    | none => rw [h1] at h; cases h
    | some y => rw [h1] at h; rw [fileMissing_mono h1]; exact ih y x h

theorem createNode_mono (fuel : Nat) : ∀ (db : Db) (d : Nat) (name : Str) (k : Kind) (src : Option Nat) (b : Bool) (x : Db × Nat),
    Links.createNode sort fuel db d name k src b = some x → Links.createNode sort (fuel + 1) db d name k src b = some x := by
  induction fuel with
  | zero => intro _ _ _ _ _ _ _ h; cases h
  | succ fuel ih =>
    intro db d name k src b x h
    rw [Links.createNode] at h ⊢
    cases hs : db.select d name with
    | none => rw [hs] at h; exact h
    | some i =>
      rw [hs] at h
      simp only at h ⊢
      cases hn : db.node i with
      | none => rw [hn] at h; cases h
      | some n =>
        rw [hn] at h
        simp only at h ⊢
        split at h
        · rename_i hk; rw [if_pos hk]; exact h
        · rename_i hk
          rw [if_neg hk]
          split at h
          · rename_i hk'
            rw [if_pos hk']
            cases hd : del sort fuel db i n.kind true with
            | none => rw [hd] at h; cases h
            | some y =>
              rw [hd] at h
              rw [del_mono sort fuel _ _ _ _ _ hd]
              exact ih _ _ _ _ _ _ _ h
          · rename_i hk'
            rw [if_neg hk']
            exact h

theorem fileMod_mono {t : Int × Int} {force ign : Bool} {x : Db × Nat × Bool} (h : fileMod sort fuel db d name t force ign = some x) :
    fileMod sort (fuel + 1) db d name t force ign = some x := by
  unfold fileMod at h ⊢
  cases hs : db.select d name with
  | none =>
    rw [hs] at h
    simp only at h ⊢
    cases hc : createNameFile fuel db d name t with
    | none => rw [hc] at h; cases h
    | some y => rw [hc] at h; rw [createNameFile_mono hc]; exact h
  | some i =>
    rw [hs] at h
    simp only at h ⊢
    cases hn : db.node i with
    | none => rw [hn] at h; cases h
    | some n =>
      rw [hn] at h
      simp only at h ⊢
      cases hk : n.kind with
      | ghost => rw [hk] at h; exact h
      | file => rw [hk] at h; exact h
      | generated => rw [hk] at h; exact h
      | _ =>
        rw [hk] at h
        simp only at h ⊢
        split at h
        · cases h
        rename_i y hd
        rw [del_mono sort fuel _ _ _ _ _ hd]
        simp only at h ⊢
        cases hs' : y.select d name with
        | none =>
          rw [hs'] at h
          simp only at h ⊢
          cases hc : createNameFile fuel y d name t with
          | none => rw [hc] at h; cases h
          | some z => rw [hc] at h; rw [createNameFile_mono hc]; exact h
        | some j => rw [hs'] at h; exact h

theorem watch_mono (l : Listing) : ∀ (db : Db) (d : Nat) (root : List Nat) (x : Db × List Nat),
    watch sort order fuel db d root l = some x → watch sort order (fuel + 1) db d root l = some x := by
  induction l with
  | nil => exact fun _ _ _ _ h => h
  | file a t rest ih =>
    intro db d root x h
    rw [watch] at h ⊢
    split at h
    · rename_i ha; rw [if_pos ha]; exact ih _ _ _ _ h
    · rename_i ha
      rw [if_neg ha]
      split at h
      · rename_i y _ _ hy
        rw [fileMod_mono hy]
        exact ih _ _ _ _ h
      · cases h
  | dir a sub rest ih1 ih2 =>
    intro db d root x h
    rw [watch] at h ⊢
    split at h
    · rename_i ha; rw [if_pos ha]; exact ih2 _ _ _ _ h
    · rename_i ha
      rw [if_neg ha]
      split at h
      · cases h
      rename_i y k hy
      rw [createNode_mono _ _ _ _ _ _ _ _ hy]
      simp only
      split at h
      · cases h
      rename_i z left hz
      rw [ih1 _ _ _ _ hz]
      simp only
      split at h
      · cases h
      rename_i w hw
      rw [missing_mono _ _ _ hw]
      exact ih2 _ _ _ _ h
  | other a rest ih =>
    intro db d root x h
    rw [watch] at h ⊢
    exact ih _ _ _ _ h

theorem scan_mono {l : Listing} {x : Db} (h : scan sort order fuel db l = some x) : scan sort order (fuel + 1) db l = some x := by
  unfold scan at h ⊢
  split at h
  · cases h
  rename_i y left hy
  rw [watch_mono _ _ _ _ _ hy]
  exact missing_mono _ _ _ h

theorem scan_le {l : Listing} {x : Db} {fuel' : Nat} (hle : fuel ≤ fuel') (h : scan sort order fuel db l = some x) :
    scan sort order fuel' db l = some x := by
  obtain ⟨c, rfl⟩ := Nat.le.dest hle
  induction c with
  | zero => exact h
  | succ c ih => exact scan_mono (ih (by omega))

end Tup.FullScan
