import Verif.FullScan.Frame

/-! What deletions leave, wherever it is. -/

namespace Tup.FullScan

open Tup.Db Tup.Scan

variable {db db' db1 db2 : Db} {d i j k : Nat}

/-- `db'` is `db` after some nodes have been deleted: what is still there is as before and has kept its place on the lists; and
the commands that are still there have been scheduled if a file that they read has been deleted. -/
structure Kept (db db' : Db) : Prop where
  row : ∀ j n', db'.node j = some n' → ∃ n, db.node j = some n ∧ n'.dir = n.dir ∧ n'.name = n.name ∧ n'.mtime = n.mtime ∧
    (n' = n ∨ n'.kind = .ghost)
  create : ∀ j n, db'.node j = some n → n.kind ≠ .ghost → db.create j = true → db'.create j = true
  modify : ∀ j n, db'.node j = some n → n.kind ≠ .ghost → n.kind ≠ .generated → db.modify j = true → db'.modify j = true
  normal : ∀ a b, db'.normal a b = true → db.normal a b = true
  link : ∀ f n j, db.node f = some n → n.kind = .file → n.name ≠ tupConfig → db'.isKind .cmd j = true → db.normal f j = true →
    db'.modify j = true ∨ (db'.node f = some n ∧ db'.normal f j = true)

theorem Kept.refl (db : Db) : Kept db db where
  row := fun _ n h => ⟨n, h, rfl, rfl, rfl, .inl rfl⟩
  create := fun _ _ _ _ h => h
  modify := fun _ _ _ _ _ h => h
  normal := fun _ _ h => h
  link := fun _ _ _ h _ _ _ hl => .inr ⟨h, hl⟩

/-- A row that is not a ghost is the same as before. -/
theorem Kept.same (h : Kept db db') {n : Node} (hn : db'.node j = some n) (hg : n.kind ≠ .ghost) : db.node j = some n := by
  obtain ⟨m, h1, _, _, _, h2⟩ := h.row j n hn
  rcases h2 with h2 | h2
  · rw [h2]; exact h1
  · exact absurd h2 hg

theorem Kept.trans (h : Kept db db1) (h' : Kept db1 db2) : Kept db db2 where
  row := fun j n' hn => by
    obtain ⟨m, h1, h2, h3, h4, h5⟩ := h'.row j n' hn
    obtain ⟨n, g1, g2, g3, g4, g5⟩ := h.row j m h1
    refine ⟨n, g1, h2.trans g2, h3.trans g3, h4.trans g4, ?_⟩
    rcases h5 with h5 | h5
    · rw [h5]; exact g5
    · exact .inr h5
  create := fun j n hn hg hc => h'.create j n hn hg (h.create j n (h'.same hn hg) hg hc)
  modify := fun j n hn hg hk hc => h'.modify j n hn hg hk (h.modify j n (h'.same hn hg) hg hk hc)
  normal := fun a b hl => h.normal a b (h'.normal a b hl)
  link := fun f n j hn hk hx hj hl => by
    obtain ⟨m, m1, m2⟩ := isKind_iff.1 hj
    have hg : m.kind ≠ .ghost := by rw [m2]; decide
    have hj1 := h'.same m1 hg
    rcases h.link f n j hn hk hx (isKind_iff.2 ⟨m, hj1, m2⟩) hl with h1 | ⟨h1, h2⟩
    · exact .inl (h'.modify j m m1 hg (by rw [m2]; decide) h1)
    · exact h'.link f n j h1 hk hx hj h2

/-- Lists that have become longer. -/
theorem kept_flags (hn : db'.node = db.node) (hl : db'.normal = db.normal) (hc : ∀ j, db.create j = true → db'.create j = true)
    (hm : ∀ j, db.isKind .generated j = false → db.modify j = true → db'.modify j = true) : Kept db db' where
  row := fun _ n h => ⟨n, by rw [← hn]; exact h, rfl, rfl, rfl, .inl rfl⟩
  create := fun j _ _ _ h => hc j h
  modify := fun j n h _ hk hmj => hm j (by
    cases hx : db.isKind .generated j with
    | false => rfl
    | true =>
      obtain ⟨m, h1, h2⟩ := isKind_iff.1 hx
      rw [hn, h1] at h
      cases h
      exact absurd h2 hk) hmj
  normal := fun a b h => by rw [← hl]; exact h
  link := fun f n j hf _ _ _ h => .inr ⟨by rw [hn]; exact hf, by rw [hl]; exact h⟩

/-- One node has been deleted. -/
theorem kept_of_eff (h : Eff (· = i) db db') (hg : Gone db' i)
    (ht : ∀ n', db'.node i = some n' → ∃ n, db.node i = some n ∧ n'.mtime = n.mtime)
    (hr : ∀ n, db.node i = some n → n.kind = .file → n.name ≠ tupConfig → ∀ j, j ≠ i → db'.isKind .cmd j = true →
      db.normal i j = true → db'.modify j = true) : Kept db db' where
  row := fun j n' hn' => by
    by_cases hj : j = i
    · rw [hj] at hn' ⊢
      obtain ⟨n, h1, h2, h3, _⟩ := h.sub i n' hn'
      obtain ⟨m, h4, h5⟩ := ht n' hn'
      rw [h1] at h4
      cases h4
      exact ⟨n, h1, h2, h3, h5, .inr (hg n' hn')⟩
    · rw [h.outside j hj] at hn'
      exact ⟨n', hn', rfl, rfl, rfl, .inl rfl⟩
  create := fun j n hn hk => h.create j fun hj => hk (hg n (by rw [← show j = i from hj]; exact hn))
  modify := fun j n hn hk _ => h.modify j fun hj => hk (hg n (by rw [← show j = i from hj]; exact hn))
  normal := h.normal'
  link := fun f n j hf hk hx hj hl => by
    have hji : j ≠ i := by
      intro hc
      obtain ⟨m, m1, m2⟩ := isKind_iff.1 hj
      rw [hc] at m1
      rw [hg m m1] at m2
      cases m2
    by_cases hfi : f = i
    · rw [hfi] at hf hl
      exact .inl (hr n hf hk hx j hji hj hl)
    · exact .inr ⟨by rw [h.outside f hfi]; exact hf, h.normal f j hfi hji hl⟩

theorem deleteNode_mtime {n' : Node} (h : (db.deleteNode i).node i = some n') : ∃ n, db.node i = some n ∧ n'.mtime = n.mtime := by
  unfold Db.deleteNode at h
  cases hn : db.node i with
  | none => rw [hn] at h; simp only at h; rw [hn] at h; cases h
  | some n =>
    rw [hn] at h
    simp only at h
    have hx : (db.addGhostOf n.src).node = db.node := by
      unfold Db.addGhostOf
      split <;> rfl
    generalize db.addGhostOf n.src = x at h hx
    split at h
    · have hy : (if n.kind = .dir then x.addCreate i else x).node = db.node := by
        split
        · exact hx
        · exact hx
      generalize (if n.kind = .dir then x.addCreate i else x) = y at h hy
      have h' : (if i = i then (if i = i then (y.node i).map (fun n => { n with kind := .ghost }) else y.node i).map
          (fun n => { n with src := none }) else _) = some n' := h
      rw [if_pos rfl, if_pos rfl, hy, hn] at h'
      cases h'
      exact ⟨n, rfl, rfl⟩
    · have h' : (if i = i then none else x.node i) = some n' := h
      rw [if_pos rfl] at h'
      cases h'

theorem deleteNameFile_mtime {n' : Node} (h : (db.deleteNameFile i).node i = some n') :
    ∃ n, db.node i = some n ∧ n'.mtime = n.mtime := by
  obtain ⟨n, h1, h2⟩ := deleteNode_mtime h
  refine ⟨n, ?_, h2⟩
  have : ((db.unflagAll i).deleteLinks i).node = db.node := by
    unfold Db.deleteLinks Db.flagGroupUsers
    split <;> rfl
  rw [this] at h1
  exact h1

theorem kept_delete (hk : ∀ n, db.node i = some n → n.kind ≠ .file) : Kept db (db.deleteNameFile i) :=
  kept_of_eff (eff_delete db i).1 (eff_delete db i).2 (fun _ => deleteNameFile_mtime) fun n hn hf => absurd hf (hk n hn)

theorem kept_delFile (db : Db) (i : Nat) (n : Node) (k : Kind) (force : Bool) : Kept db (delFile db i n k force) := by
  refine kept_of_eff (eff_delFile db i n k force).1 (eff_delFile db i n k force).2 ?_ ?_
  · intro n' hn'
    unfold delFile at hn'
    simp only at hn'
    obtain ⟨m, h1, h2⟩ := deleteNameFile_mtime hn'
    refine ⟨m, ?_, h2⟩
    split at h1
    · split at h1 <;> exact h1
    · split at h1 <;> exact h1
  · intro m hm _ _ j hj hjc hl
    refine delFile_flags.1 j hj hl (.inl ?_)
    rw [← (eff_delFile db i n k force).1.kind (show ¬ j = i from hj)]
    exact hjc

theorem kept_delDir (hk : ∀ n, db.node i = some n → n.kind ≠ .file) (n : Node) : Kept db (delDir db i n) := by
  refine kept_of_eff (eff_delDir db i n).1 (eff_delDir db i n).2 ?_ fun m hm hf => absurd hf (hk m hm)
  intro n' hn'
  unfold delDir at hn'
  simp only at hn'
  obtain ⟨m, h1, h2⟩ := deleteNameFile_mtime hn'
  refine ⟨m, ?_, h2⟩
  have hx : (tupfileReaders db i).node = db.node := by
    unfold tupfileReaders
    split <;> rfl
  generalize tupfileReaders db i = x at h1 hx
  rw [← hx]
  split at h1 <;> exact h1

/-- The entries that are left in a list still have the types that they had. -/
theorem kept_each {f : Db → Nat → Kind → Option Db}
    (hf : ∀ db i k db', (∀ n, db.node i = some n → n.kind = k ∨ n.kind = .ghost) → f db i k = some db' → Kept db db') :
    ∀ (l : List (Nat × Kind)) (db db' : Db), (∀ e ∈ l, ∀ n, db.node e.1 = some n → n.kind = e.2 ∨ n.kind = .ghost) →
      eachEntry f db l = some db' → Kept db db' := by
  intro l
  induction l with
  | nil =>
    intro db db' _ h
    cases h
    exact .refl _
  | cons e l ih =>
    obtain ⟨i, k⟩ := e
    intro db db' hl h
    rw [eachEntry] at h
    cases h1 : f db i k with
    | none => rw [h1] at h; cases h
    | some x =>
      rw [h1] at h
      have hx := hf db i k x (hl (i, k) (List.mem_cons_self ..)) h1
      refine hx.trans (ih x db' ?_ h)
      intro e he n hn
      obtain ⟨m, m1, _, _, _, m2⟩ := hx.row e.1 n hn
      rcases m2 with m2 | m2
      · rw [m2]; exact hl e (List.mem_cons_of_mem _ he) m m1
      · exact .inr m2

theorem entries_kind {e : Nat × Kind} (h : e ∈ entries db d) {n : Node} (hn : db.node e.1 = some n) : n.kind = e.2 := by
  unfold entries at h
  obtain ⟨i, _, h2⟩ := List.mem_filterMap.1 h
  cases hi : db.node i with
  | none => rw [hi] at h2; cases h2
  | some m =>
    rw [hi] at h2
    simp only at h2
    split at h2
    · cases h2
      rw [hn] at hi
      cases hi
      rfl
    · cases h2

theorem kept_del {sort : List (Nat × Kind) → List (Nat × Kind)} (hsort : ∀ l, (sort l).Perm l) (fuel : Nat) :
    ∀ (db : Db) (i : Nat) (k : Kind) (force : Bool) (db' : Db), (∀ n, db.node i = some n → n.kind = k ∨ n.kind = .ghost) →
      del sort fuel db i k force = some db' → Kept db db' := by
  induction fuel with
  | zero => intro _ _ _ _ _ _ h; cases h
  | succ fuel ih =>
    intro db i k force db' hk h
    rw [del] at h
    cases hn : db.node i with
    | none => rw [hn] at h; cases h
    | some n =>
      rw [hn] at h
      simp only at h
      by_cases hx : n.name = tupConfig
      · rw [if_pos hx] at h
        cases h
        refine kept_of_eff ((eff_setKind i).trans (eff_addConfig i)) ?_ ?_ ?_
        · intro m hm
          have hm' : (if i = i then (db.node i).map (fun n => { n with kind := .ghost }) else db.node i) = some m := hm
          rw [if_pos rfl, hn] at hm'
          cases hm'
          rfl
        · intro m hm
          have hm' : (if i = i then (db.node i).map (fun n => { n with kind := .ghost }) else db.node i) = some m := hm
          rw [if_pos rfl, hn] at hm'
          cases hm'
          exact ⟨n, hn, rfl⟩
        · intro m hm _ hmx
          rw [hn] at hm
          cases hm
          exact absurd hx hmx
      rw [if_neg hx] at h
      have hnf : k ≠ .file → ∀ m, db.node i = some m → m.kind ≠ .file := by
        intro hkf m hm
        rcases hk m hm with h1 | h1
        · rw [h1]; exact hkf
        · rw [h1]; decide
      cases k with
      | ghost => cases h; exact .refl _
      | group => cases h; exact .refl _
      | file => cases h; exact kept_delFile ..
      | generated =>
        simp only at h
        cases force with
        | true => cases h; exact kept_delFile ..
        | false =>
          cases h
          show Kept db (missingGenerated db i n)
          unfold missingGenerated
          split
          · exact kept_flags rfl rfl (fun _ h => or_left' h) fun _ _ h => h
          · by_cases hgen : n.kind = .generated
            · refine kept_flags rfl rfl (fun _ h => h) fun j hj h => ?_
              have hji : j ≠ i := by
                rintro rfl
                rw [isKind_iff.2 ⟨n, hn, hgen⟩] at hj
                cases hj
              show ((db.modify j || db.normal j i) && !decide (j = i)) = true
              rw [h]; simp [hji]
            · have hgh : n.kind = .ghost := (hk n hn).resolve_left hgen
              refine ⟨fun _ n h => ⟨n, h, rfl, rfl, rfl, .inl rfl⟩, fun _ _ _ _ h => h, fun j m hm hg _ h => ?_, fun _ _ h => h,
                fun _ _ _ h _ _ _ hl => .inr ⟨h, hl⟩⟩
              have hji : j ≠ i := by
                rintro rfl
                have hm' : db.node j = some m := hm
                rw [hn] at hm'
                cases hm'
                exact hg hgh
              show ((db.modify j || db.normal j i) && !decide (j = i)) = true
              rw [h]; simp [hji]
      | generatedDir =>
        simp only at h
        have h1 : Kept db (if force then ((srcidDirFlags db i).setKind i .ghost).addGhost i else db) := by
          split
          · refine kept_of_eff (((eff_srcid i).trans (eff_setKind i)).trans (eff_addGhost i)) ?_ ?_ ?_
            · intro m hm
              have hm' : (if i = i then (db.node i).map (fun n => { n with kind := .ghost }) else db.node i) = some m := hm
              rw [if_pos rfl, hn] at hm'
              cases hm'
              rfl
            · intro m hm
              have hm' : (if i = i then (db.node i).map (fun n => { n with kind := .ghost }) else db.node i) = some m := hm
              rw [if_pos rfl, hn] at hm'
              cases hm'
              exact ⟨n, hn, rfl⟩
            · intro m hm hf
              exact absurd hf (hnf (by decide) m hm)
          · exact .refl _
        refine h1.trans (kept_each (fun db i k db' => ih db i k force db') _ _ _ ?_ h)
        intro e he m hm
        exact .inl (entries_kind ((hsort _).mem_iff.1 he) hm)
      | dir =>
        simp only at h
        have h1 : Kept db (srcidDirFlags db i) := kept_flags rfl rfl (fun _ h => or_left' h) fun _ _ h => h
        cases he : eachEntry (fun db j k => del sort fuel db j k (force || decide (k ≠ .dir))) (srcidDirFlags db i)
            (sort (entries (srcidDirFlags db i) i)) with
        | none => rw [he] at h; cases h
        | some x =>
          rw [he] at h
          cases h
          have h2 : Kept (srcidDirFlags db i) x := by
            refine kept_each (fun db i k db' => ih db i k _ db') _ _ _ ?_ he
            intro e he m hm
            exact .inl (entries_kind ((hsort _).mem_iff.1 he) hm)
          refine (h1.trans h2).trans (kept_delDir ?_ n)
          intro m hm
          obtain ⟨q, q1, _, _, _, q2⟩ := (h1.trans h2).row i m hm
          rcases q2 with q2 | q2
          · rw [q2]; exact hnf (by decide) q q1
          · rw [q2]; decide
      | cmd => cases h; exact kept_delete (hnf (by decide))
      | var => cases h; exact kept_delete (hnf (by decide))
      | root => cases h; exact kept_delete (hnf (by decide))

end Tup.FullScan
