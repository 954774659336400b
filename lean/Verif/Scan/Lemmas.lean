import Verif.Scan.Spec

/-! The effect of deletions. -/

namespace Tup.Scan

open Db

variable {B B' : Nat → Prop} {db db' db'' : Db}

theorem Eff.refl (B : Nat → Prop) (db : Db) : Eff B db db where
  top := rfl
  outside := fun _ _ => rfl
  sub := fun _ n' h => ⟨n', h, rfl, rfl, .inl ⟨rfl, rfl⟩⟩
  create := fun _ _ h => h
  modify := fun _ _ h => h
  config := fun _ _ h => h
  normal := fun _ _ _ _ h => h
  normal' := fun _ _ h => h
  rooted := fun _ h => h

/-- If no row goes away, every node still lies in a node. -/
theorem rooted_keep (hs : ∀ j n', db'.node j = some n' → ∃ n, db.node j = some n ∧ n'.dir = n.dir)
    (hk : ∀ j n, db.node j = some n → (db'.node j).isSome) (h : Rooted db) : Rooted db' := by
  intro j n' hn'
  obtain ⟨n, h1, h2⟩ := hs j n' hn'
  rw [h2]
  rcases h j n h1 with h3 | h3
  · exact .inl h3
  · obtain ⟨m, hm⟩ := Option.isSome_iff_exists.1 h3
    exact .inr (hk _ m hm)

theorem Eff.bounded (h : Eff B db db') (hb : Bounded db) : Bounded db' := by
  intro i hi
  cases hn : db'.node i with
  | none => rfl
  | some n =>
    obtain ⟨m, h1, _⟩ := h.sub i n hn
    rw [hb i (by rw [← h.top]; exact hi)] at h1
    cases h1

theorem Eff.trans (h : Eff B db db') (h' : Eff B db' db'') : Eff B db db'' where
  top := h'.top.trans h.top
  outside := fun j hj => (h'.outside j hj).trans (h.outside j hj)
  sub := fun j n' hn => by
    obtain ⟨m, h1, h2, h3, h4⟩ := h'.sub j n' hn
    obtain ⟨n, g1, g2, g3, g4⟩ := h.sub j m h1
    refine ⟨n, g1, h2.trans g2, h3.trans g3, ?_⟩
    rcases h4 with ⟨h4, h5⟩ | h4
    · rcases g4 with ⟨g4, g5⟩ | g4
      · exact .inl ⟨h4.trans g4, h5.trans g5⟩
      · exact .inr (h4.trans g4)
    · exact .inr h4
  create := fun j hj hc => h'.create j hj (h.create j hj hc)
  modify := fun j hj hc => h'.modify j hj (h.modify j hj hc)
  config := fun j hj hc => h'.config j hj (h.config j hj hc)
  normal := fun a b ha hb hc => h'.normal a b ha hb (h.normal a b ha hb hc)
  normal' := fun a b hc => h.normal' a b (h'.normal' a b hc)
  rooted := fun hb hr => h'.rooted (h.bounded hb) (h.rooted hb hr)

theorem Eff.mono (h : Eff B db db') (hB : ∀ j, B j → B' j) : Eff B' db db' where
  top := h.top
  outside := fun j hj => h.outside j fun hb => hj (hB j hb)
  sub := h.sub
  create := fun j hj => h.create j fun hb => hj (hB j hb)
  modify := fun j hj => h.modify j fun hb => hj (hB j hb)
  config := fun j hj => h.config j fun hb => hj (hB j hb)
  normal := fun a b ha hb' => h.normal a b (fun hb => ha (hB a hb)) fun hb => hb' (hB b hb)
  normal' := h.normal'
  rooted := h.rooted

theorem Eff.kind (h : Eff B db db') {j : Nat} (hj : ¬ B j) (k : Kind) : db'.isKind k j = db.isKind k j :=
  isKind_congr (h.outside j hj) k

theorem Eff.ranked {r : Nat → Nat} (h : Eff B db db') (hr : Ranked r db) : Ranked r db' := by
  intro i n hn
  obtain ⟨m, h1, h2, _⟩ := h.sub i n hn
  rw [h2]
  exact hr i m h1

theorem Eff.below (h : Eff B db db') {i j : Nat} (hb : Below db' i j) : Below db i j := by
  induction hb with
  | refl => exact .refl
  | step hn _ ih =>
    obtain ⟨m, h1, h2, _⟩ := h.sub _ _ hn
    exact .step h1 (by rw [← h2]; exact ih)

theorem Eff.gone (h : Eff B db db') {i : Nat} (hg : Gone db i) : Gone db' i := by
  intro n hn
  obtain ⟨m, h1, _, _, h2⟩ := h.sub i n hn
  rcases h2 with h2 | h2
  · rw [h2.1]; exact hg m h1
  · exact h2

theorem Below.trans {i j k : Nat} (h : Below db i j) (h' : Below db j k) : Below db i k := by
  induction h' with
  | refl => exact h
  | step hn _ ih => exact .step hn ih

theorem Inside.isBelow {i j : Nat} {b : Bool} (h : Inside db i b j) : Below db i j := by
  induction h with
  | refl => exact .refl
  | dir hn _ _ _ _ ih => exact .step hn ih
  | generated hn _ _ _ _ ih => exact .step hn ih

theorem Below.rank {r : Nat → Nat} (hr : Ranked r db) {i j : Nat} (h : Below db i j) : j = i ∨ r i < r j := by
  induction h with
  | refl => exact .inl rfl
  | step hn _ ih =>
    right
    have := hr _ _ hn
    rcases ih with ih | ih
    · rw [ih] at this; exact this
    · omega

/-- Something that lies below two nodes: one of them lies below the other. -/
theorem Below.comparable {i i' j : Nat} (h : Below db i j) (h' : Below db i' j) : Below db i i' ∨ Below db i' i := by
  induction h with
  | refl => exact .inr h'
  | step hn h1 ih =>
    cases h' with
    | refl => exact .inl (.step hn h1)
    | step hn' h1' =>
      rw [hn] at hn'
      cases hn'
      exact ih h1'

/-- Two entries of one directory have nothing below them in common. -/
theorem Below.disjoint {r : Nat → Nat} (hr : Ranked r db) {i c c' j : Nat} {n n' : Node} (hc : db.node c = some n) (hd : n.dir = i)
    (hc' : db.node c' = some n') (hd' : n'.dir = i) (h : Below db c j) (h' : Below db c' j) : c = c' := by
  have key : ∀ {a b : Nat} {x y : Node}, db.node a = some x → x.dir = i → db.node b = some y → y.dir = i →
      Below db a b → a = b := by
    intro a b x y ha hx hb hy hab
    cases hab with
    | refl => rfl
    | step hn h1 =>
      rw [hb] at hn
      cases hn
      rw [hy] at h1
      have h2 := hr a x ha
      rw [hx] at h2
      rcases h1.rank hr with h3 | h3
      · rw [h3] at h2; omega
      · omega
  rcases h.comparable h' with g | g
  · exact key hc hd hc' hd' g
  · exact (key hc' hd' hc hd g).symm

/-! ### The operations -/

theorem eff_setKind (i : Nat) : Eff (· = i) db (db.setKind i .ghost) where
  top := rfl
  outside := fun j hj => by
    show (if j = i then _ else db.node j) = _
    rw [if_neg hj]
  sub := fun j n' h => by
    have h' : (if j = i then (db.node j).map (fun n => { n with kind := .ghost }) else db.node j) = some n' := h
    split at h'
    · obtain ⟨n, h1, h2⟩ := Option.map_eq_some_iff.1 h'
      subst h2
      exact ⟨n, h1, rfl, rfl, .inr rfl⟩
    · exact ⟨n', h', rfl, rfl, .inl ⟨rfl, rfl⟩⟩
  create := fun _ _ h => h
  modify := fun _ _ h => h
  config := fun _ _ h => h
  normal := fun _ _ _ _ h => h
  normal' := fun _ _ h => h
  rooted := fun _ => rooted_keep (fun j n' h => by
      have h' : (if j = i then (db.node j).map (fun n => { n with kind := .ghost }) else db.node j) = some n' := h
      split at h'
      · obtain ⟨n, h1, h2⟩ := Option.map_eq_some_iff.1 h'
        subst h2
        exact ⟨n, h1, rfl⟩
      · exact ⟨n', h', rfl⟩) (fun j n h => by
      show (if j = i then (db.node j).map (fun n => { n with kind := .ghost }) else db.node j).isSome
      rw [h]
      split <;> rfl)

/-- A change that only schedules more. -/
theorem eff_flags (hn : db'.node = db.node) (ht : db'.top = db.top) (hl : db'.normal = db.normal)
    (hc : ∀ j, db.create j = true → db'.create j = true) (hm : ∀ j, ¬ B j → db.modify j = true → db'.modify j = true)
    (hf : ∀ j, db.config j = true → db'.config j = true) :
    Eff B db db' where
  top := ht
  outside := fun j _ => by rw [hn]
  sub := fun j n' h => ⟨n', by rw [← hn]; exact h, rfl, rfl, .inl ⟨rfl, rfl⟩⟩
  create := fun j _ h => hc j h
  modify := fun j hj h => hm j hj h
  config := fun j _ h => hf j h
  normal := fun a b _ _ h => by rw [hl]; exact h
  normal' := fun a b h => by rw [← hl]; exact h
  rooted := fun _ h => by
    intro j n hj
    rw [hn] at hj ⊢
    exact h j n hj

theorem or_left' {a b : Bool} (h : a = true) : (a || b) = true := by rw [h]; rfl

theorem eff_create (i : Nat) : Eff B db (db.addCreate i) :=
  eff_flags rfl rfl rfl (fun _ h => or_left' h) (fun _ _ h => h) (fun _ h => h)

theorem eff_createByInput (i : Nat) : Eff B db (db.createByInput i) :=
  eff_flags rfl rfl rfl (fun _ h => or_left' h) (fun _ _ h => h) (fun _ h => h)

theorem eff_dependent (i : Nat) : Eff B db (db.dependentFlags i) :=
  eff_flags rfl rfl rfl (fun _ h => or_left' h) (fun _ _ h => h) (fun _ h => or_left' h)

theorem eff_modifyByInput (i : Nat) : Eff B db (db.modifyByInput i) :=
  eff_flags rfl rfl rfl (fun _ h => h) (fun _ _ h => or_left' h) (fun _ h => h)

theorem eff_srcid (i : Nat) : Eff B db (srcidDirFlags db i) :=
  eff_flags rfl rfl rfl (fun _ h => or_left' h) (fun _ _ h => h) (fun _ h => h)

theorem eff_addGhost (i : Nat) : Eff B db (db.addGhost i) :=
  eff_flags rfl rfl rfl (fun _ h => h) (fun _ _ h => h) (fun _ h => h)

theorem eff_addConfig (i : Nat) : Eff B db (db.addConfig i) :=
  eff_flags rfl rfl rfl (fun _ h => h) (fun _ _ h => h) (fun _ h => or_left' h)

theorem eff_missing (i : Nat) (n : Node) : Eff (· = i) db (missingGenerated db i n) := by
  unfold missingGenerated
  split
  · exact eff_create _
  · refine eff_flags rfl rfl rfl (fun _ h => h) (fun j hj h => ?_) (fun _ h => h)
    show ((db.modify j || db.normal j i) && !decide (j = i)) = true
    rw [h]
    simp [hj]

theorem eff_unflag (i : Nat) : Eff (· = i) db (db.unflagAll i) where
  top := rfl
  outside := fun _ _ => rfl
  sub := fun _ n' h => ⟨n', h, rfl, rfl, .inl ⟨rfl, rfl⟩⟩
  create := fun j hj h => by
    show (db.create j && !decide (j = i)) = true
    rw [h]; simp [hj]
  modify := fun j hj h => by
    show (db.modify j && !decide (j = i)) = true
    rw [h]; simp [hj]
  config := fun j hj h => by
    show (db.config j && !decide (j = i)) = true
    rw [h]; simp [hj]
  normal := fun _ _ _ _ h => h
  normal' := fun _ _ h => h
  rooted := fun _ h => h

theorem eff_links (i : Nat) : Eff (· = i) db (db.deleteLinks i) := by
  have h1 : Eff (· = i) db (db.ghostChecks i) :=
    eff_flags rfl rfl rfl (fun _ h => h) (fun _ _ h => h) (fun _ h => h)
  have h2 : Eff (· = i) (db.ghostChecks i) ((db.ghostChecks i).flagGroupUsers i) := by
    unfold Db.flagGroupUsers
    split
    · exact eff_flags rfl rfl rfl (fun _ h => or_left' h) (fun _ _ h => h) (fun _ h => h)
    · exact .refl _ _
  have h3 : ∀ x : Db, Eff (· = i) x (x.dropLinks i) := fun x => {
    top := rfl
    outside := fun _ _ => rfl
    sub := fun _ n' h => ⟨n', h, rfl, rfl, .inl ⟨rfl, rfl⟩⟩
    create := fun _ _ h => h
    modify := fun _ _ h => h
    config := fun _ _ h => h
    normal := fun a b ha hb h => by
      show (x.normal a b && !decide (a = i) && !decide (b = i)) = true
      rw [h]; simp [ha, hb]
    normal' := fun a b h => by
      have h' : (x.normal a b && !decide (a = i) && !decide (b = i)) = true := h
      rw [Bool.and_eq_true, Bool.and_eq_true] at h'
      exact h'.1.1
    rooted := fun _ h => h }
  exact (h1.trans h2).trans (h3 _)

theorem eff_deleteNode (i : Nat) : Eff (· = i) db (db.deleteNode i) ∧ Gone (db.deleteNode i) i := by
  unfold Db.deleteNode
  cases hn : db.node i with
  | none =>
    refine ⟨.refl _ _, ?_⟩
    intro n h
    have h' : db.node i = some n := h
    rw [hn] at h'
    cases h'
  | some n =>
    simp only
    have h1 : Eff (· = i) db (db.addGhostOf n.src) := by
      unfold Db.addGhostOf
      split
      · exact eff_addGhost _
      · exact .refl _ _
    generalize db.addGhostOf n.src = x at h1
    split
    · have h2 : Eff (· = i) x (if n.kind = .dir then x.addCreate i else x) := by
        split
        · exact eff_create _
        · exact .refl _ _
      generalize (if n.kind = .dir then x.addCreate i else x) = y at h2
      have hd : ∀ (z : Db) j, j ≠ i → ((z.setKind i .ghost).setSrc i none).node j = z.node j := by
        intro z j hj
        show (if j = i then _ else if j = i then _ else z.node j) = _
        rw [if_neg hj, if_neg hj]
      have hi : ∀ (z : Db) m, ((z.setKind i .ghost).setSrc i none).node i = some m →
          ∃ b, z.node i = some b ∧ m = { b with kind := .ghost, src := none } := by
        intro z m hm
        have hm' : (if i = i then (if i = i then (z.node i).map (fun n => { n with kind := .ghost }) else z.node i).map
          (fun n => { n with src := none }) else _) = some m := hm
        rw [if_pos rfl, if_pos rfl] at hm'
        obtain ⟨a, ha, rfl⟩ := Option.map_eq_some_iff.1 hm'
        obtain ⟨b, hb, rfl⟩ := Option.map_eq_some_iff.1 ha
        exact ⟨b, hb, rfl⟩
      refine ⟨(h1.trans h2).trans ?_, ?_⟩
      · exact {
          top := rfl
          outside := fun j hj => hd y j hj
          sub := fun j n' h => by
            by_cases hj : j = i
            · subst hj
              obtain ⟨b, hb, rfl⟩ := hi y n' h
              exact ⟨b, hb, rfl, rfl, .inr rfl⟩
            · rw [hd y j hj] at h
              exact ⟨n', h, rfl, rfl, .inl ⟨rfl, rfl⟩⟩
          create := fun _ _ h => h
          modify := fun _ _ h => h
          config := fun _ _ h => h
          normal := fun _ _ _ _ h => h
          normal' := fun _ _ h => h
          rooted := fun _ => rooted_keep (fun j n' h => by
              by_cases hj : j = i
              · subst hj
                obtain ⟨b, hb, rfl⟩ := hi y n' h
                exact ⟨b, hb, rfl⟩
              · rw [hd y j hj] at h
                exact ⟨n', h, rfl⟩) (fun j n h => by
              by_cases hj : j = i
              · subst hj
                show (if j = j then (if j = j then (y.node j).map _ else _).map _ else _).isSome
                rw [if_pos rfl, if_pos rfl, h]
                rfl
              · rw [hd y j hj, h]
                rfl) }
      · intro m hm
        obtain ⟨b, _, rfl⟩ := hi y m hm
        rfl
    · rename_i hgh
      have hd : ∀ j, j ≠ i → ((({ x with node := fun j => if j = i then none else x.node j } : Db).delGhost i).addGhost
          n.dir).node j = x.node j := by
        intro j hj
        show (if j = i then _ else x.node j) = _
        rw [if_neg hj]
      have hi : ((({ x with node := fun j => if j = i then none else x.node j } : Db).delGhost i).addGhost
          n.dir).node i = none := by
        show (if i = i then none else x.node i) = _
        rw [if_pos rfl]
      refine ⟨h1.trans {
          top := rfl
          outside := fun j hj => hd j hj
          sub := fun j n' h => by
            by_cases hj : j = i
            · subst hj
              rw [hi] at h
              cases h
            · rw [hd j hj] at h
              exact ⟨n', h, rfl, rfl, .inl ⟨rfl, rfl⟩⟩
          create := fun _ _ h => h
          modify := fun _ _ h => h
          config := fun _ _ h => h
          normal := fun _ _ _ _ h => h
          normal' := fun _ _ h => h
          rooted := fun hb hr j n' h => by
            by_cases hj : j = i
            · subst hj
              rw [hi] at h
              cases h
            · rw [hd j hj] at h
              rcases hr j n' h with h2 | h2
              · exact .inl h2
              · right
                rw [hd]
                · exact h2
                · intro hc
                  refine hgh ((anyNode_iff hb).2 ⟨j, n', h, ?_⟩)
                  simp [hc] }, ?_⟩
      intro m hm
      rw [hi] at hm
      cases hm

theorem eff_delete (db : Db) (i : Nat) : Eff (· = i) db (db.deleteNameFile i) ∧ Gone (db.deleteNameFile i) i :=
  ⟨((eff_unflag i).trans (eff_links i)).trans (eff_deleteNode i).1, (eff_deleteNode i).2⟩

theorem eff_delFile (db : Db) (i : Nat) (n : Node) (k : Kind) (force : Bool) :
    Eff (· = i) db (delFile db i n k force) ∧ Gone (delFile db i n k force) i := by
  unfold delFile
  have h1 : Eff (· = i) db (if k = .file then db.dependentFlags i else db) := by
    split
    · exact eff_dependent i
    · exact .refl _ _
  simp only
  generalize (if k = .file then db.dependentFlags i else db) = x at h1
  have h2 : Eff (· = i) (x.modifyByInput i) (if force then x.modifyByInput i else (x.modifyByInput i).addCreate n.dir) := by
    split
    · exact .refl _ _
    · exact eff_create _
  exact ⟨((h1.trans (eff_modifyByInput i)).trans h2).trans (eff_delete _ i).1, (eff_delete _ i).2⟩

theorem eff_delDir (db : Db) (i : Nat) (n : Node) : Eff (· = i) db (delDir db i n) ∧ Gone (delDir db i n) i := by
  unfold delDir
  simp only
  have h1 : Eff (· = i) db (tupfileReaders db i) := by
    unfold tupfileReaders
    split
    · exact eff_createByInput _
    · exact .refl _ _
  generalize tupfileReaders db i = x at h1
  have h2 : Eff (· = i) x (if x.isKind .dir n.dir then x.addCreate n.dir else x) := by
    split
    · exact eff_create _
    · exact .refl _ _
  exact ⟨((h1.trans h2).trans (eff_dependent i)).trans (eff_delete _ i).1, (eff_delete _ i).2⟩

end Tup.Scan
