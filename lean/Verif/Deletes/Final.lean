import Verif.Deletes.Lemmas

/-! What the deletions after the parsing do. -/

namespace Tup.Deletes

open Tup.Db Tup.Links Tup.DoRule

/-- Nothing changes but what concerns the nodes of the list. -/
structure Cut (l : List Nat) (db db' : Db) : Prop where
  node : ∀ j, j ∉ l → db'.node j = db.node j
  normal : ∀ a b, a ∉ l → b ∉ l → db'.normal a b = db.normal a b

/-- The nodes of the list are gone, or ghosts. -/
def Dead (l : List Nat) (db : Db) : Prop := ∀ i ∈ l, ∀ m, db.node i = some m → m.kind = .ghost

theorem deleteNode_dead (db : Db) (i : Nat) : ∀ m, (db.deleteNode i).node i = some m → m.kind = .ghost := by
  unfold Db.deleteNode
  cases hn : db.node i with
  | none => intro m h; simp only [hn] at h; cases h
  | some n =>
    obtain ⟨g, hg⟩ : ∃ g, db.addGhostOf n.src = { db with ghosts := g } := by
      cases n.src with
      | none => exact ⟨db.ghosts, rfl⟩
      | some s => exact ⟨_, rfl⟩
    simp only [hg]
    intro m h
    split at h
    · split at h
      · simp only [Db.setSrc, Db.setKind, Db.addCreate, hn] at h
        simp at h
        rw [← h]
      · simp only [Db.setSrc, Db.setKind, hn] at h
        simp at h
        rw [← h]
    · simp [Db.addGhost, Db.delGhost] at h

theorem deleteNameFile_cut (db : Db) (i : Nat) : Cut [i] db (db.deleteNameFile i) ∧ Dead [i] (db.deleteNameFile i) := by
  obtain ⟨h1, _, _, _, h2, _⟩ := deleteNode_spec ((db.unflagAll i).deleteLinks i) i
  obtain ⟨k1, _, _, k2, _⟩ := deleteLinks_spec (db.unflagAll i) i
  refine ⟨⟨fun j hj => ?_, fun a b ha hb => ?_⟩, fun j hj m h => ?_⟩
  · show (((db.unflagAll i).deleteLinks i).deleteNode i).node j = _
    rw [h2 j (by simpa using hj), k2]
    rfl
  · show (((db.unflagAll i).deleteLinks i).deleteNode i).normal a b = _
    rw [h1, k1]
    simp only [List.mem_singleton] at ha hb
    simp only [ha, hb, decide_false, Bool.not_false, Bool.and_true]
    rfl
  · rw [List.mem_singleton] at hj
    subst hj
    exact deleteNode_dead _ j m h

theorem cut_trans {l l' : List Nat} {db db' db'' : Db} (h : Cut l db db') (h' : Cut l' db' db'') : Cut (l ++ l') db db'' := by
  refine ⟨fun j hj => ?_, fun a b ha hb => ?_⟩
  · simp only [List.mem_append, not_or] at hj
    rw [h'.node j hj.2, h.node j hj.1]
  · simp only [List.mem_append, not_or] at ha hb
    rw [h'.normal a b ha.2 hb.2, h.normal a b ha.1 hb.1]

theorem del_cut {db db' : Db} {i : Nat} {kind : Kind} (hk : kind = .generated ∨ kind = .cmd) (h : Scan.del id 1 db i kind true = some db') :
    Cut [i] db db' ∧ Dead [i] db' := by
  unfold Scan.del at h
  cases hn : db.node i with
  | none => simp only [hn] at h; cases h
  | some n =>
    simp only [hn] at h
    split at h
    · cases h
      refine ⟨⟨fun j hj => ?_, fun _ _ _ _ => rfl⟩, fun j hj m hm => ?_⟩
      · simp only [List.mem_singleton] at hj
        simp only [Db.addConfig, Db.setKind, hj, if_false]
      · simp only [List.mem_singleton] at hj
        subst hj
        simp only [Db.addConfig, Db.setKind, hn, if_true, Option.map_some] at hm
        cases hm
        rfl
    · rcases hk with rfl | rfl
      · simp only [if_true] at h
        cases h
        obtain ⟨h1, h2⟩ := deleteNameFile_cut (db.modifyByInput i) i
        exact ⟨⟨h1.node, h1.normal⟩, h2⟩
      · simp only [] at h
        cases h
        exact deleteNameFile_cut db i

theorem del_some {db : Db} {i : Nat} {kind : Kind} (hk : kind = .generated ∨ kind = .cmd) (h : (db.node i).isSome) :
    ∃ db', Scan.del id 1 db i kind true = some db' := by
  obtain ⟨n, hn⟩ := Option.isSome_iff_exists.1 h
  unfold Scan.del
  simp only [hn]
  split
  · exact ⟨_, rfl⟩
  · rcases hk with rfl | rfl
    · exact ⟨_, rfl⟩
    · exact ⟨_, rfl⟩

theorem dead_step {i : Nat} {l : List Nat} {db db' : Db} (h : Dead [i] db) (hc : Cut l db db') (hd : Dead l db') : Dead (i :: l) db' := by
  intro j hj m hm
  by_cases hl : j ∈ l
  · exact hd j hl m hm
  · rcases List.mem_cons.1 hj with rfl | hj
    · rw [hc.node j hl] at hm
      exact h j (List.mem_singleton.2 rfl) m hm
    · exact absurd hj hl

theorem deleteGen_log {ok : Nat → Bool} (l : List Nat) (db : Db) : ∀ i ∈ (deleteGen ok l db).2, i ∈ l := by
  induction l generalizing db with
  | nil => simp [deleteGen]
  | cons i l ih =>
    unfold deleteGen
    split
    · split
      · simp
      · rename_i db' _
        intro j hj
        rcases List.mem_cons.1 hj with rfl | hj
        · exact List.mem_cons_self
        · exact List.mem_cons_of_mem _ (ih _ j hj)
    · simp

theorem deleteGen_some {ok : Nat → Bool} {l : List Nat} {db db' : Db} (h : (deleteGen ok l db).1 = some db') :
    (deleteGen ok l db).2 = l ∧ (∀ i ∈ l, ok i = true) ∧ Cut l db db' ∧ Dead l db' := by
  induction l generalizing db with
  | nil =>
    cases h
    exact ⟨rfl, (fun i hi => by cases hi), ⟨fun _ _ => rfl, fun _ _ _ _ => rfl⟩, (fun i hi => by cases hi)⟩
  | cons i l ih =>
    unfold deleteGen at h ⊢
    split at h
    · rename_i hok
      rw [if_pos hok]
      split at h
      · cases h
      · rename_i db1 hdel
        obtain ⟨h1, h2, h3, h4⟩ := ih h
        obtain ⟨k1, k2⟩ := del_cut (.inl rfl) hdel
        refine ⟨by rw [h1], fun j hj => ?_, cut_trans k1 h3, dead_step k2 h3 h4⟩
        rcases List.mem_cons.1 hj with rfl | hj
        · exact hok
        · exact h2 j hj
    · cases h

theorem deleteGen_ok {ok : Nat → Bool} {l : List Nat} {db : Db} (hn : l.Nodup) (hl : ∀ i ∈ l, (db.node i).isSome) (ho : ∀ i ∈ l, ok i = true) :
    ∃ db', (deleteGen ok l db).1 = some db' := by
  induction l generalizing db with
  | nil => exact ⟨db, rfl⟩
  | cons i l ih =>
    rw [List.nodup_cons] at hn
    obtain ⟨db1, h1⟩ := del_some (kind := .generated) (.inl rfl) (hl i List.mem_cons_self)
    have hcut := (del_cut (.inl rfl) h1).1
    obtain ⟨db', h2⟩ := ih (db := db1) hn.2 (fun j hj => by
      rw [hcut.node j (by rw [List.mem_singleton]; rintro rfl; exact hn.1 hj)]
      exact hl j (List.mem_cons_of_mem _ hj)) (fun j hj => ho j (List.mem_cons_of_mem _ hj))
    refine ⟨db', ?_⟩
    unfold deleteGen
    rw [if_pos (ho i List.mem_cons_self), h1]
    exact h2

theorem deleteCmds_some {l : List Nat} {db db' : Db} (h : deleteCmds l db = some db') : Cut l db db' ∧ Dead l db' := by
  induction l generalizing db with
  | nil =>
    cases h
    exact ⟨⟨fun _ _ => rfl, fun _ _ _ _ => rfl⟩, (fun i hi => by cases hi)⟩
  | cons i l ih =>
    unfold deleteCmds at h
    split at h
    · cases h
    · rename_i db1 hdel
      obtain ⟨h3, h4⟩ := ih h
      obtain ⟨k1, k2⟩ := del_cut (.inr rfl) hdel
      exact ⟨cut_trans k1 h3, dead_step k2 h3 h4⟩

theorem deleteCmds_ok {l : List Nat} {db : Db} (hn : l.Nodup) (hl : ∀ i ∈ l, (db.node i).isSome) : ∃ db', deleteCmds l db = some db' := by
  induction l generalizing db with
  | nil => exact ⟨db, rfl⟩
  | cons i l ih =>
    rw [List.nodup_cons] at hn
    obtain ⟨db1, h1⟩ := del_some (kind := .cmd) (.inr rfl) (hl i List.mem_cons_self)
    have hcut := (del_cut (.inr rfl) h1).1
    obtain ⟨db', h2⟩ := ih (db := db1) hn.2 (fun j hj => by
      rw [hcut.node j (by rw [List.mem_singleton]; rintro rfl; exact hn.1 hj)]
      exact hl j (List.mem_cons_of_mem _ hj))
    refine ⟨db', ?_⟩
    unfold deleteCmds
    rw [h1]
    exact h2

theorem saveFile_cut (db : Db) (i : Nat) : Cut [i] db (saveFile db i) ∧ (saveFile db i).node i = (db.node i).map (fun n => { n with kind := .file }) ∧
    ∀ c, (saveFile db i).normal c i = false := by
  obtain ⟨k1, _, _, k2, _⟩ := deleteLinks_spec (db.modifyByInput i) i
  have hnode : ∀ j, (saveFile db i).node j = if j = i then (db.node i).map (fun n => { n with kind := .file }) else db.node j := by
    intro j
    show (if j = i then (((db.modifyByInput i).deleteLinks i).node j).map _ else ((db.modifyByInput i).deleteLinks i).node j) = _
    rw [k2]
    split
    · rename_i he; rw [he]; rfl
    · rfl
  have hnorm : ∀ a b, (saveFile db i).normal a b = ((db.modifyByInput i).deleteLinks i).normal a b := by
    intro a b
    rfl
  refine ⟨⟨fun j hj => ?_, fun a b ha hb => ?_⟩, ?_, fun c => ?_⟩
  · rw [hnode, if_neg (by simpa using hj)]
  · rw [hnorm, k1]
    simp only [List.mem_singleton] at ha hb
    simp only [ha, hb, decide_false, Bool.not_false, Bool.and_true]
    rfl
  · rw [hnode, if_pos rfl]
  · rw [hnorm, k1]
    simp

theorem saveFile_less (db : Db) (i a b : Nat) (h : (saveFile db i).normal a b = true) : db.normal a b = true := by
  obtain ⟨k1, _⟩ := deleteLinks_spec (db.modifyByInput i) i
  have h : ((db.modifyByInput i).deleteLinks i).normal a b = true := h
  rw [k1] at h
  simp only [Bool.and_eq_true] at h
  exact h.1.1

theorem saveFiles_some {l : List Nat} {db db' : Db} (h : saveFiles l db = some db') : Cut l db db' ∧
    (∀ i ∈ l, ∃ n, db.node i = some n ∧ n.kind = .generated ∧ db'.node i = some { n with kind := .file }) ∧ (∀ i ∈ l, ∀ c, db'.normal c i = false) ∧
    ∀ a b, db'.normal a b = true → db.normal a b = true := by
  induction l generalizing db with
  | nil =>
    cases h
    exact ⟨⟨fun _ _ => rfl, fun _ _ _ _ => rfl⟩, (fun i hi => by cases hi), (fun i hi => by cases hi), fun _ _ h => h⟩
  | cons i l ih =>
    unfold saveFiles at h
    split at h
    · rename_i hg
      obtain ⟨n, hn, hk⟩ := isKind_iff.1 hg
      obtain ⟨h1, h2, h3, h4⟩ := ih h
      obtain ⟨k1, k2, k3⟩ := saveFile_cut db i
      have hi : i ∉ l := fun hi => by
        obtain ⟨m, f1, f2, _⟩ := h2 i hi
        rw [k2, hn] at f1
        cases f1
        cases f2
      refine ⟨cut_trans k1 h1, fun j hj => ?_, fun j hj c => ?_, fun a b hab => saveFile_less db i a b (h4 a b hab)⟩
      · rcases List.mem_cons.1 hj with rfl | hl
        · exact ⟨n, hn, hk, by rw [h1.node j hi, k2, hn]; rfl⟩
        · obtain ⟨m, f1, f2, f3⟩ := h2 j hl
          have hji : j ≠ i := fun he => hi (he ▸ hl)
          rw [k1.node j (by simpa using hji)] at f1
          exact ⟨m, f1, f2, f3⟩
      · rcases List.mem_cons.1 hj with rfl | hj
        · cases hx : db'.normal c j with
          | false => rfl
          | true => have := h4 c j hx; rw [k3] at this; cases this
        · exact h3 j hj c
    · cases h

theorem saveFiles_ok {l : List Nat} {db : Db} (hn : l.Nodup) (hl : ∀ i ∈ l, db.isKind .generated i = true) : ∃ db', saveFiles l db = some db' := by
  induction l generalizing db with
  | nil => exact ⟨db, rfl⟩
  | cons i l ih =>
    rw [List.nodup_cons] at hn
    unfold saveFiles
    rw [if_pos (hl i List.mem_cons_self)]
    refine ih hn.2 fun j hj => ?_
    rw [isKind_congr ((saveFile_cut db i).1.node j (by rw [List.mem_singleton]; rintro rfl; exact hn.1 hj))]
    exact hl j (List.mem_cons_of_mem _ hj)

theorem mem_elements {sort : List Nat → List Nat} (hs : ∀ l, (sort l).Perm l) {s : State} {f : Nat → Bool} {i : Nat} :
    i ∈ elements sort s f ↔ i < s.p.db.top ∧ f i = true := by
  unfold elements
  refine Iff.trans (hs _).mem_iff ?_
  simp

theorem nodup_elements {sort : List Nat → List Nat} (hs : ∀ l, (sort l).Perm l) {s : State} {f : Nat → Bool} : (elements sort s f).Nodup :=
  (hs _).nodup_iff.2 (List.Pairwise.filter _ List.nodup_range)

/-- What a successful end has done. -/
structure Ended (s : State) (ok : Nat → Bool) (log : List Nat) (db' : Db) : Prop where
  logged : ∀ i, i ∈ log ↔ i < s.p.db.top ∧ s.gen i = true
  nodup : log.Nodup
  oks : ∀ i ∈ log, ok i = true
  keep : ∀ j, s.gen j = false → s.save j = false → s.p.doomed j = false → db'.node j = s.p.db.node j
  normal : ∀ a b, (∀ j, j = a ∨ j = b → s.gen j = false ∧ s.save j = false ∧ s.p.doomed j = false) → db'.normal a b = s.p.db.normal a b
  dead : ∀ i m, s.gen i = true ∨ s.p.doomed i = true → s.save i = false → i < s.p.db.top → db'.node i = some m → m.kind = .ghost
  saved : ∀ i n, s.save i = true → s.gen i = false → s.p.doomed i = false → s.p.db.node i = some n → i < s.p.db.top →
    db'.node i = some { n with kind := .file } ∧ ∀ c, db'.normal c i = false

theorem ended {sort : List Nat → List Nat} (hs : ∀ l, (sort l).Perm l) {ok : Nat → Bool} {s : State} {log : List Nat} {db' : Db}
    (h : deleteFiles sort ok s = (some db', log)) : Ended s ok log db' := by
  unfold deleteFiles at h
  simp only [] at h
  split at h
  · cases h
  rename_i db1 h1
  split at h
  · cases h
  rename_i db2 h2
  injection h with h3 h4
  obtain ⟨a1, a2, a3, a4⟩ := deleteGen_some h1
  obtain ⟨b1, b2⟩ := deleteCmds_some h2
  obtain ⟨c1, c2, c3, _⟩ := saveFiles_some h3
  rw [a1] at h4
  subst h4
  have hno : ∀ {f : Nat → Bool} {j : Nat}, f j = false → j ∉ elements sort s f := fun hf hm => by
    rw [mem_elements hs, hf] at hm
    exact absurd hm.2 (by simp)
  refine ⟨fun i => mem_elements hs, nodup_elements hs, a2, fun j g1 g2 g3 => ?_, fun a b hj => ?_, fun i m hi g1 ht hm => ?_, fun i n g1 g2 g3 hn ht => ?_⟩
  · rw [c1.node j (hno g2), b1.node j (hno g3), a3.node j (hno g1)]
  · obtain ⟨x1, x2, x3⟩ := hj a (.inl rfl)
    obtain ⟨y1, y2, y3⟩ := hj b (.inr rfl)
    rw [c1.normal a b (hno x2) (hno y2), b1.normal a b (hno x3) (hno y3), a3.normal a b (hno x1) (hno y1)]
  · rw [c1.node i (hno g1)] at hm
    by_cases hc : s.p.doomed i = true
    · exact b2 i ((mem_elements hs).2 ⟨ht, hc⟩) m hm
    · rw [b1.node i (hno (by simpa using hc))] at hm
      exact a4 i ((mem_elements hs).2 ⟨ht, hi.resolve_right hc⟩) m hm
  · have hm : i ∈ elements sort s s.save := (mem_elements hs).2 ⟨ht, g1⟩
    obtain ⟨q, f1, _, f2⟩ := c2 i hm
    rw [b1.node i (hno g3), a3.node i (hno g2), hn] at f1
    cases f1
    exact ⟨f2, c3 i hm⟩

theorem ends {sort : List Nat → List Nat} (hs : ∀ l, (sort l).Perm l) {ok : Nat → Bool} {s : State} (h1 : ∀ i, s.gen i = true → s.p.db.isKind .generated i = true ∧ s.save i = false)
    (h2 : ∀ i, s.save i = true → s.p.db.isKind .generated i = true) (h3 : ∀ i, s.p.doomed i = true → s.p.db.isKind .cmd i = true)
    (ho : ∀ i, s.gen i = true → ok i = true) : ∃ db', (deleteFiles sort ok s).1 = some db' := by
  have hsome : ∀ {db : Db} {k : Kind} {i : Nat}, db.isKind k i = true → (db.node i).isSome := fun h => by
    obtain ⟨n, hn, _⟩ := isKind_iff.1 h
    rw [hn]; rfl
  obtain ⟨db1, e1⟩ := deleteGen_ok (ok := ok) (nodup_elements hs (s := s) (f := s.gen)) (fun i hi => hsome (h1 i ((mem_elements hs).1 hi).2).1)
    (fun i hi => ho i ((mem_elements hs).1 hi).2)
  obtain ⟨_, _, a3, _⟩ := deleteGen_some e1
  have hcg : ∀ i, s.p.doomed i = true → i ∉ elements sort s s.gen := fun i hi hm => by
    have k1 := (h1 i ((mem_elements hs).1 hm).2).1
    have k2 := h3 i hi
    obtain ⟨n, f1, f2⟩ := isKind_iff.1 k1
    obtain ⟨m, g1, g2⟩ := isKind_iff.1 k2
    rw [f1] at g1
    cases g1
    rw [f2] at g2
    cases g2
  obtain ⟨db2, e2⟩ := deleteCmds_ok (db := db1) (nodup_elements hs (s := s) (f := s.p.doomed)) (fun i hi => by
    have hd := ((mem_elements hs).1 hi).2
    rw [a3.node i (hcg i hd)]
    exact hsome (h3 i hd))
  obtain ⟨b1, _⟩ := deleteCmds_some e2
  obtain ⟨db3, e3⟩ := saveFiles_ok (db := db2) (nodup_elements hs (s := s) (f := s.save)) (fun i hi => by
    have hsv := ((mem_elements hs).1 hi).2
    have hge := h2 i hsv
    rw [isKind_congr (b1.node i (fun hm => by
        obtain ⟨n, f1, f2⟩ := isKind_iff.1 hge
        obtain ⟨m, g1, g2⟩ := isKind_iff.1 (h3 i ((mem_elements hs).1 hm).2)
        rw [f1] at g1
        cases g1
        rw [f2] at g2
        cases g2)),
      isKind_congr (a3.node i (fun hm => by
        have := (h1 i ((mem_elements hs).1 hm).2).2
        rw [hsv] at this
        cases this))]
    exact hge)
  refine ⟨db3, ?_⟩
  unfold deleteFiles
  simp only [e1, e2, e3]

end Tup.Deletes
