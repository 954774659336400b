import Verif.Scan.Lemmas

/-! The whole recursive deletion. -/

namespace Tup.Scan

open Db

variable {B B' : Nat → Prop} {db db' db'' : Db}

/-- What is inside is `i` itself or inside an entry of `i`. -/
theorem Inside.top {i f : Nat} {b : Bool} (h : Inside db i b f) :
    (f = i ∧ b = false) ∨ ∃ c m d b', db.node c = some m ∧ m.dir = i ∧ Inside db c b' f ∧ db.node i = some d ∧
      d.name ≠ tupConfig ∧ ((d.kind = .dir ∧ b = true) ∨ (d.kind = .generatedDir ∧ b = b')) := by
  induction h with
  | refl => exact .inl ⟨rfl, rfl⟩
  | dir hn h1 hd hk hx ih =>
    rcases ih with ⟨h2, h3⟩ | ⟨c, m, d, b', h2, h3, h4, h5, h6, h7⟩
    · rw [h2] at hd
      exact .inr ⟨_, _, _, _, hn, h2, .refl, hd, hx, .inl ⟨hk, rfl⟩⟩
    · refine .inr ⟨c, m, d, true, h2, h3, .dir hn h4 hd hk hx, h5, h6, ?_⟩
      rcases h7 with h7 | h7
      · exact .inl ⟨h7.1, rfl⟩
      · exact .inr ⟨h7.1, rfl⟩
  | generated hn h1 hd hk hx ih =>
    rcases ih with ⟨h2, h3⟩ | ⟨c, m, d, b', h2, h3, h4, h5, h6, h7⟩
    · rw [h2] at hd
      exact .inr ⟨_, _, _, false, hn, h2, .refl, hd, hx, .inr ⟨hk, h3⟩⟩
    · exact .inr ⟨c, m, d, b', h2, h3, .generated hn h4 hd hk hx, h5, h6, h7⟩

theorem Inside.congr {i f : Nat} {b : Bool} (h : Inside db i b f) (hs : ∀ j, Below db i j → db'.node j = db.node j) :
    Inside db' i b f := by
  induction h with
  | refl => exact .refl
  | dir hn h1 hd hk hx ih =>
    exact .dir ((hs _ (.step hn h1.isBelow)).trans hn) ih ((hs _ h1.isBelow).trans hd) hk hx
  | generated hn h1 hd hk hx ih =>
    exact .generated ((hs _ (.step hn h1.isBelow)).trans hn) ih ((hs _ h1.isBelow).trans hd) hk hx

theorem mem_entries (hb : Bounded db) {d : Nat} {e : Nat × Kind} :
    e ∈ entries db d ↔ ∃ n, db.node e.1 = some n ∧ n.dir = d ∧ n.kind = e.2 := by
  unfold entries
  rw [List.mem_filterMap]
  constructor
  · rintro ⟨i, _, h⟩
    cases hn : db.node i with
    | none => rw [hn] at h; cases h
    | some n =>
      rw [hn] at h
      simp only at h
      split at h
      · rename_i hd
        cases h
        exact ⟨n, hn, hd, rfl⟩
      · cases h
  · rintro ⟨n, hn, hd, hk⟩
    refine ⟨e.1, List.mem_range.2 (lt_top hb hn), ?_⟩
    rw [hn]
    simp only
    rw [if_pos hd, hk]

theorem entries_nodup (db : Db) (d : Nat) : ((entries db d).map (·.1)).Nodup := by
  unfold entries
  have h : ∀ l : List Nat, l.Nodup → ((l.filterMap fun i =>
      match db.node i with
      | some n => if n.dir = d then some (i, n.kind) else none
      | none => none).map (·.1)).Nodup ∧ ∀ x, x ∈ ((l.filterMap fun i =>
      match db.node i with
      | some n => if n.dir = d then some (i, n.kind) else none
      | none => none).map (·.1)) → x ∈ l := by
    intro l hl
    induction l with
    | nil => exact ⟨List.nodup_nil, fun x h => by cases h⟩
    | cons a l ih =>
      rw [List.nodup_cons] at hl
      obtain ⟨i1, i2⟩ := ih hl.2
      rw [List.filterMap_cons]
      cases hn : db.node a with
      | none => exact ⟨i1, fun x h => List.mem_cons_of_mem _ (i2 x h)⟩
      | some n =>
        simp only
        by_cases hd : n.dir = d
        · rw [if_pos hd]
          simp only [List.map_cons]
          refine ⟨List.nodup_cons.2 ⟨fun h => hl.1 (i2 _ h), i1⟩, fun x h => ?_⟩
          rcases List.mem_cons.1 h with h | h
          · exact h ▸ List.mem_cons_self
          · exact List.mem_cons_of_mem _ (i2 x h)
        · rw [if_neg hd]
          exact ⟨i1, fun x h => List.mem_cons_of_mem _ (i2 x h)⟩
  exact (h _ List.nodup_range).1

/-- The claim survives what happens before and after, elsewhere. -/
theorem Claim.wrap {R C S : Nat → Prop} {db0 db1 db2 db3 : Db} {i c f : Nat} {n : Node} {hard : Bool}
    (h1 : Eff R db0 db1) (h : Claim C db1 db2 c f n hard) (h3 : Eff S db2 db3)
    (hR : ∀ j, R j → B j) (hC : ∀ j, C j → B j) (hS : ∀ j, S j → B j) (hf : ¬ R f) (hfs : ¬ S f)
    (hsrc : n.kind = .generated → hard = true → f ≠ i → f = c → SourceParsed B db0 db1 n)
    (hCe : Eff C db1 db2) : Claim B db0 db3 i f n hard where
  gone := fun hk => h3.gone (h.gone hk)
  runs := fun hk j hj hl hkj =>
    h3.modify j (fun x => hj (hS j x)) (h.runs hk j (fun x => hj (hC j x)) (h1.normal f j hf (fun x => hj (hR j x)) hl) (by
      rw [h1.kind (fun x => hj (hR j x)), h1.kind (fun x => hj (hR j x))]; exact hkj))
  parses := fun hk => by
    obtain ⟨p1, p2⟩ := h.parses hk
    refine ⟨fun j hj hl hkj => ?_, fun j hj hl hkj => ?_⟩
    · exact h3.create j (fun x => hj (hS j x)) (p1 j (fun x => hj (hC j x)) (h1.normal f j hf (fun x => hj (hR j x)) hl) (by
        rw [h1.kind (fun x => hj (hR j x))]; exact hkj))
    · exact h3.config j (fun x => hj (hS j x)) (p2 j (fun x => hj (hC j x)) (h1.normal f j hf (fun x => hj (hR j x)) hl) (by
        rw [h1.kind (fun x => hj (hR j x))]; exact hkj))
  parent := fun hk hj hd => h3.create _ (fun x => hj (hS _ x)) (h.parent hk (fun x => hj (hC _ x)) (by
    rw [h1.kind (fun x => hj (hR _ x))]; exact hd))
  source := fun hk hh hi => by
    by_cases hc : f = c
    · intro s hs hBs hd
      exact h3.create s (fun x => hBs (hS s x)) (hCe.create s (fun x => hBs (hC s x)) (hsrc hk hh hi hc s hs hBs hd))
    · intro s hs hBs hd
      exact h3.create s (fun x => hBs (hS s x)) (h.source hk hh hc s hs (fun x => hBs (hC s x)) (by
        rw [h1.kind (fun x => hBs (hR s x))]; exact hd))
  again := fun hk hh hg j hj hl =>
    h3.modify j (fun x => hj (hS j x)) (h.again hk hh hg j (fun x => hj (hC j x))
      (h1.normal j f (fun x => hj (hR j x)) hf hl))
  kept := fun hk => (h3.outside f hfs).trans (h.kept hk)

/-- The loop over the entries of a directory. -/
theorem each_spec {r : Nat → Nat} {f : Db → Nat → Kind → Option Db} {hardOf : Kind → Bool} {i : Nat} {db0 : Db}
    (hr : Ranked r db0)
    (hf : ∀ db1 c m, Ranked r db1 → Bounded db1 → db1.node c = some m → m.dir = i →
      (∀ j n, db1.node j = some n → ∃ n', db0.node j = some n') →
      ∃ db2, f db1 c m.kind = some db2 ∧ Eff (Below db1 c) db1 db2 ∧
        ∀ b g n, Inside db1 c b g → db1.node g = some n → n.name ≠ tupConfig → Claim (Below db1 c) db1 db2 c g n (hardOf m.kind || b)) :
    ∀ (l : List (Nat × Kind)) (db1 : Db) (R : Nat → Prop), (l.map (·.1)).Nodup →
      (∀ e ∈ l, ∃ m, db0.node e.1 = some m ∧ m.dir = i ∧ m.kind = e.2) →
      Bounded db1 → Eff R db0 db1 → (∀ e ∈ l, ∀ j, Below db0 e.1 j → ¬ R j) → (∀ j, R j → Below db0 i j) →
      ∃ db2, eachEntry f db1 l = some db2 ∧ Eff (fun j => ∃ e ∈ l, Below db0 e.1 j) db1 db2 ∧
        ∀ e ∈ l, ∀ b g n, Inside db0 e.1 b g → db0.node g = some n → n.name ≠ tupConfig →
          (n.kind = .generated → (hardOf e.2 || b) = true → g = e.1 → SourceParsed (Below db0 i) db0 db1 n) →
          Claim (Below db0 i) db0 db2 i g n (hardOf e.2 || b) := by
  intro l
  induction l with
  | nil =>
    intro db1 R _ _ _ _ _ _
    exact ⟨db1, rfl, .refl _ _, fun e he => by cases he⟩
  | cons e l ih =>
    obtain ⟨c, k⟩ := e
    intro db1 R hnd hl hb hR hdis hsub
    obtain ⟨m, hm, hmd, hmk⟩ := hl _ List.mem_cons_self
    simp only at hm hmk
    have hsame : ∀ j, Below db0 c j → db1.node j = db0.node j := fun j hj =>
      hR.outside j (hdis _ List.mem_cons_self j hj)
    have hm1 : db1.node c = some m := (hsame c .refl).trans hm
    obtain ⟨db2, e1, e2, e3⟩ := hf db1 c m (hR.ranked hr) hb hm1 hmd (fun j n hn => by
      obtain ⟨n', h, _⟩ := hR.sub j n hn
      exact ⟨n', h⟩)
    rw [List.map_cons, List.nodup_cons] at hnd
    have e2' : Eff (Below db0 c) db1 db2 := e2.mono fun j hj => hR.below hj
    have hR2 : Eff (fun j => R j ∨ Below db0 c j) db0 db2 :=
      (hR.mono fun _ h => .inl h).trans (e2'.mono fun _ h => .inr h)
    have hdis2 : ∀ e ∈ l, ∀ j, Below db0 e.1 j → ¬ (R j ∨ Below db0 c j) := by
      rintro e he j hj (h | h)
      · exact hdis e (List.mem_cons_of_mem _ he) j hj h
      · obtain ⟨m', hm', hmd', _⟩ := hl e (List.mem_cons_of_mem _ he)
        have := Below.disjoint hr hm hmd hm' hmd' h hj
        exact hnd.1 (by simp only; rw [this]; exact List.mem_map_of_mem he)
    have hsub2 : ∀ j, (R j ∨ Below db0 c j) → Below db0 i j := by
      rintro j (h | h)
      · exact hsub j h
      · exact Below.trans (.step hm (by rw [hmd]; exact .refl)) h
    obtain ⟨db3, i1, i2, i3⟩ := ih db2 _ hnd.2 (fun e he => hl e (List.mem_cons_of_mem _ he)) (e2.bounded hb) hR2 hdis2 hsub2
    refine ⟨db3, ?_, ?_, ?_⟩
    · rw [eachEntry, ← hmk, e1]
      exact i1
    · refine (e2'.mono ?_).trans (i2.mono ?_)
      · exact fun j hj => ⟨_, List.mem_cons_self, hj⟩
      · rintro j ⟨e, he, hj⟩
        exact ⟨e, List.mem_cons_of_mem _ he, hj⟩
    · intro e he b g n hin hg hx hs
      rcases List.mem_cons.1 he with rfl | he
      · simp only at hin hs ⊢
        have hg1 : db1.node g = some n := (hsame g hin.isBelow).trans hg
        have hc := e3 b g n (hin.congr hsame) hg1 hx
        rw [hmk] at hc
        refine Claim.wrap hR hc i2 hsub (fun j hj => hsub2 j (.inr (hR.below hj))) ?_
          (hdis _ List.mem_cons_self g hin.isBelow) ?_ (fun hk hh _ hgc => hs hk hh hgc) e2
        · rintro j ⟨e', he', hj⟩
          obtain ⟨m', hm', hmd', _⟩ := hl e' (List.mem_cons_of_mem _ he')
          exact Below.trans (.step hm' (by rw [hmd']; exact .refl)) hj
        · rintro ⟨e', he', hj⟩
          exact hdis2 e' he' g hj (.inr hin.isBelow)
      · refine i3 e he b g n hin hg hx ?_
        intro hk hh hge s hs' hBs hd
        exact e2.create s (fun h => hBs (hsub2 s (.inr (hR.below h)))) (hs hk hh hge s hs' hBs hd)

/-! ### The node itself -/

theorem delFile_flags {db : Db} {i : Nat} {n : Node} {k : Kind} {force : Bool} :
    (∀ j, j ≠ i → db.normal i j = true → (db.isKind .cmd j = true ∨ db.isKind .group j = true) →
      (delFile db i n k force).modify j = true) ∧
    (k = .file → ∀ j, j ≠ i → db.normal i j = true → db.isKind .dir j = true → (delFile db i n k force).create j = true) ∧
    (k = .file → ∀ j, j ≠ i → db.normal i j = true → db.isKind .file j = true → (delFile db i n k force).config j = true) ∧
    (force = false → n.dir ≠ i → (delFile db i n k force).create n.dir = true) := by
  unfold delFile
  simp only
  have hstep : ∀ x : Db, Eff (· = i) (x.modifyByInput i) (if force then x.modifyByInput i else (x.modifyByInput i).addCreate n.dir) := by
    intro x
    split
    · exact .refl _ _
    · exact eff_create _
  have hk : k = .file → (if k = .file then db.dependentFlags i else db) = db.dependentFlags i := fun h => if_pos h
  have hlink : ∀ a b, (if k = .file then db.dependentFlags i else db).normal a b = db.normal a b := by
    intro a b
    split <;> rfl
  have hkind : ∀ q j, (if k = .file then db.dependentFlags i else db).isKind q j = db.isKind q j := by
    intro q j
    split <;> rfl
  refine ⟨fun j hj hl hkj => ?_, fun hkf j hj hl hkj => ?_, fun hkf j hj hl hkj => ?_, fun hff hj => ?_⟩
  · refine (eff_delete _ i).1.modify j hj ((hstep _).modify j hj ?_)
    show ((if k = .file then db.dependentFlags i else db).modify j || ((if k = .file then db.dependentFlags i else db).normal i j &&
      ((if k = .file then db.dependentFlags i else db).isKind .cmd j || (if k = .file then db.dependentFlags i else db).isKind .group j))) = true
    rw [hlink, hkind, hkind, hl]
    rcases hkj with h | h <;> simp [h]
  · refine (eff_delete _ i).1.create j hj ((hstep _).create j hj ?_)
    rw [hk hkf]
    show (db.create j || (db.normal i j && db.isKind .dir j)) = true
    rw [hl, hkj]; simp
  · refine (eff_delete _ i).1.config j hj ((hstep _).config j hj ?_)
    rw [hk hkf]
    show (db.config j || (db.normal i j && db.isKind .file j)) = true
    rw [hl, hkj]; simp
  · refine (eff_delete _ i).1.create _ hj ?_
    rw [hff]
    simp [Db.addCreate]

theorem delDir_flags {db : Db} {i : Nat} {n : Node} :
    (∀ j, j ≠ i → db.normal i j = true → db.isKind .dir j = true → (delDir db i n).create j = true) ∧
    (∀ j, j ≠ i → db.normal i j = true → db.isKind .file j = true → (delDir db i n).config j = true) ∧
    (n.dir ≠ i → db.isKind .dir n.dir = true → (delDir db i n).create n.dir = true) := by
  unfold delDir
  simp only
  have h1 : ∀ B, Eff B db (tupfileReaders db i) := by
    intro B
    unfold tupfileReaders
    split
    · exact eff_createByInput _
    · exact .refl _ _
  have hx : (tupfileReaders db i).normal = db.normal ∧ (tupfileReaders db i).node = db.node := by
    unfold tupfileReaders
    split <;> exact ⟨rfl, rfl⟩
  generalize tupfileReaders db i = x at h1 hx
  have h2 : Eff (· = i) x (if x.isKind .dir n.dir then x.addCreate n.dir else x) := by
    split
    · exact eff_create _
    · exact .refl _ _
  have hy : ∀ y, y = (if x.isKind .dir n.dir then x.addCreate n.dir else x) → y.normal = db.normal ∧ y.node = db.node := by
    rintro y rfl
    split
    · exact hx
    · exact hx
  have hc : x.isKind .dir n.dir = true → (if x.isKind .dir n.dir then x.addCreate n.dir else x).create n.dir = true := by
    intro h
    rw [if_pos h]
    simp [Db.addCreate]
  generalize hyy : (if x.isKind .dir n.dir then x.addCreate n.dir else x) = y at h2 hc
  obtain ⟨y1, y2⟩ := hy y hyy.symm
  refine ⟨fun j hj hl hkj => ?_, fun j hj hl hkj => ?_, fun hj hkj => ?_⟩
  · refine (eff_delete _ i).1.create j hj ?_
    show (y.create j || (y.normal i j && y.isKind .dir j)) = true
    rw [y1, isKind_congr (db := db) (by rw [y2]), hl, hkj]; simp
  · refine (eff_delete _ i).1.config j hj ?_
    show (y.config j || (y.normal i j && y.isKind .file j)) = true
    rw [y1, isKind_congr (db := db) (by rw [y2]), hl, hkj]; simp
  · refine (eff_delete _ i).1.create _ hj ((eff_dependent (B := fun _ => False) i).create _ (fun h => h) (hc ?_))
    rw [isKind_congr (db := db) (by rw [hx.2]), hkj]

theorem missing_flags {db : Db} {i : Nat} {n : Node} (hg : n.name ≠ gitignore) :
    ∀ j, j ≠ i → db.normal j i = true → (missingGenerated db i n).modify j = true := by
  intro j hj hl
  unfold missingGenerated
  rw [if_neg hg]
  show ((db.modify j || db.normal j i) && !decide (j = i)) = true
  rw [hl]; simp [hj]

theorem missing_node (db : Db) (i : Nat) (n : Node) : (missingGenerated db i n).node = db.node := by
  unfold missingGenerated
  split <;> rfl

theorem srcid_flags (hb : Bounded db) {d f s : Nat} {n : Node} (hf : db.node f = some n) (hd : n.dir = d) (hk : n.kind = .generated)
    (hs : n.src = some s) (hsd : s ≠ d) (hds : db.isKind .dir s = true) : (srcidDirFlags db d).create s = true := by
  show (db.create s || (db.isKind .dir s && decide (s ≠ d) && db.anyNode _)) = true
  rw [(anyNode_iff hb).2 ⟨f, n, hf, by simp [hd, hk, hs]⟩, hds]
  simp [hsd]

/-- What the deletion of a node with all that is in it does. -/
theorem del_spec {sort : List (Nat × Kind) → List (Nat × Kind)} (hsort : ∀ l, (sort l).Perm l) {r : Nat → Nat} {M : Nat}
    (fuel : Nat) : ∀ (db : Db) (i : Nat) (n : Node) (force : Bool), Ranked r db → Bounded db →
      (∀ j m, db.node j = some m → r j < M) → db.node i = some n → M ≤ fuel + r i →
      ∃ db', del sort fuel db i n.kind force = some db' ∧ Eff (Below db i) db db' ∧
        ∀ b g m, Inside db i b g → db.node g = some m → m.name ≠ tupConfig →
          Claim (Below db i) db db' i g m (force || b) := by
  induction fuel with
  | zero =>
    intro db i n force _ _ hM hn hf
    have := hM i n hn
    omega
  | succ fuel ih =>
    intro db i n force hr hb hM hn hf
    rw [del, hn]
    simp only
    -- nothing lies in a node that is not a directory
    have leaf : n.kind ≠ .dir → n.kind ≠ .generatedDir → ∀ b g, Inside db i b g → g = i ∧ b = false := by
      intro h1 h2 b g hin
      rcases hin.top with h | ⟨c, m, d, b', _, _, _, hd, _, h | h⟩
      · exact h
      · rw [hn] at hd; cases hd; exact absurd h.1 h1
      · rw [hn] at hd; cases hd; exact absurd h.1 h2
    have hself : ∀ j, j = i → Below db i j := fun j h => h ▸ .refl
    by_cases hx : n.name = tupConfig
    · rw [if_pos hx]
      refine ⟨_, rfl, ((eff_setKind i).trans (eff_addConfig i)).mono hself, ?_⟩
      intro b g m hin hg hm
      exfalso
      rcases hin.top with ⟨h, _⟩ | ⟨_, _, d, _, _, _, _, hd, hdx, _⟩
      · rw [h, hn] at hg
        cases hg
        exact hm hx
      · rw [hn] at hd
        cases hd
        exact hdx hx
    rw [if_neg hx]
    have hother : n.kind ≠ .dir → n.kind ≠ .generatedDir → n.kind ≠ .generated → n.kind ≠ .file → n.kind ≠ .group →
        Eff (Below db i) db (db.deleteNameFile i) ∧ ∀ b g m, Inside db i b g → db.node g = some m → m.name ≠ tupConfig →
          Claim (Below db i) db (db.deleteNameFile i) i g m (force || b) := by
      intro h1 h2 h3 h4 h5
      refine ⟨(eff_delete db i).1.mono hself, ?_⟩
      intro b g m hin hg hm
      obtain ⟨rfl, rfl⟩ := leaf h1 h2 b g hin
      rw [hn] at hg
      cases hg
      refine ⟨fun _ => (eff_delete db g).2, ?_, ?_, fun h => absurd h h1, ?_, ?_, ?_⟩
      · rintro (h | h)
        · exact absurd h h4
        · exact absurd h.1 h3
      · rintro (h | h)
        · exact absurd h h4
        · exact absurd h h1
      · exact fun h => absurd h h3
      · exact fun h => absurd h h3
      · rintro (h | ⟨_, h | h⟩)
        · exact absurd h h5
        · exact absurd h h3
        · exact absurd h h2
    cases hk : n.kind with
    | cmd =>
      obtain ⟨h1, h2⟩ := hother (by rw [hk]; decide) (by rw [hk]; decide) (by rw [hk]; decide) (by rw [hk]; decide) (by rw [hk]; decide)
      exact ⟨_, rfl, h1, h2⟩
    | var =>
      obtain ⟨h1, h2⟩ := hother (by rw [hk]; decide) (by rw [hk]; decide) (by rw [hk]; decide) (by rw [hk]; decide) (by rw [hk]; decide)
      exact ⟨_, rfl, h1, h2⟩
    | root =>
      obtain ⟨h1, h2⟩ := hother (by rw [hk]; decide) (by rw [hk]; decide) (by rw [hk]; decide) (by rw [hk]; decide) (by rw [hk]; decide)
      exact ⟨_, rfl, h1, h2⟩
    | ghost =>
      refine ⟨_, rfl, .refl _ _, ?_⟩
      intro b g m hin hg hm
      obtain ⟨rfl, rfl⟩ := leaf (by rw [hk]; decide) (by rw [hk]; decide) b g hin
      rw [hn] at hg
      cases hg
      refine ⟨fun _ n' hn' => ?_, ?_, ?_, ?_, ?_, ?_, ?_⟩
      · rw [hn] at hn'; cases hn'; exact hk
      all_goals simp [hk]
    | group =>
      refine ⟨_, rfl, .refl _ _, ?_⟩
      intro b g m hin hg hm
      obtain ⟨rfl, rfl⟩ := leaf (by rw [hk]; decide) (by rw [hk]; decide) b g hin
      rw [hn] at hg
      cases hg
      refine ⟨?_, ?_, ?_, ?_, ?_, ?_, fun _ => hn⟩
      all_goals simp [hk]
    | file =>
      refine ⟨_, rfl, (eff_delFile db i n .file force).1.mono hself, ?_⟩
      intro b g m hin hg hm
      obtain ⟨rfl, rfl⟩ := leaf (by rw [hk]; decide) (by rw [hk]; decide) b g hin
      rw [hn] at hg
      cases hg
      obtain ⟨f1, f2, f3, _⟩ := delFile_flags (db := db) (i := g) (n := n) (k := .file) (force := force)
      have hne : ∀ j, ¬ Below db g j → j ≠ g := fun j hj h => hj (hself j h)
      refine ⟨fun _ => (eff_delFile db g n .file force).2, fun _ j hj => f1 j (hne j hj),
        fun _ => ⟨fun j hj => f2 rfl j (hne j hj), fun j hj => f3 rfl j (hne j hj)⟩, ?_, ?_, ?_, ?_⟩
      all_goals simp [hk]
    | generated =>
      have hne : ∀ j, ¬ Below db i j → j ≠ i := fun j hj h => hj (hself j h)
      cases force with
      | true =>
        refine ⟨_, rfl, (eff_delFile db i n .generated true).1.mono hself, ?_⟩
        intro b g m hin hg hm
        obtain ⟨rfl, rfl⟩ := leaf (by rw [hk]; decide) (by rw [hk]; decide) b g hin
        rw [hn] at hg
        cases hg
        obtain ⟨f1, _⟩ := delFile_flags (db := db) (i := g) (n := n) (k := .generated) (force := true)
        refine ⟨fun _ => (eff_delFile db g n .generated true).2, fun _ j hj => f1 j (hne j hj), ?_, ?_, ?_, ?_, ?_⟩
        all_goals simp [hk]
      | false =>
        refine ⟨_, rfl, (eff_missing i n).mono hself, ?_⟩
        intro b g m hin hg hm
        obtain ⟨rfl, rfl⟩ := leaf (by rw [hk]; decide) (by rw [hk]; decide) b g hin
        rw [hn] at hg
        cases hg
        refine ⟨?_, ?_, ?_, ?_, ?_, fun _ _ hgi j hj => missing_flags hgi j (hne j hj), fun _ => by rw [missing_node]; exact hn⟩
        all_goals simp [hk]
    | generatedDir =>
      simp only
      generalize hdb1 : (if force then ((srcidDirFlags db i).setKind i .ghost).addGhost i else db) = db1
      have e1 : Eff (· = i) db db1 := by
        rw [← hdb1]
        split
        · exact ((eff_srcid i).trans (eff_setKind i)).trans (eff_addGhost i)
        · exact .refl _ _
      have hlook : ∀ c m, db1.node c = some m → m.dir = i → c ≠ i := by
        rintro c m hc hd rfl
        have := e1.ranked hr c m hc
        rw [hd] at this
        omega
      have hb1 := e1.bounded hb
      have hperm := hsort (entries db1 i)
      obtain ⟨db2, g1, g2, g3⟩ := each_spec (f := fun db j k => del sort fuel db j k force) (hardOf := fun _ => force) (i := i) hr
        (fun x c m hrx hbx hc hd hex => ih x c m force hrx hbx (fun j m' hm' => by
            obtain ⟨n', hn'⟩ := hex j m' hm'
            exact hM j n' hn') hc (by
            have := hrx c m hc
            rw [hd] at this
            omega))
        (sort (entries db1 i)) db1 (· = i)
        ((hperm.map _).nodup_iff.2 (entries_nodup db1 i))
        (fun e he => by
          obtain ⟨m, h1, h2, h3⟩ := (mem_entries hb1).1 (hperm.mem_iff.1 he)
          rw [e1.outside _ (hlook _ _ h1 h2)] at h1
          exact ⟨m, h1, h2, h3⟩) hb1 e1
        (fun e he j hj hji => by
          obtain ⟨m, h1, h2, h3⟩ := (mem_entries hb1).1 (hperm.mem_iff.1 he)
          have := e1.ranked hr _ _ h1
          rw [h2] at this
          subst hji
          rcases hj.rank hr with h | h
          · rw [h] at this; omega
          · omega)
        hself
      have esub : ∀ j, (∃ e ∈ sort (entries db1 i), Below db e.1 j) → Below db i j := by
        rintro j ⟨e, he, hj⟩
        obtain ⟨m, h1, h2, h3⟩ := (mem_entries hb1).1 (hperm.mem_iff.1 he)
        rw [e1.outside _ (hlook _ _ h1 h2)] at h1
        exact Below.trans (.step h1 (by rw [h2]; exact .refl)) hj
      refine ⟨db2, g1, (e1.mono hself).trans (g2.mono esub), ?_⟩
      intro b g m hin hg hm
      rcases hin.top with ⟨rfl, rfl⟩ | ⟨c, m', d, b', hc, hcd, hin', hd, hdx, h | h⟩
      · rw [hn] at hg
        cases hg
        refine ⟨?_, ?_, ?_, ?_, ?_, ?_, ?_⟩
        · intro hh
          have hff : force = true := by simpa [hk] using hh
          refine g2.gone ?_
          rw [← hdb1, hff]
          intro a ha
          have ha' : (if g = g then ((db.node g).map fun n => { n with kind := Kind.ghost }) else _) = some a := ha
          rw [if_pos rfl, hn] at ha'
          cases ha'
          rfl
        · simp [hk]
        · simp [hk]
        · simp [hk]
        · simp [hk]
        · simp [hk]
        · intro hh
          have hff : force = false := by simpa [hk] using hh
          rw [hff] at hdb1
          simp only [Bool.false_eq_true, if_false] at hdb1
          subst hdb1
          rw [g2.outside g ?_]
          · exact hn
          · rintro ⟨e, he, hj⟩
            obtain ⟨m, h1, h2, h3⟩ := (mem_entries hb).1 (hperm.mem_iff.1 he)
            have := hr _ _ h1
            rw [h2] at this
            rcases hj.rank hr with h | h
            · rw [← h] at this; omega
            · omega
      · rw [hn] at hd
        cases hd
        rw [hk] at h
        exact absurd h.1 (by decide)
      · rw [h.2]
        have hci : c ≠ i := by
          rintro rfl
          have := hr c m' hc
          rw [hcd] at this
          omega
        have hmem : (c, m'.kind) ∈ sort (entries db1 i) :=
          hperm.mem_iff.2 ((mem_entries hb1).2 ⟨m', by rw [e1.outside c hci]; exact hc, hcd, rfl⟩)
        refine g3 (c, m'.kind) hmem b' g m hin' hg hm ?_
        rintro hgk hh rfl s hs hBs hds
        cases hff : force with
        | false =>
          exfalso
          rw [hff] at hh
          simp only [Bool.false_or] at hh
          rcases hin'.top with ⟨_, h'⟩ | ⟨c2, m2, d2, _, hc2, hcd2, hin2, hd2, _, h' | h'⟩
          · rw [hh] at h'; cases h'
          · rw [hg] at hd2; cases hd2; rw [hgk] at h'; exact absurd h'.1 (by decide)
          · rw [hg] at hd2; cases hd2; rw [hgk] at h'; exact absurd h'.1 (by decide)
        | true =>
          rw [← hdb1, hff]
          show (srcidDirFlags db i).create s = true
          rw [hc] at hg
          cases hg
          exact srcid_flags hb hc hcd hgk hs (fun h => hBs (hself s h)) hds
    | dir =>
      simp only
      have e1 : Eff (· = i) db (srcidDirFlags db i) := eff_srcid i
      have hb1 := e1.bounded hb
      have hperm := hsort (entries (srcidDirFlags db i) i)
      obtain ⟨db2, g1, g2, g3⟩ := each_spec (f := fun db j k => del sort fuel db j k (force || decide (k ≠ .dir)))
        (hardOf := fun k => force || decide (k ≠ .dir)) (i := i) hr
        (fun x c m hrx hbx hc hd hex => ih x c m _ hrx hbx (fun j m' hm' => by
            obtain ⟨n', hn'⟩ := hex j m' hm'
            exact hM j n' hn') hc (by
            have := hrx c m hc
            rw [hd] at this
            omega))
        (sort (entries (srcidDirFlags db i) i)) (srcidDirFlags db i) (· = i)
        ((hperm.map _).nodup_iff.2 (entries_nodup _ i))
        (fun e he => by
          obtain ⟨m, h1, h2, h3⟩ := (mem_entries hb1).1 (hperm.mem_iff.1 he)
          exact ⟨m, h1, h2, h3⟩) hb1 e1
        (fun e he j hj hji => by
          obtain ⟨m, h1, h2, h3⟩ := (mem_entries hb1).1 (hperm.mem_iff.1 he)
          have := e1.ranked hr _ _ h1
          rw [h2] at this
          subst hji
          rcases hj.rank hr with h | h
          · rw [h] at this; omega
          · omega)
        hself
      have esub : ∀ j, (∃ e ∈ sort (entries (srcidDirFlags db i) i), Below db e.1 j) → Below db i j := by
        rintro j ⟨e, he, hj⟩
        obtain ⟨m, h1, h2, h3⟩ := (mem_entries hb1).1 (hperm.mem_iff.1 he)
        exact Below.trans (.step (n := m) h1 (by rw [h2]; exact .refl)) hj
      have hirr : ∀ e ∈ sort (entries (srcidDirFlags db i) i), ¬ Below db e.1 i := by
        intro e he hj
        obtain ⟨m, h1, h2, h3⟩ := (mem_entries hb1).1 (hperm.mem_iff.1 he)
        have := hr _ _ h1
        rw [h2] at this
        rcases hj.rank hr with h | h
        · rw [← h] at this; omega
        · omega
      rw [g1]
      simp only
      have e2 : Eff (Below db i) db db2 := (e1.mono hself).trans (g2.mono esub)
      obtain ⟨e3, e4⟩ := eff_delDir db2 i n
      refine ⟨_, rfl, e2.trans (e3.mono hself), ?_⟩
      intro b g m hin hg hm
      rcases hin.top with ⟨rfl, rfl⟩ | ⟨c, m', d, b', hc, hcd, hin', hd, hdx, h | h⟩
      · rw [hn] at hg
        cases hg
        obtain ⟨f1, f2, f3⟩ := delDir_flags (db := db2) (i := g) (n := n)
        have hkeep : ∀ j, ¬ Below db g j → db.normal g j = true → db2.normal g j = true := by
          intro j hj hl
          refine g2.normal g j ?_ (fun h => hj (esub j h)) hl
          rintro ⟨e, he, hj⟩
          exact hirr e he hj
        refine ⟨fun _ => e4, ?_, fun _ => ⟨fun j hj hl hkj => ?_, fun j hj hl hkj => ?_⟩,
          fun _ hj hkj => f3 (fun h => hj (hself _ h)) (by rw [e2.kind hj]; exact hkj), ?_, ?_, ?_⟩
        · simp [hk]
        · exact f1 j (fun h => hj (hself j h)) (hkeep j hj hl) (by rw [e2.kind hj]; exact hkj)
        · exact f2 j (fun h => hj (hself j h)) (hkeep j hj hl) (by rw [e2.kind hj]; exact hkj)
        all_goals simp [hk]
      · have hmem : (c, m'.kind) ∈ sort (entries (srcidDirFlags db i) i) :=
          hperm.mem_iff.2 ((mem_entries hb1).2 ⟨m', hc, hcd, rfl⟩)
        have hcl := g3 (c, m'.kind) hmem b' g m hin' hg hm (by
          rintro hgk hh rfl s hs hBs hds
          rw [hc] at hg
          cases hg
          exact srcid_flags hb hc hcd hgk hs (fun h => hBs (hself s h)) hds)
        rw [h.2]
        have hgi : g ≠ i := by
          rintro rfl
          exact hirr _ hmem hin'.isBelow
        have hcl' : Claim (Below db i) db db2 i g m (force || true) := by
          cases hh : ((force || decide (m'.kind ≠ .dir)) || b') with
          | true =>
            simp only [hh] at hcl
            rw [Bool.or_true]
            exact hcl
          | false =>
            simp only [Bool.or_eq_false_iff, decide_eq_false_iff_not, Decidable.not_not] at hh
            obtain ⟨⟨_, hmd⟩, hb'⟩ := hh
            have hmk : m.kind = .dir := by
              rcases hin'.top with ⟨h1, _⟩ | ⟨_, _, d2, _, _, _, _, hd2, _, h' | h'⟩
              · rw [h1, hc] at hg; cases hg; exact hmd
              · rw [hb'] at h'; exact absurd h'.2 (by decide)
              · rw [hc] at hd2; cases hd2; rw [hmd] at h'; exact absurd h'.1 (by decide)
            refine ⟨fun _ => hcl.gone (.inl (by rw [hmk]; decide)), ?_, fun h => hcl.parses h, hcl.parent, ?_, ?_, ?_⟩
            all_goals simp [hmk]
        exact Claim.wrap (R := fun _ => False) (.refl _ db) hcl' e3 (fun _ h => h.elim) (fun _ h => h) hself id hgi
          (fun _ _ h1 h2 => absurd h2 h1) e2
      · rw [hn] at hd
        cases hd
        rw [hk] at h
        exact absurd h.1 (by decide)

end Tup.Scan
