import Verif.FullScan.Del

/-! A file or a directory on the disk is recorded. -/

namespace Tup.FullScan

open Tup.Db Tup.Scan

variable {db db' db1 db2 : Db} {d i j k x : Nat} {name : Str} {t : Int × Int}

/-! ### The result does not depend on the bound -/

theorem normalLoop_mono (fuel : Nat) : ∀ (db : Db) (d : Nat) (x : Db × Nat), normalLoop fuel db d = some x →
    normalLoop (fuel + 1) db d = some x := by
  induction fuel with
  | zero => intro _ _ _ h; cases h
  | succ fuel ih =>
    intro db d x h
    rw [normalLoop] at h ⊢
    cases hn : db.node d with
    | none => rw [hn] at h; exact h
    | some n =>
      rw [hn] at h
      simp only at h ⊢
      split at h
      · rename_i hk; rw [if_pos hk]; exact ih _ _ _ h
      · rename_i hk; rw [if_neg hk]; exact h

theorem createNameFile_mono {fuel : Nat} {x : Db × Nat} (h : createNameFile fuel db d name t = some x) :
    createNameFile (fuel + 1) db d name t = some x := by
  unfold createNameFile makeDirsNormal at h ⊢
  simp only at h ⊢
  generalize (db.insertNode { dir := d, kind := .file, name := name, mtime := t }) = y at h ⊢
  cases hn : normalLoop fuel (y.1.addCreate d) d with
  | none => rw [hn] at h; cases h
  | some z => rw [hn] at h; rw [normalLoop_mono _ _ _ _ hn]; exact h

theorem createNameFile_le {fuel fuel' : Nat} (hle : fuel ≤ fuel') {x : Db × Nat} (h : createNameFile fuel db d name t = some x) :
    createNameFile fuel' db d name t = some x := by
  obtain ⟨c, rfl⟩ := Nat.le.dest hle
  induction c with
  | zero => exact h
  | succ c ih => exact createNameFile_mono (ih (by omega))

/-! ### Which directories become the user's -/

theorem normalLoop_below (fuel : Nat) : ∀ (db : Db) (d : Nat) (db' : Db) (d' : Nat), normalLoop fuel db d = some (db', d') →
    db'.top = db.top ∧ ∀ j, db'.node j ≠ db.node j → Below db j d := by
  induction fuel with
  | zero => intro _ _ _ _ h; cases h
  | succ fuel ih =>
    intro db d db' d' h
    rw [normalLoop] at h
    cases hn : db.node d with
    | none => rw [hn] at h; cases h; exact ⟨rfl, fun j hj => absurd rfl hj⟩
    | some n =>
      rw [hn] at h
      simp only at h
      split at h
      · obtain ⟨a, b⟩ := ih _ _ _ _ h
        refine ⟨a, fun j hj => ?_⟩
        by_cases hjd : j = d
        · rw [hjd]; exact .refl
        have hnode : ((db.setKind d .dir).delGhost d).node j = db.node j := by
          show (if j = d then _ else db.node j) = _
          rw [if_neg hjd]
        have hb := b j (by rw [hnode]; exact hj)
        refine .step hn ?_
        have : ∀ c, Below ((db.setKind d .dir).delGhost d) j c → Below db j c := by
          intro c hc
          induction hc with
          | refl => exact .refl
          | @step y q hy _ ih' =>
            have hy' : (if y = d then (db.node y).map (fun n => { n with kind := Kind.dir }) else db.node y) = some q := hy
            split at hy'
            · rename_i hyd
              rw [hyd, hn] at hy'
              cases hy'
              rw [hyd]
              exact .step hn ih'
            · exact .step hy' ih'
        exact this _ hb
      · cases h; exact ⟨rfl, fun j hj => absurd rfl hj⟩

theorem fresh_pos (node : Nat → Option Node) (t : Nat) : fresh node t ≠ 0 := by
  induction t with
  | zero => exact Nat.one_ne_zero
  | succ t ih => unfold fresh; split <;> omega

theorem insert_below (hg : Good db) {q : Node} (hi : db.node i = none) (hi0 : i ≠ 0) {y : Db}
    (hy : ∀ j, y.node j = if j = i then some q else db.node j) {c : Nat} (hb : Below y j c) :
    (c = 0 ∨ (db.node c).isSome) → Below db j c := by
  induction hb with
  | refl => exact fun _ => .refl
  | @step a m hm hb' ih =>
    intro hc
    rw [hy] at hm
    split at hm
    · rename_i ha
      rw [ha, hi] at hc
      rcases hc with hc | hc
      · exact absurd hc hi0
      · cases hc
    · exact .step hm (ih (hg.rooted a m hm))

theorem createNameFile_more (hg : Good db) {fuel : Nat} (hd : (db.node d).isSome)
    (h : createNameFile fuel db d name t = some (db', x)) :
    x ≠ 0 ∧ Bounded db' ∧ ∀ j, j ≠ x → db'.node j ≠ db.node j → Below db j d := by
  unfold createNameFile at h
  simp only at h
  have hfr := fresh_node hg.bounded
  have hpos := fresh_pos db.node db.top
  rw [Db.insertNode] at h
  generalize hi : fresh db.node db.top = i at hfr hpos h
  simp only at h
  generalize hy : (Db.addCreate _ d) = y at h
  have yn : ∀ j, y.node j = if j = i then some { dir := d, kind := .file, name := name, mtime := t } else db.node j := by
    intro j; rw [← hy]; rfl
  have yt : y.top = max db.top (i + 1) := by rw [← hy]; rfl
  unfold makeDirsNormal at h
  cases hl : normalLoop fuel y d with
  | none => rw [hl] at h; cases h
  | some z =>
    obtain ⟨z, d'⟩ := z
    rw [hl] at h
    simp only at h
    obtain ⟨a, b⟩ := normalLoop_below _ _ _ _ _ hl
    have key : ∀ z' : Db, z'.node = z.node → z'.top = z.top → x = i → db' = z' →
        x ≠ 0 ∧ Bounded db' ∧ ∀ j, j ≠ x → db'.node j ≠ db.node j → Below db j d := by
      intro z' h1 h2 h3 h4
      subst h4
      rw [h3]
      have hcase : ∀ j, j ≠ i → db'.node j ≠ db.node j → Below db j d := by
        intro j hj hne
        refine insert_below hg hfr hpos yn (b j ?_) (.inr hd)
        rw [yn, if_neg hj, ← h1]; exact hne
      refine ⟨hpos, ?_, hcase⟩
      intro j hj
      rw [h2, a, yt] at hj
      have hji : j ≠ i := by omega
      have hnb : ¬ Below db j d := by
        intro hb
        have hjn : db.node j = none := hg.bounded j (by omega)
        cases hb with
        | refl => rw [hjn] at hd; cases hd
        | step hn hb =>
          have : ∀ c, Below db j c → (c = 0 ∨ (db.node c).isSome) → j = 0 := by
            intro c hc
            induction hc with
            | refl =>
              intro h
              rcases h with h | h
              · exact h
              · rw [hjn] at h; cases h
            | step hm _ ih => exact fun _ => ih (hg.rooted _ _ hm)
          have := this _ hb (hg.rooted _ _ hn)
          omega
      by_cases hne : db'.node j = db.node j
      · rw [hne]; exact hg.bounded j (by omega)
      · exact absurd (hcase j hji hne) hnb
    cases hs : z.select d' gitignore with
    | none =>
      rw [hs] at h
      simp only at h
      cases h
      exact key _ rfl rfl rfl rfl
    | some g =>
      rw [hs] at h
      simp only at h
      cases h
      exact key _ (by split <;> rfl) (by split <;> rfl) rfl rfl

/-! ### Each of the ways in which a node is recorded -/

theorem grow_create (hg : Good db) {m : Node} (hd : db.node d = some m) (hdir : isDir m) (hs : db.select d name = none)
    (t : Int × Int) :
    ∃ db' x, Lim (fun fuel => createNameFile fuel db d name t) (db', x) ∧ Grow d name x db db' ∧
      db'.node x = some { dir := d, kind := .file, name := name, mtime := t } ∧ db'.create d = true := by
  obtain ⟨r, hr⟩ := hg.ranked
  obtain ⟨db', x, h1, h2, h3, h4, h5, h6, h7, h8, h9, h10⟩ := createNameFile_spec (fuel := r d + 1) (file := name) (t := t)
    hg.bounded hr hg.rooted (Nat.lt_succ_self _) (by rw [hd]; rfl)
  obtain ⟨m1, m2, m3⟩ := createNameFile_more hg (by rw [hd]; rfl) h1
  refine ⟨db', x, ⟨r d + 1, fun fuel hf => createNameFile_le hf h1⟩, ?_, h3, h8⟩
  refine ⟨⟨m, hd, hdir⟩, m1, m2, ?_, ?_, h4.1, h7, fun j h => by rw [h5]; exact h⟩
  · intro j hj
    rcases h10 j hj with a | ⟨n, a, b, c⟩
    · exact .inl a
    · refine .inr ⟨n, m3 j hj ?_, a, b, c⟩
      rw [c, a]
      intro he
      have := congrArg (Option.map Node.kind) he
      simp only [Option.map_some, b] at this
      cases this
  · refine ⟨_, h3, rfl, rfl, .inl rfl, .inl ⟨h2, fun j n hn hdn => select_none hg.bounded hs hn hdn⟩, fun h => ?_,
      fun _ => .inr (.inr h8), fun q hq => ?_⟩
    · cases h
    · rw [h2] at hq; cases hq

theorem row_pos (hg : Good db) {n : Node} (hn : db.node i = some n) : i ≠ 0 := by
  rintro rfl
  rw [hg.zero] at hn
  cases hn

theorem finish_same (db : Db) (name : Str) (i : Nat) (t : Int × Int) : finish db name i t false = (db, i, false) := by
  unfold finish configFlag
  simp

/-- A file that is known, and has not or has changed. -/
theorem grow_file (hg : Good db) {m n : Node} (hd : db.node n.dir = some m) (hdir : isDir m) (hn : db.node i = some n)
    (hk : n.kind = .file ∨ n.kind = .generated) :
    Grow n.dir n.name i db (finish db n.name i t (decide (n.mtime ≠ t))).1 ∧
      (finish db n.name i t (decide (n.mtime ≠ t))).1.node i = some { n with mtime := t } := by
  by_cases ht : n.mtime = t
  · have : decide (n.mtime ≠ t) = false := by simp [ht]
    rw [this, finish_same]
    refine ⟨⟨⟨m, hd, hdir⟩, row_pos hg hn, hg.bounded, fun _ _ => .inl rfl, ⟨n, hn, rfl, rfl, ?_, .inr ⟨n, hn, rfl, rfl, .inr rfl⟩,
      ?_, ?_, ?_⟩, rfl, fun _ h => h, fun _ h => h⟩, ?_⟩
    · rcases hk with hk | hk
      · exact .inl hk
      · exact .inr (.inl hk)
    · exact fun h => isKind_iff.2 ⟨n, hn, h⟩
    · exact fun h => .inl (isKind_iff.2 ⟨n, hn, h⟩)
    · intro q hq _ hne
      rw [hn] at hq
      cases hq
      exact absurd rfl hne
    · show db.node i = _
      rw [hn, ← ht]
  · have : decide (n.mtime ≠ t) = true := by simp [ht]
    rw [this]
    obtain ⟨y, h1, h2, h3, h4, h5, h6, _⟩ := finish_spec db n.name i t
    rw [h1]
    have hrow : y.node i = some { n with mtime := t } := by rw [h4, if_pos rfl, hn]; rfl
    refine ⟨⟨⟨m, hd, hdir⟩, row_pos hg hn, ?_, ?_, ⟨_, hrow, rfl, rfl, ?_, .inr ⟨n, hn, rfl, rfl, .inr rfl⟩, ?_, ?_, ?_⟩, h2.1, ?_,
      ?_⟩, hrow⟩
    · intro j hj
      rw [h3] at hj
      rw [h4, if_neg (by rintro rfl; rw [hg.bounded j hj] at hn; cases hn)]
      exact hg.bounded j hj
    · intro j hj
      left
      rw [h4, if_neg hj]
    · rcases hk with hk | hk
      · exact .inl hk
      · exact .inr (.inl hk)
    · exact fun h => isKind_iff.2 ⟨n, hn, h⟩
    · exact fun h => .inl (isKind_iff.2 ⟨n, hn, h⟩)
    · intro q hq _ _
      refine ⟨(h5 i).2 (.inr (.inl rfl)), fun hkg c hc => (h5 c).2 (.inr (.inr ⟨isKind_iff.2 ⟨n, hn, hkg⟩, hc⟩))⟩
    · exact fun j hj => (h6 j).2 (.inl hj)
    · exact fun j hj => (h5 j).2 (.inl hj)

/-- A ghost that has become a file. -/
theorem grow_ghost (hg : Good db) {m n : Node} (hd : db.node n.dir = some m) (hdir : isDir m) (hn : db.node i = some n)
    (hk : n.kind = .ghost) {b : Bool} (hb : n.mtime ≠ t → b = true) :
    Grow n.dir n.name i db (finish (ghostToFile db i n.dir) n.name i t b).1 ∧
      (finish (ghostToFile db i n.dir) n.name i t b).1.node i = some { n with mtime := t, kind := .file } := by
  obtain ⟨x, x1, x2, x3, x4, x5, x6, _⟩ := ghost_spec (d := n.dir) hn
  rw [← x1]
  have key : ∀ y : Db, y.top = x.top → y.normal = x.normal → (∀ j, x.create j = true → y.create j = true) →
      (∀ j, x.modify j = true → y.modify j = true) → (∀ j, j ≠ i → y.node j = x.node j) →
      y.node i = some { n with mtime := t, kind := .file } → Grow n.dir n.name i db y := by
    intro y h1 h2 h3 h4 h5 h6
    refine ⟨⟨m, hd, hdir⟩, row_pos hg hn, ?_, ?_, ⟨_, h6, rfl, rfl, .inl rfl, .inr ⟨n, hn, rfl, rfl, .inl hk⟩, ?_, ?_, ?_⟩,
      h2.trans x2.1, ?_, ?_⟩
    · intro j hj
      rw [h1, x3] at hj
      have hji : j ≠ i := by rintro rfl; rw [hg.bounded j hj] at hn; cases hn
      rw [h5 j hji, x4, if_neg hji]
      exact hg.bounded j hj
    · intro j hj
      left
      rw [h5 j hj, x4, if_neg hj]
    · intro h; cases h
    · exact fun _ => .inr (.inl (h4 i ((x5 i).2 (.inr rfl))))
    · intro q hq hne _
      rw [hn] at hq
      cases hq
      exact absurd hk hne
    · exact fun j hj => h3 j ((x6 j).2 (.inl hj))
    · exact fun j hj => h4 j ((x5 j).2 (.inl hj))
  cases b with
  | false =>
    rw [finish_same]
    have ht : n.mtime = t := by
      apply Classical.byContradiction
      intro h
      have := hb h
      cases this
    have hrow : x.node i = some { n with mtime := t, kind := .file } := by
      rw [x4, if_pos rfl, ← ht]
    exact ⟨key x rfl rfl (fun _ h => h) (fun _ h => h) (fun _ _ => rfl) hrow, hrow⟩
  | true =>
    obtain ⟨y, h1, h2, h3, h4, h5, h6, _⟩ := finish_spec x n.name i t
    rw [h1]
    have hrow : y.node i = some { n with mtime := t, kind := .file } := by rw [h4, if_pos rfl, x4, if_pos rfl]; rfl
    exact ⟨key y h3 h2.1 (fun j hj => (h6 j).2 (.inl hj)) (fun j hj => (h5 j).2 (.inl hj)) (fun j hj => by rw [h4, if_neg hj]) hrow,
      hrow⟩

/-- A directory that is not known. -/
theorem grow_mkdir (hg : Good db) {m : Node} (hd : db.node d = some m) (hdir : isDir m) (hs : db.select d name = none) :
    ∃ x, (db.insertNode { dir := d, kind := .dir, name := name }).2 = x ∧
      Grow d name x db ((db.insertNode { dir := d, kind := .dir, name := name }).1.addCreate x) ∧
      ((db.insertNode { dir := d, kind := .dir, name := name }).1.addCreate x).node x =
        some { dir := d, kind := .dir, name := name } := by
  refine ⟨_, rfl, ?_⟩
  have hfr := fresh_node hg.bounded
  have hpos := fresh_pos db.node db.top
  rw [Db.insertNode]
  generalize hi : fresh db.node db.top = i at hfr hpos
  simp only
  have hrow : ∀ y : Db, (∀ j, y.node j = if j = i then some { dir := d, kind := .dir, name := name } else db.node j) →
      y.node i = some { dir := d, kind := .dir, name := name } := by
    intro y h; rw [h, if_pos rfl]
  refine ⟨⟨⟨m, hd, hdir⟩, hpos, ?_, ?_, ⟨_, hrow _ (fun _ => rfl), rfl, rfl, .inr (.inr (.inl rfl)),
    .inl ⟨hfr, fun j n hn hdn => select_none hg.bounded hs hn hdn⟩, ?_, ?_, ?_⟩, rfl, ?_, fun _ h => h⟩, hrow _ (fun _ => rfl)⟩
  · intro j hj
    have hj' : max db.top (i + 1) ≤ j := hj
    show (if j = i then _ else db.node j) = none
    rw [if_neg (by omega)]
    exact hg.bounded j (by omega)
  · intro j hj
    left
    show (if j = i then _ else db.node j) = _
    rw [if_neg hj]
  · intro h; cases h
  · intro h; cases h
  · intro q hq; rw [hfr] at hq; cases hq
  · intro j hj
    show (db.create j || decide (j = i)) = true
    rw [hj]; rfl

/-- A ghost that has become a directory. -/
theorem grow_ghostdir (hg : Good db) {m n : Node} (hd : db.node n.dir = some m) (hdir : isDir m) (hn : db.node i = some n)
    (hk : n.kind = .ghost) :
    Grow n.dir n.name i db (Links.upgradeGhost db i .dir none) ∧
      (Links.upgradeGhost db i .dir none).node i = some { n with kind := .dir, src := none } := by
  have hnode : ∀ j, (Links.upgradeGhost db i .dir none).node j = if j = i then some { n with kind := .dir, src := none } else db.node j := by
    intro j
    unfold Links.upgradeGhost
    rw [if_neg (by decide), if_neg (by decide), if_neg (by decide)]
    show (if j = i then (if j = i then (db.node j).map _ else db.node j).map _ else if j = i then (db.node j).map _ else db.node j) = _
    by_cases h : j = i
    · rw [if_pos h, if_pos h, if_pos h, h, hn]; rfl
    · rw [if_neg h, if_neg h, if_neg h]
  have hrow := hnode i
  rw [if_pos rfl] at hrow
  refine ⟨⟨⟨m, hd, hdir⟩, row_pos hg hn, ?_, fun j hj => .inl (by rw [hnode, if_neg hj]), ⟨_, hrow, rfl, rfl, .inr (.inr (.inl rfl)),
    .inr ⟨n, hn, rfl, rfl, .inl hk⟩, ?_, ?_, ?_⟩, rfl, fun _ h => h, ?_⟩, hrow⟩
  · intro j hj
    have hj' : db.top ≤ j := hj
    rw [hnode, if_neg (by rintro rfl; rw [hg.bounded j hj'] at hn; cases hn)]
    exact hg.bounded j hj'
  · intro h; cases h
  · intro h; cases h
  · intro q hq hne
    rw [hn] at hq
    cases hq
    exact absurd hk hne
  · intro j hj
    show (db.modify j || decide (j = i)) = true
    rw [hj]; rfl

/-- A directory that is known. -/
theorem grow_dir (hg : Good db) {m n : Node} (hd : db.node n.dir = some m) (hdir : isDir m) (hn : db.node i = some n)
    (hk : isDir n) :
    Grow n.dir n.name i db (Links.setTransient db i false) ∧
      (Links.setTransient db i false).node i = some { n with transient := false } := by
  have hnode : ∀ j, (Links.setTransient db i false).node j = if j = i then some { n with transient := false } else db.node j := by
    intro j
    show (if j = i then (db.node j).map _ else db.node j) = _
    by_cases h : j = i
    · rw [if_pos h, if_pos h, h, hn]; rfl
    · rw [if_neg h, if_neg h]
  have hrow := hnode i
  rw [if_pos rfl] at hrow
  refine ⟨⟨⟨m, hd, hdir⟩, row_pos hg hn, ?_, fun j hj => .inl (by rw [hnode, if_neg hj]), ⟨_, hrow, rfl, rfl, .inr (.inr hk),
    .inr ⟨n, hn, rfl, rfl, .inr rfl⟩, ?_, ?_, ?_⟩, rfl, fun _ h => h, fun _ h => h⟩, hrow⟩
  · intro j hj
    have hj' : db.top ≤ j := hj
    rw [hnode, if_neg (by rintro rfl; rw [hg.bounded j hj'] at hn; cases hn)]
    exact hg.bounded j hj'
  · intro h
    rcases hk with hk | hk <;> rw [show n.kind = .generated from h] at hk <;> cases hk
  · intro h
    rcases hk with hk | hk <;> rw [show n.kind = .file from h] at hk <;> cases hk
  · intro q hq _ hne
    rw [hn] at hq
    cases hq
    exact absurd rfl hne

/-! ### Steps -/

/-- One entry of `d` has been dealt with. -/
structure Step (d : Nat) (N : Str → Prop) (db db' : Db) : Prop where
  good : Good db'
  frame : Frame d N db db'
  since : Since db db'

theorem Grow.step (h : Grow d name x db db') (hg : Good db) : Step d (fun a => a = name) db db' :=
  ⟨h.good hg, h.frame hg, h.since hg⟩

theorem Step.refl (hg : Good db) (d : Nat) (N : Str → Prop) : Step d N db db := ⟨hg, .refl _ _ _, .refl _⟩

theorem Step.trans {N1 N2 : Str → Prop} (h : Step d N1 db db1) (h' : Step d N2 db1 db2) (hg : Good db) (hrow : (db.node d).isSome) :
    Step d (fun a => N1 a ∨ N2 a) db db2 :=
  ⟨h'.good, h.frame.trans h'.frame hg h.good hrow, h.since.trans h'.since⟩

theorem Step.mono {N1 N2 : Str → Prop} (h : Step d N1 db db') (hN : ∀ a, N1 a → N2 a) (hg : Good db) : Step d N2 db db' :=
  ⟨h.good, h.frame.mono hN hg h.good.zero, h.since⟩

theorem Step.same {N : Str → Prop} (h : Step d N db db1) (h' : Step d N db1 db2) (hg : Good db) (hrow : (db.node d).isSome) :
    Step d N db db2 := (h.trans h' hg hrow).mono (fun _ h => h.elim id id) hg

/-- The directory itself is still there. -/
theorem Step.dir {N : Str → Prop} (h : Step d N db db') (hg : Good db) {m : Node} (hd : db.node d = some m) (hm : isDir m) :
    ∃ m', db'.node d = some m' ∧ isDir m' ∧ m'.name = m.name ∧ m'.dir = m.dir := by
  obtain ⟨m', h1, h2, h3, _, h4⟩ := h.frame.kept hd (not_under_self hg d N)
  refine ⟨m', h1, ?_, h3, h2⟩
  rcases h4 with h4 | ⟨_, h4⟩
  · unfold isDir; rw [h4]; exact hm
  · exact .inl h4

/-- No group has this name. -/
def Free (db : Db) (d : Nat) (name : Str) : Prop := ∀ i n, db.node i = some n → n.dir = d → n.name = name → n.kind ≠ .group

/-- The entry with this name is deleted for good: nothing or a ghost is left of it. -/
theorem del_gone {sort : List (Nat × Kind) → List (Nat × Kind)} (hsort : ∀ l, (sort l).Perm l) (hg : Good db) {n : Node}
    (hn : db.node i = some n) (hk : n.kind ≠ .group) :
    ∃ db', Lim (fun fuel => del sort fuel db i n.kind true) db' ∧ Step n.dir (fun a => a = n.name) db db' ∧ Gone db' i ∧ Kept db db' := by
  obtain ⟨db', h1, h2, h3, h4, _, h5, h6⟩ := del_lim hsort hg hn true
  refine ⟨db', h1, ⟨h2, h3, h4⟩, ?_, h5⟩
  by_cases hx : n.name = tupConfig
  · obtain ⟨F, hF⟩ := h1
    have := hF (F + 1) (by omega)
    simp only [del, hn, if_pos hx, Option.some.injEq] at this
    intro n' hn'
    rw [← this] at hn'
    have hn'' : (if i = i then (db.node i).map (fun n => { n with kind := Kind.ghost }) else db.node i) = some n' := hn'
    rw [if_pos rfl, hn] at hn''
    cases hn''
    rfl
  · exact (h6 false i n .refl hn hx).gone (.inr ⟨hk, rfl⟩)

/-- A file that is on the disk is recorded, with its time. -/
theorem fileMod_lim {sort : List (Nat × Kind) → List (Nat × Kind)} (hsort : ∀ l, (sort l).Perm l) (hg : Good db) {m : Node}
    (hd : db.node d = some m) (hdir : isDir m) (hfree : Free db d name) (t : Int × Int) :
    ∃ db' x b, Lim (fun fuel => fileMod sort fuel db d name t false false) (db', x, b) ∧ Step d (fun a => a = name) db db' ∧
      ∃ n, db'.node x = some n ∧ n.dir = d ∧ n.name = name ∧ (n.kind = .file ∨ n.kind = .generated) ∧ n.mtime = t := by
  have hcfg : ∀ (y : Db) (f : Str) (i : Nat) (b : Bool), (configFlag y f i b).node = y.node ∧ (configFlag y f i b).top = y.top ∧
      (configFlag y f i b).normal = y.normal ∧ (configFlag y f i b).create = y.create ∧ (configFlag y f i b).modify = y.modify := by
    intro y f i b
    unfold configFlag
    split <;> exact ⟨rfl, rfl, rfl, rfl, rfl⟩
  have grow_cfg : ∀ {y db0 : Db} {d i : Nat} {f g : Str} {b : Bool}, Grow d f i db0 y → Grow d f i db0 (configFlag y g i b) := by
    intro y db0 d i f g b h
    obtain ⟨c1, c2, c3, c4, c5⟩ := hcfg y g i b
    refine ⟨h.parent, h.pos, ?_, ?_, ?_, c3.trans h.normal, ?_, ?_⟩
    · intro j hj; rw [c1]; rw [c2] at hj; exact h.bounded j hj
    · rw [c1]; exact h.others
    · rw [c1, c4, c5]; exact h.here
    · rw [c4]; exact h.create
    · rw [c5]; exact h.modify
  cases hs : db.select d name with
  | none =>
    obtain ⟨y, x, ⟨F, hF⟩, h2, h3, _⟩ := grow_create hg hd hdir hs t
    refine ⟨configFlag y name x true, x, true, ⟨F, fun fuel hf => ?_⟩, (grow_cfg h2).step hg, _, (by rw [(hcfg _ _ _ _).1]; exact h3), rfl,
      rfl, .inl rfl, rfl⟩
    have := hF fuel hf
    simp only at this
    simp only [fileMod, hs, this]
  | some i =>
    obtain ⟨n, hn, rfl, rfl⟩ := select_some hs
    by_cases hkf : n.kind = .file ∨ n.kind = .generated
    · obtain ⟨g1, g2⟩ := grow_file (t := t) hg hd hdir hn hkf
      refine ⟨_, i, decide (n.mtime ≠ t), ⟨0, fun fuel _ => ?_⟩, g1.step hg, _, g2, rfl, rfl, hkf, rfl⟩
      show fileMod sort fuel db n.dir n.name t false false = _
      rw [fileMod_file hs hn hkf]
      unfold differs
      simp [finish]
    by_cases hkg : n.kind = .ghost
    · have hb : n.mtime ≠ t → decide (n.mtime ≠ t) = true := by intro h; simp [h]
      obtain ⟨g1, g2⟩ := grow_ghost (t := t) hg hd hdir hn hkg hb
      refine ⟨_, i, decide (n.mtime ≠ t), ⟨0, fun fuel _ => ?_⟩, g1.step hg, _, g2, rfl, rfl, .inl rfl, rfl⟩
      show fileMod sort fuel db n.dir n.name t false false = _
      rw [fileMod_ghost hs hn hkg]
      unfold differs
      simp [finish]
    · obtain ⟨y, ⟨F, hF⟩, s1, hgo, hkept⟩ := del_gone hsort hg hn (hfree i n hn rfl rfl)
      obtain ⟨m', d1, d2, _, _⟩ := s1.dir hg hd hdir
      have hmod : ∀ fuel, F ≤ fuel → fileMod sort fuel db n.dir n.name t false false =
          (match y.select n.dir n.name with
          | none =>
            match createNameFile fuel y n.dir n.name t with
            | none => none
            | some (db, j) => some (configFlag (if decide (n.mtime ≠ t) = true then changedFile db j t else db) n.name j true, j, true)
          | some j =>
            if y.isKind .ghost j then some (finish (ghostToFile y j n.dir) n.name j t (decide (n.mtime ≠ t))) else none) := by
        intro fuel hf
        have hdel := hF fuel hf
        simp only at hdel
        unfold fileMod
        rw [hs]
        simp only [hn]
        cases hk : n.kind with
        | file => exact absurd (.inl hk) hkf
        | generated => exact absurd (.inr hk) hkf
        | ghost => exact absurd hk hkg
        | _ =>
          rw [hk] at hdel
          simp only [hdel, Bool.false_and, Bool.or_false]
          rfl
      have hrow : (db.node n.dir).isSome := by rw [hd]; rfl
      cases hs' : y.select n.dir n.name with
      | none =>
        obtain ⟨z, x, ⟨F', hF'⟩, g1, g2, _⟩ := grow_create s1.good d1 d2 hs' t
        have st2 := s1.same (g1.step s1.good) hg hrow
        obtain ⟨mz, z1, z2, _⟩ := st2.dir hg hd hdir
        by_cases ht : n.mtime = t
        · refine ⟨configFlag z n.name x true, x, true, ⟨F + F', fun fuel hf => ?_⟩, s1.same ((grow_cfg g1).step s1.good) hg hrow,
            { dir := n.dir, kind := .file, name := n.name, mtime := t }, (by rw [(hcfg _ _ _ _).1]; exact g2), rfl, rfl, .inl rfl, rfl⟩
          have hc := hF' fuel (by omega)
          simp only at hc
          show fileMod sort fuel db n.dir n.name t false false = _
          rw [hmod fuel (by omega), hs']
          simp only [hc]
          rw [if_neg (by simp [ht])]
        · have hfin : (finish z n.name x t true).1 = configFlag (changedFile z x t) n.name x true := by
            unfold finish; rfl
          obtain ⟨w, w1, w2, w3, w4, w5, w6, _⟩ := finish_spec z n.name x t
          have hrw : w.node x = some { dir := n.dir, kind := .file, name := n.name, mtime := t } := by
            rw [w4, if_pos rfl, g2]; rfl
          have gz : Grow n.dir n.name x z w := by
            refine ⟨⟨mz, z1, z2⟩, row_pos st2.good g2, ?_, fun j hj => .inl (by rw [w4, if_neg hj]), ⟨_, hrw, rfl, rfl, .inl rfl,
              .inr ⟨_, g2, rfl, rfl, .inr rfl⟩, ?_, ?_, ?_⟩, w2.1, fun j hj => (w6 j).2 (.inl hj), fun j hj => (w5 j).2 (.inl hj)⟩
            · intro j hj
              rw [w3] at hj
              rw [w4, if_neg (by rintro rfl; rw [st2.good.bounded j hj] at g2; cases g2)]
              exact st2.good.bounded j hj
            · intro h; cases h
            · exact fun _ => .inl (isKind_iff.2 ⟨_, g2, rfl⟩)
            · intro q hq _ hne
              rw [g2] at hq
              cases hq
              exact absurd rfl hne
          refine ⟨w, x, true, ⟨F + F', fun fuel hf => ?_⟩, st2.same (gz.step st2.good) hg hrow, _, hrw, rfl, rfl, .inl rfl, rfl⟩
          have hc := hF' fuel (by omega)
          simp only at hc
          show fileMod sort fuel db n.dir n.name t false false = _
          rw [hmod fuel (by omega), hs']
          simp only [hc]
          rw [if_pos (by simp [ht]), ← hfin, w1]
      | some j =>
        obtain ⟨q, q1, q2, q3⟩ := select_some hs'
        obtain ⟨q', a1, a2, a3, a4, _⟩ := hkept.row j q q1
        have hji : j = i := hg.unique j i q' n a1 hn (a2.symm.trans q2) (a3.symm.trans q3)
        have hqk : q.kind = .ghost := hgo q (by rw [← hji]; exact q1)
        have hqm : q.mtime = n.mtime := by
          rw [hji, hn] at a1
          cases a1
          exact a4
        have hb : q.mtime ≠ t → decide (n.mtime ≠ t) = true := by intro h; rw [hqm] at h; simp [h]
        obtain ⟨g1, g2⟩ := grow_ghost (t := t) (b := decide (n.mtime ≠ t)) s1.good (by rw [q2]; exact d1) d2 q1 hqk hb
        rw [q2, q3] at g1 g2
        refine ⟨_, j, decide (n.mtime ≠ t), ⟨F, fun fuel hf => ?_⟩, s1.same (g1.step s1.good) hg hrow, _, g2, rfl, rfl, .inl rfl, rfl⟩
        show fileMod sort fuel db n.dir n.name t false false = _
        rw [hmod fuel hf, hs']
        simp only
        rw [if_pos (isKind_iff.2 ⟨q, q1, hqk⟩)]
        simp [finish]

/-- A directory that is on the disk is recorded. -/
theorem createNode_lim {sort : List (Nat × Kind) → List (Nat × Kind)} (hsort : ∀ l, (sort l).Perm l) (hg : Good db) {m : Node}
    (hd : db.node d = some m) (hdir : isDir m) (hfree : Free db d name) :
    ∃ db' x, Lim (fun fuel => Links.createNode sort fuel db d name .dir none false) (db', x) ∧ Step d (fun a => a = name) db db' ∧
      ∃ n, db'.node x = some n ∧ n.dir = d ∧ n.name = name ∧ isDir n := by
  have base : ∀ (db : Db) (m : Node), Good db → db.node d = some m → isDir m →
      (∀ i n, db.node i = some n → n.dir = d → n.name = name → n.kind = .ghost ∨ isDir n) →
      ∃ db' x, Lim (fun fuel => Links.createNode sort fuel db d name .dir none false) (db', x) ∧ Step d (fun a => a = name) db db' ∧
        ∃ n, db'.node x = some n ∧ n.dir = d ∧ n.name = name ∧ isDir n := by
    intro db m hg hd hdir hall
    cases hs : db.select d name with
    | none =>
      obtain ⟨x, g1, g2, g3⟩ := grow_mkdir hg hd hdir hs
      refine ⟨_, x, ⟨1, fun fuel hf => ?_⟩, g2.step hg, _, g3, rfl, rfl, .inl rfl⟩
      obtain ⟨f, rfl⟩ : ∃ f, fuel = f + 1 := ⟨fuel - 1, by omega⟩
      simp only [Links.createNode, hs, if_true]
      rw [g1]
    | some i =>
      obtain ⟨n, hn, rfl, rfl⟩ := select_some hs
      rcases hall i n hn rfl rfl with hk | hk
      · obtain ⟨g1, g2⟩ := grow_ghostdir hg hd hdir hn hk
        refine ⟨_, i, ⟨1, fun fuel hf => ?_⟩, g1.step hg, _, g2, rfl, rfl, .inl rfl⟩
        obtain ⟨f, rfl⟩ : ∃ f, fuel = f + 1 := ⟨fuel - 1, by omega⟩
        simp only [Links.createNode, hs, hn, if_pos hk]
      · obtain ⟨g1, g2⟩ := grow_dir hg hd hdir hn hk
        refine ⟨_, i, ⟨1, fun fuel hf => ?_⟩, g1.step hg, _, g2, rfl, rfl, hk⟩
        obtain ⟨f, rfl⟩ : ∃ f, fuel = f + 1 := ⟨fuel - 1, by omega⟩
        simp only [Links.createNode, hs, hn]
        rw [if_neg (by rcases hk with e | e <;> rw [e] <;> decide), if_neg]
        rintro ⟨a, b⟩
        rcases hk with e | e
        · exact a e
        · exact b ⟨e, trivial⟩
  by_cases hall : ∀ i n, db.node i = some n → n.dir = d → n.name = name → n.kind = .ghost ∨ isDir n
  · exact base db m hg hd hdir hall
  · have : ∃ i n, db.node i = some n ∧ n.dir = d ∧ n.name = name ∧ ¬ (n.kind = .ghost ∨ isDir n) := by
      apply Classical.byContradiction
      intro hno
      refine hall fun i n h1 h2 h3 => ?_
      apply Classical.byContradiction
      exact fun h4 => hno ⟨i, n, h1, h2, h3, h4⟩
    obtain ⟨i, n, hn, rfl, rfl, hk⟩ := this
    obtain ⟨y, ⟨F, hF⟩, s1, hgo, hkept⟩ := del_gone hsort hg hn (hfree i n hn rfl rfl)
    obtain ⟨m', d1, d2, _, _⟩ := s1.dir hg hd hdir
    obtain ⟨z, x, ⟨F', hF'⟩, s2, r⟩ := base y m' s1.good d1 d2 (by
      intro j q q1 q2 q3
      obtain ⟨q', a1, a2, a3, _⟩ := hkept.row j q q1
      have hji : j = i := hg.unique j i q' n a1 hn (a2.symm.trans q2) (a3.symm.trans q3)
      exact .inl (hgo q (by rw [← hji]; exact q1)))
    refine ⟨z, x, ⟨F + F' + 1, fun fuel hf => ?_⟩, s1.same s2 hg (by rw [hd]; rfl), r⟩
    obtain ⟨f, rfl⟩ : ∃ f, fuel = f + 1 := ⟨fuel - 1, by omega⟩
    have h1 := hF f (by omega)
    have h2 := hF' f (by omega)
    simp only at h1 h2
    have hs := select_eq hg.bounded hg.unique hn
    simp only [Links.createNode, hs, hn]
    rw [if_neg (fun e => hk (.inl e)), if_pos]
    · rw [h1]; exact h2
    · exact ⟨fun e => hk (.inr (.inl e)), fun e => hk (.inr (.inr e.1))⟩

end Tup.FullScan
