import Verif.FullScan.Lost

/-! The walk over the directories. -/

namespace Tup.FullScan

open Tup.Db Tup.Scan

variable {db db' db1 db2 : Db} {d i j k x : Nat} {name : Str} {N : Str → Prop}

/-- All entries that are not on the disk. -/
theorem missing_lim {sort : List (Nat × Kind) → List (Nat × Kind)} (hsort : ∀ l, (sort l).Perm l) (l : List Nat) :
    ∀ (db : Db), Good db → (db.node d).isSome → l.Nodup → (∀ i ∈ l, ∃ n, db.node i = some n ∧ n.dir = d) →
    ∃ db', Lim (fun fuel => missing sort fuel db l) db' ∧
      Step d (fun a => ∃ i ∈ l, ∃ n, db.node i = some n ∧ n.name = a) db db' ∧
      ∀ i' n', db'.node i' = some n' → n'.dir = d → (∃ i ∈ l, ∃ n, db.node i = some n ∧ n.name = n'.name) → LostAt db' i' := by
  induction l with
  | nil =>
    intro db hg _ _ _
    refine ⟨db, ⟨0, fun _ _ => rfl⟩, .refl hg _ _, ?_⟩
    rintro i' n' _ _ ⟨i, hi, _⟩
    cases hi
  | cons a l ih =>
    intro db hg hd hnd hl
    obtain ⟨n, hn, rfl⟩ := hl a (.head _)
    obtain ⟨db1, ⟨F, hF⟩, s1, l1⟩ := missing_one hsort hg hn
    have hnd' := List.nodup_cons.1 hnd
    have hne : ∀ i ∈ l, ∀ m, db.node i = some m → m.name ≠ n.name := by
      intro i hi m hm he
      obtain ⟨m', hm', hdm⟩ := hl i (.tail _ hi)
      rw [hm] at hm'
      cases hm'
      have : i = a := hg.unique i a m n hm hn hdm he
      exact hnd'.1 (this ▸ hi)
    have hsame : ∀ i ∈ l, ∀ m, db.node i = some m → db1.node i = some m := by
      intro i hi m hm
      obtain ⟨m', hm', hdm⟩ := hl i (.tail _ hi)
      rw [hm] at hm'
      cases hm'
      exact (s1.frame.entry hg hm hdm (hne i hi m hm)).1
    have hd1 : (db1.node n.dir).isSome := by
      obtain ⟨q, hq⟩ := Option.isSome_iff_exists.1 hd
      obtain ⟨q', a1, _⟩ := s1.frame.kept hq (not_under_self hg _ _)
      rw [a1]; rfl
    obtain ⟨db2, ⟨F', hF'⟩, s2, l2⟩ := ih db1 s1.good hd1 hnd'.2 fun i hi => by
      obtain ⟨m, hm, hdm⟩ := hl i (.tail _ hi)
      exact ⟨m, hsame i hi m hm, hdm⟩
    have hnames : ∀ b, (∃ i ∈ l, ∃ m, db1.node i = some m ∧ m.name = b) ↔ (∃ i ∈ l, ∃ m, db.node i = some m ∧ m.name = b) := by
      intro b
      constructor
      · rintro ⟨i, hi, m, hm, hb⟩
        obtain ⟨m', hm', _⟩ := hl i (.tail _ hi)
        rw [hsame i hi m' hm'] at hm
        cases hm
        exact ⟨i, hi, _, hm', hb⟩
      · rintro ⟨i, hi, m, hm, hb⟩
        exact ⟨i, hi, m, hsame i hi m hm, hb⟩
    refine ⟨db2, ⟨F + F', fun fuel hf => ?_⟩, ?_, ?_⟩
    · have h1 := hF fuel (by omega)
      have h2 := hF' fuel (by omega)
      simp only at h1 h2
      simp only [missing, h1, h2]
    · refine (s1.trans s2 hg hd).mono ?_ hg
      rintro b (hb | hb)
      · exact ⟨a, .head _, n, hn, hb.symm⟩
      · obtain ⟨i, hi, r⟩ := (hnames b).1 hb
        exact ⟨i, .tail _ hi, r⟩
    · rintro i' n' hi' hd' ⟨i, hi, m, hm, hmn⟩
      by_cases hin : ∃ i ∈ l, ∃ m, db1.node i = some m ∧ m.name = n'.name
      · exact l2 i' n' hi' hd' hin
      · obtain ⟨e1, _⟩ := s2.frame.entry_back s1.good s2.good hi' hd' hin
        have hnm : n'.name = n.name := by
          rcases List.mem_cons.1 hi with rfl | hi
          · rw [hn] at hm; cases hm; exact hmn.symm
          · exact absurd ((hnames _).2 ⟨i, hi, m, hm, hmn⟩) hin
        exact (l1 i' n' e1 hd' hnm).keep (s2.frame.same s1.good s2.good e1 hd' hin) s2.since e1 .refl

/-- The entries of the directory `k` that are not on the disk are lost. -/
def Only (db : Db) (k : Nat) (names : List Str) : Prop :=
  ∀ i n, db.node i = some n → n.dir = k → n.name ∉ names → isVirtual n = false → LostAt db i

/-- What is on the disk is recorded below `k`. -/
def Recorded (db : Db) : Nat → Listing → Prop
  | _, .nil => True
  | k, .file a t rest => (Pel.ignored a = false → ∃ f n, db.node f = some n ∧ n.dir = k ∧ n.name = a ∧
      (n.kind = .file ∨ n.kind = .generated) ∧ n.mtime = t) ∧ Recorded db k rest
  | k, .dir a sub rest => (Pel.ignored a = false → ∃ f n, db.node f = some n ∧ n.dir = k ∧ n.name = a ∧ isDir n ∧
      Recorded db f sub ∧ Only db f sub.names) ∧ Recorded db k rest
  | k, .other _ rest => Recorded db k rest

theorem Only.keep {f : Nat} {l : List Str} (h : Only db k l) (hs : Same f db db') (hc : Since db db') (hf' : Below db' f k) :
    Only db' k l := by
  intro i n hi hd hnm hv
  have hb' : Below db' f i := .step hi (by rw [hd]; exact hf')
  obtain ⟨a, b⟩ := hs.back i n hb' hi
  exact (h i n b hd hnm hv).keep hs hc b a

theorem Recorded.keep {f : Nat} (hs : Same f db db') (hc : Since db db') (l : Listing) :
    ∀ k, Recorded db k l → Below db f k → Recorded db' k l := by
  induction l with
  | nil => exact fun _ _ _ => trivial
  | file a t rest ih =>
    intro k h hb
    refine ⟨fun ha => ?_, ih k h.2 hb⟩
    obtain ⟨x, n, h1, h2, h3, h4⟩ := h.1 ha
    exact ⟨x, n, (hs.to x n (.step h1 (by rw [h2]; exact hb)) h1).2, h2, h3, h4⟩
  | dir a sub rest ih1 ih2 =>
    intro k h hb
    refine ⟨fun ha => ?_, ih2 k h.2 hb⟩
    obtain ⟨x, n, h1, h2, h3, h4, h5, h6⟩ := h.1 ha
    have hbx : Below db f x := .step h1 (by rw [h2]; exact hb)
    obtain ⟨b1, b2⟩ := hs.to x n hbx h1
    exact ⟨x, n, b2, h2, h3, h4, ih1 x h5 hbx, h6.keep hs hc b1⟩
  | other a rest ih => exact fun k h hb => ih k h hb

/-- The things in a directory are still recorded after things with other names have changed. -/
theorem Recorded.step (h : Step d N db db') (hg : Good db) (l : Listing) : Recorded db d l → (∀ a ∈ l.names, ¬ N a) → Recorded db' d l := by
  induction l with
  | nil => exact fun _ _ => trivial
  | file a t rest ih =>
    intro hr hN
    refine ⟨fun ha => ?_, ih hr.2 fun b hb => hN b (.tail _ hb)⟩
    obtain ⟨x, n, h1, h2, h3, h4⟩ := hr.1 ha
    exact ⟨x, n, (h.frame.entry hg h1 h2 (by rw [h3]; exact hN a (.head _))).1, h2, h3, h4⟩
  | dir a sub rest _ ih =>
    intro hr hN
    refine ⟨fun ha => ?_, ih hr.2 fun b hb => hN b (.tail _ hb)⟩
    obtain ⟨x, n, h1, h2, h3, h4, h5, h6⟩ := hr.1 ha
    have hna : ¬ N n.name := by rw [h3]; exact hN a (.head _)
    have hs := h.frame.same hg h.good h1 h2 hna
    exact ⟨x, n, (h.frame.entry hg h1 h2 hna).1, h2, h3, h4, Recorded.keep hs h.since _ _ h5 .refl, h6.keep hs h.since .refl⟩
  | other a rest ih =>
    intro hr hN
    exact ih hr fun b hb => hN b (.tail _ hb)

/-- A name occurs only once in a directory. -/
def Listing.Distinct : Listing → Prop
  | .nil => True
  | .file a _ rest => a ∉ rest.names ∧ rest.Distinct
  | .dir a sub rest => a ∉ rest.names ∧ sub.Distinct ∧ rest.Distinct
  | .other a rest => a ∉ rest.names ∧ rest.Distinct

/-- The names on the disk, in all directories. -/
def Listing.all : Listing → List Str
  | .nil => []
  | .file a _ rest => a :: rest.all
  | .dir a sub rest => a :: (sub.all ++ rest.all)
  | .other a rest => a :: rest.all

/-- Nothing on the disk has the name of a group. -/
def NoGroup (db : Db) (l : List Str) : Prop := ∀ j n, db.node j = some n → n.kind = .group → n.name ∉ l

theorem NoGroup.keep {l l' : List Str} (h : NoGroup db l) (hc : Since db db') (hl : ∀ a ∈ l', a ∈ l) : NoGroup db' l' :=
  fun j n hn hk ha => h j n (hc.group j n hn hk) hk (hl _ ha)

theorem NoGroup.free {l : List Str} (h : NoGroup db l) (ha : name ∈ l) : Free db d name := by
  intro i n hn _ hnm hk
  exact h i n hn hk (by rw [hnm]; exact ha)

/-- The entries that have not been found. -/
def remaining (db : Db) (d : Nat) (root : List Nat) (names : List Str) : List Nat :=
  root.filter fun i => !names.any fun a => decide (db.select d a = some i)

theorem remaining_nil (db : Db) (d : Nat) (root : List Nat) : remaining db d root [] = root := by
  unfold remaining
  simp

theorem remaining_cons (db : Db) (d : Nat) (root : List Nat) (a : Str) (l : List Str) :
    remaining db d (strike db d a root) l = remaining db d root (a :: l) := by
  unfold remaining strike
  cases hs : db.select d a with
  | none =>
    simp only [List.any_cons, hs, reduceCtorEq, decide_false, Bool.false_or]
  | some j =>
    simp only [List.any_cons, hs, List.filter_filter, Option.some.injEq]
    apply List.filter_congr
    intro i _
    by_cases h : i = j
    · simp [h]
    · have h' : ¬ j = i := fun e => h e.symm
      simp [h, h']

theorem remaining_congr (root : List Nat) {l : List Str} (h : ∀ a ∈ l, db'.select d a = db.select d a) :
    remaining db' d root l = remaining db d root l := by
  unfold remaining
  apply List.filter_congr
  intro i _
  congr 1
  induction l with
  | nil => rfl
  | cons a l ih => simp only [List.any_cons, h a (.head _), ih fun b hb => h b (.tail _ hb)]

theorem mem_dirTree (hg : Good db) : i ∈ dirTree db d ↔ ∃ n, db.node i = some n ∧ n.dir = d ∧ isVirtual n = false ∧
    (n.kind = .file ∨ n.kind = .dir ∨ n.kind = .generated ∨ n.kind = .generatedDir) := by
  unfold dirTree
  rw [List.mem_filter, List.mem_range]
  cases hn : db.node i with
  | none => simp
  | some n =>
    have := lt_top hg.bounded hn
    simp [this, and_assoc, or_assoc]

theorem mem_remaining (hg : Good db) {l : List Str} : i ∈ remaining db d (dirTree db d) l ↔ ∃ n, db.node i = some n ∧ n.dir = d ∧ isVirtual n = false ∧
    (n.kind = .file ∨ n.kind = .dir ∨ n.kind = .generated ∨ n.kind = .generatedDir) ∧ n.name ∉ l := by
  unfold remaining
  rw [List.mem_filter, mem_dirTree hg]
  constructor
  · rintro ⟨⟨n, h1, h2, h3, h4⟩, h5⟩
    refine ⟨n, h1, h2, h3, h4, fun ha => ?_⟩
    have := select_eq hg.bounded hg.unique h1
    rw [h2] at this
    simp only [Bool.not_eq_true', List.any_eq_false, decide_eq_true_eq] at h5
    exact h5 _ ha this
  · rintro ⟨n, h1, h2, h3, h4, h5⟩
    refine ⟨⟨n, h1, h2, h3, h4⟩, ?_⟩
    simp only [Bool.not_eq_true', List.any_eq_false, decide_eq_true_eq]
    intro a ha hs
    obtain ⟨m, m1, _, m3⟩ := select_some hs
    rw [h1] at m1
    cases m1
    exact h5 (m3 ▸ ha)

/-- A node that is not one of the four kinds loses nothing. -/
theorem lost_of_kind (hn : ∀ m, db.node i = some m → m.kind ≠ .file ∧ m.kind ≠ .dir ∧ m.kind ≠ .generated ∧ m.kind ≠ .generatedDir) :
    LostAt db i := by
  have : ∀ b j, Inside db i b j → j = i := by
    intro b j h
    induction h with
    | refl => rfl
    | dir _ _ hq hk _ ih => rw [ih] at hq; exact absurd hk (hn _ hq).2.1
    | generated _ _ hq hk _ ih => rw [ih] at hq; exact absurd hk (hn _ hq).2.2.2
  intro b j m h hm _
  rw [this b j h] at hm
  obtain ⟨a, b, c, _⟩ := hn m hm
  exact ⟨a, b, fun e => absurd e c⟩

theorem Step.lift (h : Step k N db db') (hg : Good db) {n : Node} (hk : db.node k = some n) : Step n.dir (fun a => a = n.name) db db' :=
  ⟨h.good, h.frame.lift hg h.good.zero hk, h.since⟩

/-- The end of the walk over one directory: what is there is recorded, and then the rest is deleted. -/
theorem finish_dir {sort : List (Nat × Kind) → List (Nat × Kind)} {order : List Nat → List Nat} (hsort : ∀ l, (sort l).Perm l)
    (horder : ∀ l, (order l).Perm l) (hg : Good db) {m : Node} (hk : db.node k = some m) (hdir : isDir m) {l : Listing}
    (s : Step k (fun a => a ∈ l.names) db db1) (hr : Recorded db1 k l) :
    ∃ db2, Lim (fun fuel => missing sort fuel db1 (order (remaining db k (dirTree db k) l.names))) db2 ∧ Step k (fun _ => True) db db2 ∧
      Recorded db2 k l ∧ Only db2 k l.names := by
  have hmem : ∀ i, i ∈ order (remaining db k (dirTree db k) l.names) ↔ ∃ n, db.node i = some n ∧ n.dir = k ∧ isVirtual n = false ∧
      (n.kind = .file ∨ n.kind = .dir ∨ n.kind = .generated ∨ n.kind = .generatedDir) ∧ n.name ∉ l.names := by
    intro i
    rw [(horder _).mem_iff]
    exact mem_remaining hg
  have hnd : (order (remaining db k (dirTree db k) l.names)).Nodup := by
    refine (horder _).symm.nodup ?_
    unfold remaining dirTree
    exact (List.nodup_range.filter _).filter _
  generalize order (remaining db k (dirTree db k) l.names) = left at hmem hnd
  obtain ⟨m1, k1, k2, _, _⟩ := s.dir hg hk hdir
  have hrow : ∀ i ∈ left, ∃ n, db.node i = some n ∧ db1.node i = some n ∧ n.dir = k ∧ n.name ∉ l.names := by
    intro i hi
    obtain ⟨n, h1, h2, _, _, h5⟩ := (hmem i).1 hi
    exact ⟨n, h1, (s.frame.entry hg h1 h2 h5).1, h2, h5⟩
  obtain ⟨db2, hlim, s2, hl2⟩ := missing_lim (d := k) hsort left db1 s.good (by rw [k1]; rfl) hnd fun i hi => by
    obtain ⟨n, _, h2, h3, _⟩ := hrow i hi
    exact ⟨n, h2, h3⟩
  refine ⟨db2, hlim, (s.trans s2 hg (by rw [hk]; rfl)).mono (fun _ _ => trivial) hg, ?_, ?_⟩
  · refine Recorded.step s2 s.good l hr ?_
    rintro a ha ⟨i, hi, n, hn, rfl⟩
    obtain ⟨n', _, h2, _, h4⟩ := hrow i hi
    rw [hn] at h2
    cases h2
    exact h4 ha
  · intro i n hi hd hnm hv
    by_cases hin : ∃ i ∈ left, ∃ m, db1.node i = some m ∧ m.name = n.name
    · exact hl2 i n hi hd hin
    · have e1 := (s2.frame.entry_back s.good s2.good hi hd hin).1
      have e0 := (s.frame.entry_back hg s.good e1 hd hnm).1
      refine lost_of_kind fun q hq => ?_
      rw [hi] at hq
      cases hq
      have hno : ¬ (n.kind = .file ∨ n.kind = .dir ∨ n.kind = .generated ∨ n.kind = .generatedDir) := fun hkk =>
        hin ⟨i, (hmem i).2 ⟨n, e0, hd, hv, hkk, hnm⟩, n, e1, rfl⟩
      exact ⟨fun e => hno (.inl e), fun e => hno (.inr (.inl e)), fun e => hno (.inr (.inr (.inl e))),
        fun e => hno (.inr (.inr (.inr e)))⟩

/-- The walk over the things in a directory. -/
theorem watch_lim {sort : List (Nat × Kind) → List (Nat × Kind)} {order : List Nat → List Nat} (hsort : ∀ l, (sort l).Perm l)
    (horder : ∀ l, (order l).Perm l) (l : Listing) : ∀ (db : Db) (d : Nat) (root : List Nat) (m : Node), Good db → db.node d = some m → isDir m →
      l.Distinct → NoGroup db l.all →
      ∃ db', Lim (fun fuel => watch sort order fuel db d root l) (db', remaining db d root l.names) ∧
        Step d (fun a => a ∈ l.names) db db' ∧ Recorded db' d l := by
  induction l with
  | nil =>
    intro db d root m hg hd hm _ _
    exact ⟨db, ⟨0, fun fuel _ => by simp only [watch, Listing.names, remaining_nil]⟩, .refl hg _ _, trivial⟩
  | file a t rest ih =>
    intro db d root m hg hd hm hdis hng
    have hrow : (db.node d).isSome := by rw [hd]; rfl
    by_cases hig : Pel.ignored a = true
    · obtain ⟨db', ⟨F, hF⟩, s, hr⟩ := ih db d (strike db d a root) m hg hd hm hdis.2 fun j n hn hk ha => hng j n hn hk (.tail _ ha)
      refine ⟨db', ⟨F, fun fuel hf => ?_⟩, s.mono (fun _ h => .tail _ h) hg, fun h => ?_, hr⟩
      · have := hF fuel hf
        simp only [remaining_cons] at this
        simp only [watch, if_pos hig, this, Listing.names]
      · rw [hig] at h; cases h
    · obtain ⟨db1, x, b, ⟨F, hF⟩, s1, n, n1, n2, n3, n4, n5⟩ := fileMod_lim (t := t) hsort hg hd hm (hng.free (.head _) : Free db d a)
      obtain ⟨m1, d1, d2, _, _⟩ := s1.dir hg hd hm
      obtain ⟨db2, ⟨F', hF'⟩, s2, hr⟩ := ih db1 d (strike db d a root) m1 s1.good d1 d2 hdis.2 (hng.keep s1.since fun b hb => .tail _ hb)
      have hsel : ∀ b ∈ rest.names, db1.select d b = db.select d b := fun b hb =>
        s1.frame.select hg s1.good fun e => hdis.1 (e ▸ hb)
      refine ⟨db2, ⟨F + F', fun fuel hf => ?_⟩, ?_, fun _ => ⟨x, n, ?_, n2, n3, n4, n5⟩, hr⟩
      · have h1 := hF fuel (by omega)
        have h2 := hF' fuel (by omega)
        simp only [remaining_congr _ hsel, remaining_cons] at h1 h2
        simp only [watch, if_neg hig, h1, h2, Listing.names]
      · refine (s1.trans s2 hg hrow).mono ?_ hg
        rintro b (rfl | hb)
        · exact .head _
        · exact .tail _ hb
      · exact (s2.frame.entry s1.good n1 n2 (by rw [n3]; exact hdis.1)).1
  | dir a sub rest ih1 ih2 =>
    intro db d root m hg hd hm hdis hng
    have hrow : (db.node d).isSome := by rw [hd]; rfl
    by_cases hig : Pel.ignored a = true
    · obtain ⟨db', ⟨F, hF⟩, s, hr⟩ := ih2 db d (strike db d a root) m hg hd hm hdis.2.2 fun j n hn hk ha =>
        hng j n hn hk (.tail _ (List.mem_append_right _ ha))
      refine ⟨db', ⟨F, fun fuel hf => ?_⟩, s.mono (fun _ h => .tail _ h) hg, fun h => ?_, hr⟩
      · have := hF fuel hf
        simp only [remaining_cons] at this
        simp only [watch, if_pos hig, this, Listing.names]
      · rw [hig] at h; cases h
    · obtain ⟨db1, k, ⟨F1, hF1⟩, s1, n, n1, n2, n3, n4⟩ := createNode_lim hsort hg hd hm (hng.free (.head _) : Free db d a)
      obtain ⟨db2, ⟨F2, hF2⟩, s2, hr2⟩ := ih1 db1 k (dirTree db1 k) n s1.good n1 n4 hdis.2.1
        (hng.keep s1.since fun b hb => .tail _ (List.mem_append_left _ hb))
      obtain ⟨db3, ⟨F3, hF3⟩, s3, hr3, ho3⟩ := finish_dir hsort horder s1.good n1 n4 s2 hr2
      have s3' := s3.lift s1.good n1
      rw [n2, n3] at s3'
      have s13 := s1.same s3' hg hrow
      obtain ⟨n', k1, k2, k3, k4⟩ := s3.dir s1.good n1 n4
      obtain ⟨m3, d1, d2, _, _⟩ := s13.dir hg hd hm
      obtain ⟨db4, ⟨F4, hF4⟩, s4, hr4⟩ := ih2 db3 d (strike db d a root) m3 s13.good d1 d2 hdis.2.2
        (hng.keep s13.since fun b hb => .tail _ (List.mem_append_right _ hb))
      have hsel : ∀ b ∈ rest.names, db3.select d b = db.select d b := fun b hb =>
        s13.frame.select hg s13.good fun e => hdis.1 (e ▸ hb)
      have hna : n'.name ∉ rest.names := by rw [k3, n3]; exact hdis.1
      have hsame := s4.frame.same s13.good s4.good k1 (k4.trans n2) hna
      refine ⟨db4, ⟨F1 + F2 + F3 + F4, fun fuel hf => ?_⟩, ?_, fun _ => ⟨k, n', ?_, k4.trans n2, k3.trans n3, k2, ?_, ?_⟩, hr4⟩
      · have h1 := hF1 fuel (by omega)
        have h2 := hF2 fuel (by omega)
        have h3 := hF3 fuel (by omega)
        have h4 := hF4 fuel (by omega)
        simp only [remaining_congr _ hsel, remaining_cons] at h1 h2 h3 h4
        simp only [watch, if_neg hig, h1, h2, h3, h4, Listing.names]
      · refine (s13.trans s4 hg hrow).mono ?_ hg
        rintro b (rfl | hb)
        · exact .head _
        · exact .tail _ hb
      · exact (s4.frame.entry s13.good k1 (k4.trans n2) hna).1
      · exact Recorded.keep hsame s4.since _ _ hr3 .refl
      · exact ho3.keep hsame s4.since .refl
  | other a rest ih =>
    intro db d root m hg hd hm hdis hng
    obtain ⟨db', ⟨F, hF⟩, s, hr⟩ := ih db d (strike db d a root) m hg hd hm hdis.2 fun j n hn hk ha => hng j n hn hk (.tail _ ha)
    refine ⟨db', ⟨F, fun fuel hf => ?_⟩, s.mono (fun _ h => .tail _ h) hg, hr⟩
    have := hF fuel hf
    simp only [remaining_cons] at this
    simp only [watch, this, Listing.names]

/-- The whole scan. -/
theorem scan_lim {sort : List (Nat × Kind) → List (Nat × Kind)} {order : List Nat → List Nat} (hsort : ∀ l, (sort l).Perm l)
    (horder : ∀ l, (order l).Perm l) {l : Listing} {m : Node} (hg : Good db) (hd : db.node 1 = some m) (hm : isDir m)
    (hdis : l.Distinct) (hng : NoGroup db l.all) :
    ∃ db', Lim (fun fuel => scan sort order fuel db l) db' ∧ Step 1 (fun _ => True) db db' ∧ Recorded db' 1 l ∧ Only db' 1 l.names := by
  obtain ⟨db1, ⟨F, hF⟩, s1, hr1⟩ := watch_lim hsort horder l db 1 (dirTree db 1) m hg hd hm hdis hng
  obtain ⟨db2, ⟨F', hF'⟩, s2, hr2, ho2⟩ := finish_dir hsort horder hg hd hm s1 hr1
  refine ⟨db2, ⟨F + F', fun fuel hf => ?_⟩, s2, hr2, ho2⟩
  have h1 := hF fuel (by omega)
  have h2 := hF' fuel (by omega)
  simp only at h1 h2
  simp only [scan, h1, h2]

end Tup.FullScan
