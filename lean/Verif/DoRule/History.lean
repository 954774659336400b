import Verif.DoRule.Spec

/-! What stays true in all histories. -/

namespace Tup.DoRule

open Tup.Db Tup.Links

variable {db db' : Db} {excl : Nat}

structure Good (db : Db) (excl : Nat) : Prop where
  sound : Sound db
  tidy : Tidy db excl
  homes : Homes db excl
  unique : Unique db

theorem initial_good {p : Parse} (h : Initial p) : Good p.db excl := by
  refine ⟨⟨h.node, fun a b hn => ?_, fun a b hn => ?_⟩, ⟨fun c a _ hn => ?_, fun c c' a hn _ => ?_, fun c g g' _ hn _ _ _ => ?_, fun c a g hn _ => ?_,
    fun x y z => ?_, fun y _ _ z => ⟨h.normal z y, h.sticky y z⟩, fun a b _ hn => ?_⟩, fun c b hn => ?_, fun i j n m hi hj hd hn => h.name i j n m hi hj hd hn⟩
  · rw [h.normal] at hn; cases hn
  · rw [h.sticky] at hn; cases hn
  · rw [h.normal] at hn; cases hn
  · have := hn.2.1; rw [h.normal] at this; cases this
  · rw [h.normal] at hn; cases hn
  · have := hn.2.1; rw [h.normal] at this; cases this
  · rw [h.group, h.sticky]; simp
  · rw [h.normal] at hn; cases hn
  · have := hn.2.1; rw [h.normal] at this; cases this

/-- Where nothing is added, files keep their homes. -/
theorem homes_sub {X : Nat → Prop} (ht : Tidy db excl) (hh : Homes db excl) (hc : Change db excl X db') (hn : ∀ i, ¬ X i → db'.node i = db.node i) :
    Homes db' excl := by
  intro c b hw
  obtain ⟨h1, h2, h3⟩ := hc.writes ht hw
  rw [hn c h1, hn b h2]
  exact hh c b h3

theorem deleteNode_spec (db : Db) (i : Nat) :
    (db.deleteNode i).normal = db.normal ∧ (db.deleteNode i).sticky = db.sticky ∧ (db.deleteNode i).group = db.group ∧
    (db.deleteNode i).top = db.top ∧ (∀ j, j ≠ i → (db.deleteNode i).node j = db.node j) ∧
    (∀ m, (db.deleteNode i).node i = some m → ∃ n, db.node i = some n ∧ n.dir = m.dir ∧ n.name = m.name ∧ m.kind ≠ .cmd) := by
  unfold Db.deleteNode
  cases hn : db.node i with
  | none => exact ⟨rfl, rfl, rfl, rfl, fun _ _ => rfl, fun m h => by simp only [hn] at h; cases h⟩
  | some n =>
    obtain ⟨g, hg⟩ : ∃ g, db.addGhostOf n.src = { db with ghosts := g } := by
      cases n.src with
      | none => exact ⟨db.ghosts, rfl⟩
      | some s => exact ⟨_, rfl⟩
    simp only [hg]
    by_cases h1 : ({ db with ghosts := g } : Db).hasGhosts i = true
    · rw [if_pos h1]
      by_cases h2 : n.kind = .dir
      · rw [if_pos h2]
        refine ⟨rfl, rfl, rfl, rfl, fun j hj => ?_, fun m hm => ?_⟩
        · show (if j = i then _ else if j = i then _ else db.node j) = _
          rw [if_neg hj, if_neg hj]
        · have hm : (if i = i then Option.map _ (if i = i then Option.map _ (db.node i) else db.node i) else _) = some m := hm
          rw [if_pos rfl, if_pos rfl, hn] at hm
          cases hm
          exact ⟨n, rfl, rfl, rfl, fun h => by cases h⟩
      · rw [if_neg h2]
        refine ⟨rfl, rfl, rfl, rfl, fun j hj => ?_, fun m hm => ?_⟩
        · show (if j = i then _ else if j = i then _ else db.node j) = _
          rw [if_neg hj, if_neg hj]
        · have hm : (if i = i then Option.map _ (if i = i then Option.map _ (db.node i) else db.node i) else _) = some m := hm
          rw [if_pos rfl, if_pos rfl, hn] at hm
          cases hm
          exact ⟨n, rfl, rfl, rfl, fun h => by cases h⟩
    · rw [if_neg h1]
      refine ⟨rfl, rfl, rfl, rfl, fun j hj => ?_, fun m hm => ?_⟩
      · show (if j = i then _ else db.node j) = _
        rw [if_neg hj]
      · have hm : (if i = i then none else db.node i) = some m := hm
        rw [if_pos rfl] at hm
        cases hm

theorem good_delete (h : Good db excl) {i : Nat} (hr : Reclaimable db i) : Good (db.deleteNameFile i) excl := by
  obtain ⟨d1, d2, d3, d4, d5⟩ := deleteLinks_spec (db.unflagAll i) i
  obtain ⟨e1, e2, e3, e4, e5, e6⟩ := deleteNode_spec ((db.unflagAll i).deleteLinks i) i
  have hno : ∀ j, j ≠ i → (db.deleteNameFile i).node j = db.node j := fun j hj => by
    show (((db.unflagAll i).deleteLinks i).deleteNode i).node j = _
    rw [e5 j hj, d4]
    rfl
  have hn : ∀ a b, (db.deleteNameFile i).normal a b = (db.normal a b && !decide (a = i) && !decide (b = i)) := fun a b => by
    show (((db.unflagAll i).deleteLinks i).deleteNode i).normal a b = _
    rw [e1, d1]
    rfl
  have hst : ∀ a b, (db.deleteNameFile i).sticky a b = (db.sticky a b && !decide (a = i) && !decide (b = i)) := fun a b => by
    show (((db.unflagAll i).deleteLinks i).deleteNode i).sticky a b = _
    rw [e2, d2]
    rfl
  have hg : ∀ a b c, (db.deleteNameFile i).group a b c = (db.group a b c && !decide (c = i)) := fun a b c => by
    show (((db.unflagAll i).deleteLinks i).deleteNode i).group a b c = _
    rw [e3, d3]
    rfl
  have htop : (db.deleteNameFile i).top = db.top := by
    show (((db.unflagAll i).deleteLinks i).deleteNode i).top = _
    rw [e4, d5]
    rfl
  have hc := cut_change (excl := excl) h.tidy hno hr hn hst hg
  refine ⟨⟨fun a n ha => ?_, fun a b hab => ?_, fun a b hab => ?_⟩, tidy_change hc h.tidy, homes_sub h.tidy h.homes hc hno,
    unique_sub h.unique fun j q hq => ?_⟩
  · rw [htop]
    by_cases hai : a = i
    · subst hai
      obtain ⟨m, hm, _⟩ := e6 n ha
      rw [d4] at hm
      exact h.sound.node a m hm
    · rw [hno a hai] at ha
      exact h.sound.node a n ha
  · rw [hn] at hab
    simp only [Bool.and_eq_true, Bool.not_eq_true', decide_eq_false_iff_not] at hab
    rw [hno a hab.1.2, hno b hab.2]
    exact h.sound.normal a b hab.1.1
  · rw [hst] at hab
    simp only [Bool.and_eq_true, Bool.not_eq_true', decide_eq_false_iff_not] at hab
    rw [hno a hab.1.2, hno b hab.2]
    exact h.sound.sticky a b hab.1.1
  · by_cases hj : j = i
    · subst hj
      obtain ⟨m, hm, k1, k2, _⟩ := e6 q hq
      rw [d4] at hm
      exact ⟨m, hm, k1, k2⟩
    · rw [hno j hj] at hq
      exact ⟨q, hq, rfl, rfl⟩

theorem good_save (h : Good db excl) {i : Nat} (hi : db.isKind .generated i = true) : Good (saveFile db i) excl := by
  obtain ⟨n, hn, hk⟩ := isKind_iff.1 hi
  obtain ⟨d1, d2, d3, d4, d5⟩ := deleteLinks_spec (db.modifyByInput i) i
  have hno : ∀ j, j ≠ i → (saveFile db i).node j = db.node j := fun j hj => by
    show (((db.modifyByInput i).deleteLinks i).setKind i .file).node j = _
    rw [setKind_node, if_neg hj, d4]
    rfl
  have hni : (saveFile db i).node i = some { n with kind := .file } := by
    show (((db.modifyByInput i).deleteLinks i).setKind i .file).node i = _
    rw [setKind_node, if_pos rfl, d4]
    show (db.node i).map _ = _
    rw [hn]
    rfl
  have hc := cut_change (excl := excl) h.tidy hno (.inl (isKind_other hi (by decide))) d1 d2 d3
  exact ⟨sound_keep h.sound d5 (keep_isSome hn hni hno) hc.normalX hc.stickySub, tidy_change hc h.tidy, homes_sub h.tidy h.homes hc hno,
    unique_sub h.unique fun j q hq => by
      by_cases hj : j = i
      · subst hj
        rw [hni] at hq
        cases hq
        exact ⟨n, hn, rfl, rfl⟩
      · rw [hno j hj] at hq
        exact ⟨q, hq, rfl, rfl⟩⟩

theorem good_insert (h : Good db excl) (n : Node) (hsel : db.select n.dir n.name = none) : Good (db.insertNode n).1 excl := by
  have hc := insert_change (excl := excl) h.sound h.tidy n
  exact ⟨sound_insert h.sound n, tidy_change hc h.tidy, homes_sub h.tidy h.homes hc fun i hi => by rw [insert_node, if_neg hi],
    (made_insert (excl := excl) h.sound h.tidy n hsel).unique h.unique⟩

theorem good_appear (h : Good db excl) {i : Nat} {kind : Db.Kind} (src : Option Nat) (hi : db.isKind .ghost i = true) (hd : inDir db excl i = false)
    (hk : kind = .file ∨ kind = .dir) : Good (upgradeGhost db i kind src) excl := by
  obtain ⟨n, hn, hg⟩ := isKind_iff.1 hi
  rw [inDir_some hn] at hd
  have m := made_upgrade (excl := excl) (src := src) (.inr hk) h.sound h.tidy hn hg (of_decide_eq_false hd)
  obtain ⟨n', e1, e2, e3, _⟩ := m.node
  refine ⟨m.sound, m.tidy, fun c b hw => ?_, m.unique h.unique⟩
  have hci : c ≠ i := by
    rintro rfl
    have := hw.1
    rw [isKind_some e1, e2] at this
    rcases hk with rfl | rfl <;> simp at this
  have hbn := m.normal _ _ hw.2.1
  have hbi : b ≠ i := by
    rintro rfl
    have := (h.tidy.ghost b hi (by rw [inDir_some hn]; exact hd) c).1
    rw [hbn] at this; cases this
  rw [m.other c hci, m.other b hbi]
  refine h.homes c b ⟨?_, hbn, ?_, ?_⟩
  · rw [← isKind_congr (m.other c hci)]; exact hw.1
  · rw [← isKind_congr (m.other b hbi)]; exact hw.2.2.1
  · rw [← inDir_congr (m.other b hbi)]; exact hw.2.2.2

/-- Links to a command change. -/
theorem good_reads (h : Good db excl) {cmd : Nat} (hcmd : db.isKind .cmd cmd = true) (hno : db'.node = db.node) (hto : db'.top = db.top)
    (hst : db'.sticky = db.sticky) (hgr : db'.group = db.group) (ho : ∀ a b, b ≠ cmd → db'.normal a b = db.normal a b)
    (hin : ∀ a, db'.normal a cmd = true → (db.node a).isSome ∧ db.isKind .cmd a = false) : Good db' excl := by
  have hk : ∀ k i, db'.isKind k i = db.isKind k i := fun k i => isKind_congr (congrFun hno i) k
  have hd : ∀ i, inDir db' excl i = inDir db excl i := fun i => inDir_congr (congrFun hno i) _
  have hfile : ∀ c a, db.isKind .cmd c = true → db'.normal c a = true → a ≠ cmd := by
    rintro c _ hc hn rfl
    have := (hin c hn).2
    rw [hc] at this; cases this
  have hne : ∀ k a, db.isKind k a = true → k ≠ .cmd → a ≠ cmd := by
    rintro k _ h1 h2 rfl
    exact isKind_ne h1 hcmd h2
  have hw : ∀ c a, Writes db' excl c a → Writes db excl c a := by
    rintro c a ⟨h1, h2, h3, h4⟩
    rw [hk] at h1 h3
    rw [hd] at h4
    rw [ho c a (hfile c a h1 h2)] at h2
    exact ⟨h1, h2, h3, h4⟩
  have ht := h.tidy
  refine ⟨⟨fun a n ha => ?_, fun a b hab => ?_, fun a b hab => ?_⟩, ⟨fun c a h1 h2 => ?_, fun c c' a h1 h2 => ht.owner c c' a (hw _ _ h1) (hw _ _ h2),
    fun c g g' h1 h2 h3 h4 h5 => ?_, fun c a g h1 h2 => ?_, fun x y z => ?_, fun y h1 h2 z => ?_, fun a b h1 h2 => ?_⟩, fun c b hb => ?_, unique_sub h.unique fun j q hq => ⟨q, by rw [← hno]; exact hq, rfl, rfl⟩⟩
  · rw [hto]; rw [hno] at ha; exact h.sound.node a n ha
  · rw [hno]
    by_cases hb : b = cmd
    · subst hb
      obtain ⟨m, hm, _⟩ := isKind_iff.1 hcmd
      exact ⟨(hin a hab).1, by rw [hm]; rfl⟩
    · rw [ho a b hb] at hab
      exact h.sound.normal a b hab
  · rw [hno]; rw [hst] at hab; exact h.sound.sticky a b hab
  · rw [hk] at h1 ⊢
    have := hfile c a h1 h2
    rw [ho c a this] at h2
    exact ht.file c a h1 h2
  · rw [hk] at h1 h4 h5
    rw [ho c g (hne _ g h4 (by decide))] at h2
    rw [ho c g' (hne _ g' h5 (by decide))] at h3
    exact ht.oneGroup c g g' h1 h2 h3 h4 h5
  · rw [hk] at h2
    have := hne _ g h2 (by decide)
    rw [ho a g this, ho c g this]
    exact ht.member c a g (hw c a h1) h2
  · rw [hgr, hk, hk, hk, hst, ht.groups]
    by_cases hy : db.isKind .group y = true
    · rw [ho z y (hne _ y hy (by decide))]
    · simp [hy]
  · rw [hk] at h1
    rw [hd] at h2
    rw [ho z y (hne _ y h1 (by decide)), hst]
    exact ht.ghost y h1 h2 z
  · rw [hk] at h1 ⊢
    rw [ho a b (hne _ b h1 (by decide))] at h2
    exact ht.source a b h1 h2
  · rw [hno]
    exact h.homes c b (hw c b hb)

theorem good_rule {p p' : Parse} {r : Spec} (h : Good p.db excl) (hr : SpecOk p.db excl r) (hd : doRule excl r p = some p') : Good p'.db excl := by
  obtain ⟨m, s, c, _, _, d⟩ := doRule_done h.sound h.tidy hr hd
  refine ⟨d.sound, d.tidy, fun c' b hw => ?_, d.unique h.unique⟩
  by_cases hc : c' = c
  · subst hc
    obtain ⟨n, e1, e2, e3⟩ := d.cmd
    obtain ⟨n', k1, k2, k3⟩ := d.output b ((d.own b).1 hw)
    exact ⟨n, n', e1, k1, k2, by rw [k3, e3]⟩
  · obtain ⟨hw', hb⟩ := d.others c' b hc hw
    obtain ⟨n, m, e1, e2, e3, e4⟩ := h.homes c' b hw'
    obtain ⟨n', k1, _, k2, _⟩ := d.node c' n e1
    obtain ⟨m', l1, l2, _, _⟩ := d.node b m e2
    have hcmd : n.kind = .cmd := by
      have := hw'.1
      rw [isKind_some e1] at this
      simpa using this
    obtain ⟨l3, l4⟩ := l2 e3
    rw [(k2 hcmd).2 hc] at k1
    exact ⟨n, m', k1, l1, l3, by rw [l4 hb, e4]⟩

theorem good_step {p p' : Parse} (h : Good p.db excl) (hs : Step excl p p') : Good p'.db excl := by
  cases hs with
  | update dirs => exact h
  | parse d hp =>
    unfold beginParse at hp
    split at hp
    · cases hp; exact h
    · cases hp
  | rule r _ hr hd => exact good_rule h hr hd
  | delete i hi => exact good_delete h hi
  | save i hi => exact good_save h hi
  | found n hsel _ => exact good_insert h n hsel
  | appear i kind src hi hd hk => exact good_appear h src hi hd hk
  | @ran db' env cmd variant outputs read ok important hcmd hread hnc hc =>
    obtain ⟨m, _, _, _, _, h5, h6, h7, _⟩ := check_inputs_spec h.sound hread hc
    refine good_reads (cmd := cmd) h hcmd (by rw [h5]) (by rw [h5]) (by rw [h5]) (by rw [h5]) h6 (fun a ha => ?_)
    rcases (h7 a).1 ha with hq | hq
    · exact ⟨hread.node a hq.1, hnc a hq.1⟩
    · refine ⟨(h.sound.normal a cmd hq.1).1, ?_⟩
      rw [Bool.eq_false_iff]
      intro hac
      have := h.tidy.file a cmd hac hq.1
      rw [hcmd] at this; cases this
  | flags create modify config variant transient => exact ⟨⟨h.sound.node, h.sound.normal, h.sound.sticky⟩, ⟨h.tidy.file, h.tidy.owner, h.tidy.oneGroup, h.tidy.member, h.tidy.groups, h.tidy.ghost, h.tidy.source⟩, h.homes, h.unique⟩

theorem good_steps {p p' : Parse} (h : Good p.db excl) (hs : Steps excl p p') : Good p'.db excl := by
  induction hs with
  | refl => exact h
  | step _ h1 ih => exact good_step ih h1

end Tup.DoRule
