import Verif.DoRule.Reject
import Verif.Deletes.Quiet

/-! Lemmas about what a rule schedules. -/

namespace Tup.DoRule

open Tup.Db Tup.Links Tup.Deletes

variable {db db' : Db} {excl : Nat} {p p' : Parse} {r : Spec}

/-- The links of command `c` are the same. -/
structure KeptLinks (c : Nat) (db db' : Db) : Prop where
  out : ∀ y, db'.normal c y = db.normal c y
  sticky : ∀ a, db'.sticky a c = db.sticky a c
  used : ∀ a, db.sticky a c = true → db'.normal a c = db.normal a c

theorem KeptLinks.refl (c : Nat) (db : Db) : KeptLinks c db db := ⟨fun _ => rfl, fun _ => rfl, fun _ _ => rfl⟩

theorem KeptLinks.trans {c : Nat} {db'' : Db} (h : KeptLinks c db db') (h' : KeptLinks c db' db'') : KeptLinks c db db'' :=
  ⟨fun y => (h'.out y).trans (h.out y), fun a => (h'.sticky a).trans (h.sticky a),
    fun a ha => (h'.used a (by rw [h.sticky]; exact ha)).trans (h.used a ha)⟩

theorem kept_of {c : Nat} (h1 : db'.normal = db.normal) (h2 : db'.sticky = db.sticky) : KeptLinks c db db' :=
  ⟨fun _ => by rw [h1], fun _ => by rw [h2], fun _ _ => by rw [h1]⟩

theorem upgrade_flags (db : Db) (i : Nat) (kind : Kind) (src : Option Nat) (j : Nat) :
    (upgradeGhost db i kind src).modify j = true ↔ db.modify j = true ∨
      (kind ≠ .ghost ∧ (j = i ∨ (kind = .generated ∧ db.normal i j = true ∧ (db.isKind .cmd j = true ∨ db.isKind .group j = true)))) := by
  unfold upgradeGhost
  split
  · rename_i h; simp [h]
  · rename_i hk
    show ((if kind = .var then _ else if kind = .generated then _ else _ : Db).modify j || decide (j = i)) = true ↔ _
    split
    · rename_i h
      subst h
      simp [Db.addCreate]
    · split
      · rename_i h
        have : (((db.createByInput i).modifyByInput i).deleteLinks i).modify j = (db.modify j || (db.normal i j && (db.isKind .cmd j || db.isKind .group j))) := by
          unfold Db.deleteLinks Db.flagGroupUsers
          split <;> rfl
        rw [this]
        simp only [Bool.or_eq_true, Bool.and_eq_true, decide_eq_true_eq]
        grind
      · rename_i h
        simp only [Bool.or_eq_true, decide_eq_true_eq]
        grind

theorem upgrade_links (db : Db) (i : Nat) (kind : Kind) (src : Option Nat) :
    (∀ a b, (upgradeGhost db i kind src).normal a b = (db.normal a b && (decide (kind ≠ .generated) || (!decide (a = i) && !decide (b = i))))) ∧
    (∀ a b, (upgradeGhost db i kind src).sticky a b = (db.sticky a b && (decide (kind ≠ .generated) || (!decide (a = i) && !decide (b = i))))) := by
  unfold upgradeGhost
  split
  · rename_i h; subst h; simp
  · show (∀ a b, (if kind = .var then _ else if kind = .generated then _ else _ : Db).normal a b = _) ∧
      (∀ a b, (if kind = .var then _ else if kind = .generated then _ else _ : Db).sticky a b = _)
    split
    · rename_i h; subst h; simp [Db.addCreate]
    · split
      · rename_i h
        obtain ⟨d1, d2, _⟩ := deleteLinks_spec ((db.createByInput i).modifyByInput i) i
        subst h
        refine ⟨fun a b => ?_, fun a b => ?_⟩
        · rw [d1]; simp [Db.createByInput, Db.modifyByInput, Bool.and_assoc]
        · rw [d2]; simp [Db.createByInput, Db.modifyByInput, Bool.and_assoc]
      · rename_i h; simp [h]

/-- A node that is made leaves the links of a command alone, and does not schedule it unless a ghost becomes a file. -/
theorem create_kept {d : Nat} {name : Str} {kind : Kind} {src : Option Nat} {trans : Bool} {i c : Nat} (hk : kind ≠ .dir) (ht : Tidy db excl)
    (hd : kind = .generated → d ≠ excl) (hc : db.isKind .cmd c = true)
    (h : create db d name kind src trans = some (db', i)) :
    KeptLinks c db db' ∧ (db.modify c = true → db'.modify c = true) ∧
      (db'.modify c = true → db.modify c = true ∨ (kind = .generated ∧ db.select d name = some i ∧ db.isKind .ghost i = true)) := by
  rcases create_cases hk h with ⟨_, e⟩ | ⟨e0, e, rfl⟩ | ⟨_, _, _, rfl⟩
  · have : db' = (db.insertNode { dir := d, kind := kind, name := name, src := src, transient := trans }).1 := by rw [e]
    subst this
    exact ⟨kept_of rfl rfl, id, .inl⟩
  · have hci : c ≠ i := fun he => isKind_ne hc (he ▸ e) (by decide)
    obtain ⟨u1, u2⟩ := upgrade_links db i kind src
    have hg : kind = .generated → ∀ z, db.normal z i = false ∧ db.sticky i z = false := fun hk' => by
      refine ht.ghost i e ?_
      obtain ⟨n, h1, h2, _⟩ := select_some e0
      rw [inDir_some h1, h2]
      exact decide_eq_false (hd hk')
    refine ⟨⟨fun y => ?_, fun a => ?_, fun a ha => ?_⟩, fun h => (upgrade_flags db i kind src c).2 (.inl h), fun h => ?_⟩
    · rw [u1]
      by_cases hk' : kind = .generated
      · by_cases hy : y = i
        · subst hy; rw [(hg hk' c).1]; rfl
        · simp [hci, hy]
      · simp [hk']
    · rw [u2]
      by_cases hk' : kind = .generated
      · by_cases hy : a = i
        · subst hy; rw [(hg hk' c).2]; rfl
        · simp [hci, hy]
      · simp [hk']
    · rw [u1]
      by_cases hk' : kind = .generated
      · by_cases hy : a = i
        · subst hy; rw [(hg hk' c).2] at ha; cases ha
        · simp [hci, hy]
      · simp [hk']
    · rcases (upgrade_flags db i kind src c).1 h with h | ⟨_, h | ⟨h, _⟩⟩
      · exact .inl h
      · exact absurd h hci
      · exact .inr ⟨h, e0, e⟩
  · have hm : (match (generalizing := false) src with | some s => db.setSrc i (some s) | none => db).normal = db.normal ∧
        (match (generalizing := false) src with | some s => db.setSrc i (some s) | none => db).sticky = db.sticky ∧
        (match (generalizing := false) src with | some s => db.setSrc i (some s) | none => db).modify = db.modify := by
      cases src <;> exact ⟨rfl, rfl, rfl⟩
    refine ⟨kept_of hm.1 hm.2.1, fun h => ?_, fun h => .inl ?_⟩
    · show (match (generalizing := false) src with | some s => db.setSrc i (some s) | none => db).modify c = true
      rw [hm.2.2]; exact h
    · have h : (match (generalizing := false) src with | some s => db.setSrc i (some s) | none => db).modify c = true := h
      rw [hm.2.2] at h; exact h

/-- One of the files is not there yet, or only as a ghost. -/
def NewFile (db : Db) (l : List Out) : Prop :=
  ∃ d path src, Out.file d path src ∈ l ∧ ∀ b n, db.node b = some n → n.dir = d → n.name = base path → n.kind = .ghost

/-- What the outputs of a rule do to a command that was there before. -/
structure Added (db0 : Db) (c : Nat) (l : List Out) (s s' : Outs) : Prop where
  links : KeptLinks c s.db s'.db
  keep : s.db.modify c = true → s'.db.modify c = true
  modify : s'.db.modify c = true → s.db.modify c = true ∨ NewFile db0 l
  modified : s'.modified = true → s.modified = true ∨ NewFile db0 l

/-- A file that is new when its turn comes was not there in the beginning. -/
theorem newFile_of {db0 : Db} {s : Outs} (hu : Unique db0) (h : OutsInv db0 excl r s) {d : Nat} {path : Str} (src : Option Nat)
    (hn : isNew s.db d (base path) = true) : NewFile db0 [.file d path src] := by
  refine ⟨d, path, src, List.mem_cons_self, fun b n h1 h2 h3 => Classical.byContradiction fun hg => ?_⟩
  obtain ⟨m, e1, e2, e3, e4, _⟩ := h.keep b n h1
  have hsel := select_eq (sound_bounded h.sound) (h.unique hu) e1
  rw [e2, e3, h2, h3] at hsel
  unfold isNew at hn
  rw [hsel] at hn
  simp only at hn
  rw [isKind_some e1, e4 hg] at hn
  exact hg (of_decide_eq_true hn)

theorem addOut_added {db0 : Db} {s s' : Outs} {o : Out} {c : Nat} (hu : Unique db0) (ho : OutOk excl o) (h : OutsInv db0 excl r s)
    (hc : s.db.isKind .cmd c = true) (ha : addOut excl p r s o = some s') : Added db0 c [o] s s' := by
  cases o with
  | file d path src =>
    simp only [addOut, addFile_eq] at ha
    split at ha
    · cases ha
    split at ha
    · cases ha
    split at ha
    · cases ha
    split at ha
    · cases ha
    rename_i db' i hcr
    split at ha
    · cases ha
    cases ha
    obtain ⟨k1, k2, k3⟩ := create_kept (by decide) h.tidy (fun _ => ho) hc hcr
    refine ⟨k1, k2, fun hm => ?_, fun hm => ?_⟩
    · rcases k3 hm with h' | ⟨_, h1, h2⟩
      · exact .inl h'
      · refine .inr (newFile_of hu h src ?_)
        unfold isNew
        rw [h1]
        exact h2
    · rcases Bool.or_eq_true_iff.1 hm with h' | h'
      · exact .inl h'
      · exact .inr (newFile_of hu h src h')
  | exclusion pat =>
    simp only [addOut, addExclusion] at ha
    split at ha
    · cases ha
    rename_i db' i hcr
    split at ha
    · cases ha
    cases ha
    obtain ⟨k1, k2, k3⟩ := create_kept (by decide) h.tidy (fun h => by cases h) hc hcr
    refine ⟨k1, k2, fun hm => ?_, .inl⟩
    rcases k3 hm with h' | ⟨h1, _⟩
    · exact .inl h'
    · cases h1
  | group d name =>
    simp only [addOut, addGroup] at ha
    split at ha
    · cases ha
    split at ha
    · cases ha
    rename_i db' i hcr
    cases ha
    obtain ⟨k1, k2, k3⟩ := create_kept (by decide) h.tidy (fun h => by cases h) hc hcr
    refine ⟨k1, k2, fun hm => ?_, .inl⟩
    rcases k3 hm with h' | ⟨h1, _⟩
    · exact .inl h'
    · cases h1

theorem NewFile.mono {l l' : List Out} (h : NewFile db l) (hl : ∀ o ∈ l, o ∈ l') : NewFile db l' := by
  obtain ⟨d, path, src, h1, h2⟩ := h
  exact ⟨d, path, src, hl _ h1, h2⟩

theorem outs_cmd {db0 : Db} {s : Outs} (h : OutsInv db0 excl r s) {c : Nat} (hc : db0.isKind .cmd c = true) : s.db.isKind .cmd c = true := by
  obtain ⟨n, e1, e2⟩ := isKind_iff.1 hc
  obtain ⟨m, f1, _, _, f4, _⟩ := h.keep c n e1
  exact isKind_iff.2 ⟨m, f1, (f4 (by rw [e2]; decide)).trans e2⟩

theorem addOuts_added {db0 : Db} {c : Nat} (hu : Unique db0) (hc : db0.isKind .cmd c = true) : ∀ {l : List Out} {s s' : Outs}, (∀ o ∈ l, OutOk excl o) →
    OutsInv db0 excl r s → addOuts excl p r l s = some s' → Added db0 c l s s'
  | [], s, s', _, _, ha => by
    cases ha
    exact ⟨.refl _ _, id, .inl, .inl⟩
  | o :: l, s, s', ho, h, ha => by
    unfold addOuts at ha
    split at ha
    · cases ha
    rename_i s1 h1
    have a1 := addOut_added hu (ho o List.mem_cons_self) h (outs_cmd h hc) h1
    have a2 := addOuts_added hu hc (fun o' h' => ho o' (List.mem_cons_of_mem _ h')) (addOut_inv (ho o List.mem_cons_self) h h1) ha
    have m1 : ∀ o' ∈ [o], o' ∈ o :: l := fun o' h' => by rw [List.mem_singleton.1 h']; exact List.mem_cons_self
    have m2 : ∀ o' ∈ l, o' ∈ o :: l := fun o' h' => List.mem_cons_of_mem _ h'
    refine ⟨a1.links.trans a2.links, fun h => a2.keep (a1.keep h), fun h => ?_, fun h => ?_⟩
    · rcases a2.modify h with h | h
      · exact (a1.modify h).imp_right (·.mono m1)
      · exact .inr (h.mono m2)
    · rcases a2.modified h with h | h
      · exact (a1.modified h).imp_right (·.mono m1)
      · exact .inr (h.mono m2)

theorem uniqueLink_kept (hs : Sound db) {c b : Nat} (hc : db.isKind .cmd c = true) (hb : db.isKind .generated b = true)
    (h : uniqueLink db c b = some db') : KeptLinks c db db' := by
  have hcb : c ≠ b := fun he => isKind_ne hc (he ▸ hb) (by decide)
  have hlv : ∀ (g : Option Nat), (∀ g', g = some g' → db.isKind .group g' = true) → KeptLinks c db (leave db b g) := fun g hg => by
    obtain ⟨l1, l2, _⟩ := leave_spec db b g
    refine ⟨fun y => ?_, fun a => by rw [l2], fun a _ => ?_⟩
    · rw [Bool.eq_iff_iff, l1]
      exact ⟨fun h => h.1, fun h => ⟨h, fun he => hcb he.1⟩⟩
    · rw [Bool.eq_iff_iff, l1]
      exact ⟨fun h => h.1, fun h => ⟨h, fun he => isKind_ne hc (hg c he.2) (by decide)⟩⟩
  unfold uniqueLink at h
  split at h
  · cases h
  · obtain ⟨g, hg, rfl⟩ := Option.map_eq_some_iff.1 h
    exact hlv g fun g' he => by subst he; exact ((outputGroup_spec hs hg g').2 rfl).2
  · rename_i c' _
    split at h
    · cases h; exact .refl _ _
    · rename_i hcc
      obtain ⟨g, hg, rfl⟩ := Option.map_eq_some_iff.1 h
      refine (hlv g fun g' he => by subst he; exact ((outputGroup_spec hs hg g').2 rfl).2).trans ?_
      refine ⟨fun y => ?_, fun _ => rfl, fun a _ => ?_⟩
      · show ((leave db b g).normal c y && !(decide (c = c') && decide (y = b))) = _
        rw [decide_eq_false (fun h : c = c' => hcc h.symm)]; simp
      · show ((leave db b g).normal a c && !(decide (a = c') && decide (c = b))) = _
        rw [decide_eq_false hcb]; simp

theorem uniqueLinks_kept {c : Nat} : ∀ {l : List Nat} {db : Db}, Sound db → Tidy db excl → db.isKind .cmd c = true →
    (∀ b ∈ l, db.isKind .generated b = true ∧ inDir db excl b = false) → uniqueLinks c l db = some db' → KeptLinks c db db'
  | [], db, _, _, _, _, h => by cases h; exact .refl _ _
  | b :: l, db, hs, ht, hc, hb, h => by
    unfold uniqueLinks at h
    split at h
    · cases h
    rename_i db1 h1
    obtain ⟨b1, b2⟩ := hb b List.mem_cons_self
    have k1 := uniqueLink_kept hs hc b1 h1
    have cut := (uniqueLink_spec hs ht b1 b2 h1).1
    refine k1.trans (uniqueLinks_kept cut.sound cut.tidy (by rw [isKind_congr (congrFun cut.node c)]; exact hc) (fun b' hb' => ?_) h)
    obtain ⟨c1, c2⟩ := hb b' (List.mem_cons_of_mem _ hb')
    exact ⟨by rw [isKind_congr (congrFun cut.node b')]; exact c1, by rw [inDir_congr (congrFun cut.node b')]; exact c2⟩

theorem addOuts_only_excluded {db0 : Db} : ∀ {l : List Out} {s s' : Outs}, (∀ o ∈ l, OutOk excl o) → OutsInv db0 excl r s →
    addOuts excl p r l s = some s' → ∀ b ∈ s'.exclusions, b ∉ s.exclusions → ∀ n, s'.db.node b = some n →
      Out.exclusion n.name ∈ l
  | [], s, s', _, _, ha => by
    cases ha
    exact fun b h1 h2 => absurd h1 h2
  | o :: l, s, s', ho, h, ha => by
    unfold addOuts at ha
    split at ha
    · cases ha
    rename_i s1 h1
    have i1 := addOut_inv (ho o List.mem_cons_self) h h1
    have ho' := fun o' h' => ho o' (List.mem_cons_of_mem _ h')
    have ih := addOuts_only_excluded ho' i1 ha
    intro b hb hbs n hn
    by_cases hb1 : b ∈ s1.exclusions
    · cases o with
      | exclusion pat =>
        simp only [addOut, addExclusion] at h1
        split at h1
        · cases h1
        rename_i db' i hc
        split at h1
        · cases h1
        cases h1
        rcases List.mem_append.1 hb1 with hb1 | hb1
        · exact absurd hb1 hbs
        · simp only [List.mem_singleton] at hb1
          subst hb1
          have m := create_made (.inr ⟨rfl, rfl⟩) h.sound h.tidy hc
          obtain ⟨q, e1, _, e3, e4, _⟩ := m.node
          obtain ⟨n', f1, f2, f3, _⟩ := (addOuts_inv ho' i1.restart ha).keep b q e1
          rw [hn] at f1
          cases f1
          rw [f3, e4]
          exact List.mem_cons_self
      | file d path src =>
        simp only [addOut, addFile_eq] at h1
        repeat' split at h1
        all_goals first | cases h1 | skip
        exact absurd hb1 hbs
      | group d name =>
        simp only [addOut, addGroup] at h1
        repeat' split at h1
        all_goals first | cases h1 | skip
        exact absurd hb1 hbs
    · exact List.mem_cons_of_mem _ (ih b hb hb1 n hn)

theorem addOuts_only_group {db0 : Db} : ∀ {l : List Out} {s s' : Outs}, (∀ o ∈ l, OutOk excl o) → OutsInv db0 excl r s →
    addOuts excl p r l s = some s' → ∀ g, s'.group = some g → s.group = none → ∀ n, s'.db.node g = some n →
      Out.group n.dir n.name ∈ l
  | [], s, s', _, _, ha => by
    cases ha
    intro b h1 h2
    rw [h1] at h2; cases h2
  | o :: l, s, s', ho, h, ha => by
    unfold addOuts at ha
    split at ha
    · cases ha
    rename_i s1 h1
    have i1 := addOut_inv (ho o List.mem_cons_self) h h1
    have ho' := fun o' h' => ho o' (List.mem_cons_of_mem _ h')
    have ih := addOuts_only_group ho' i1 ha
    intro b hb hbs n hn
    cases hb1 : s1.group with
    | none => exact List.mem_cons_of_mem _ (ih b hb hb1 n hn)
    | some g =>
      have hgb := (addOuts_grouped ho' i1 ha).1 g hb1
      rw [hb] at hgb
      cases hgb
      cases o with
      | group d name =>
        simp only [addOut, addGroup] at h1
        split at h1
        · cases h1
        split at h1
        · cases h1
        rename_i db' i hc
        cases h1
        cases hb1
        have m := create_made (.inl ⟨.inr rfl, ho _ (List.mem_cons_self (l := l))⟩) h.sound h.tidy hc
        obtain ⟨q, e1, _, e3, e4, _⟩ := m.node
        obtain ⟨n', f1, f2, f3, _⟩ := (addOuts_inv ho' i1.restart ha).keep b q e1
        rw [hn] at f1
        cases f1
        rw [f3, e4, f2, e3]
        exact List.mem_cons_self
      | file d path src =>
        simp only [addOut, addFile_eq] at h1
        repeat' split at h1
        all_goals first | cases h1 | skip
        rw [hbs] at hb1; cases hb1
      | exclusion pat =>
        simp only [addOut, addExclusion] at h1
        repeat' split at h1
        all_goals first | cases h1 | skip
        rw [hbs] at hb1; cases hb1

end Tup.DoRule
