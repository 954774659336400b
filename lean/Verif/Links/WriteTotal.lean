import Verif.Links.WriteDone

/-! When a rule can be written, and what happens if it has not changed. -/

namespace Tup.Links

open Tup.Db

theorem ruleWritten_sound {db : Db} (hs : Sound db) {excl : Nat} {r : Rule} (hr : RuleOk db excl r) {db' : Db}
    (h : writeRule false excl r db = some db') : Sound db' := by
  obtain ⟨db1, G, h1, h2⟩ := writeRule_some h
  have o := writeOutputs_some hs hr h1
  have hs1 := out_sound hs hr o
  have i := writeInputs_some hs1 hr.inputs hr.envInputs h2
  have hsame := i.same
  unfold SameNodes at hsame
  have hn : db'.node = db1.node := by rw [hsame]
  have ht : db'.top = db1.top := by rw [hsame]
  have hn1 : db1.node = db.node := by
    have := o.same
    unfold SameNodes at this
    rw [this]
  have hin : ∀ a ∈ r.inputs, (db1.node a).isSome := by
    intro a ha
    rw [hn1]; exact hr.input a ha
  have hc : (db1.node r.cmd).isSome := by
    obtain ⟨n, k, _⟩ := isKind_iff.1 hr.cmd
    rw [hn1, k]; rfl
  refine ⟨fun a n h => ?_, fun a b h => ?_, fun a b h => ?_⟩
  · rw [ht]; rw [hn] at h
    exact hs1.node a n h
  · rw [hn]
    by_cases hb : b = r.cmd
    · subst hb
      by_cases hex : ∃ a, db1.sticky a r.cmd = true ∧ a ∉ r.inputs ∧ db1.isKind .group a = true
      · exact ⟨hin a (hr.envInputs a ((i.invalid hex a).1 h)), hc⟩
      · rcases (i.valid hex a).1 h with h | h
        · exact hs1.normal _ _ h.1
        · exact ⟨hin a (hr.envInputs a h.2), hc⟩
    · rw [i.other a b hb] at h
      exact hs1.normal a b h
  · rw [hn]
    rcases (i.sticky a b).1 h with h | h
    · exact hs1.sticky a b h.2
    · rw [h.1]; exact ⟨hin a h.2, hc⟩

theorem sound_ne_zero {db : Db} (hs : Sound db) {a : Nat} (h : (db.node a).isSome) : a ≠ 0 := by
  obtain ⟨n, hn⟩ := Option.isSome_iff_exists.1 h
  have := (hs.node a n hn).1
  omega

theorem getOutputs_total {db : Db} (hs : Sound db) {excl : Nat} (ht : Tidy db excl) {c : Nat} (hc : db.isKind .cmd c = true) :
    ∃ G, getOutputs db excl c = some (oldOutputs db excl c, oldExclusions db excl c, G) := by
  unfold getOutputs
  have hasc : Asc (oldGroups db c) := asc_sub (asc_filter_range _ _) _
  have hm := fun b => mem_oldGroups hs (c := c) (b := b)
  split
  · exact ⟨_, rfl⟩
  · exact ⟨_, rfl⟩
  · rename_i h1 h2
    match hl : oldGroups db c with
    | [] => exact absurd hl h1
    | [g] => exact absurd hl (h2 g)
    | g :: g' :: l =>
      exfalso
      rw [hl] at hasc
      have hlt : g < g' := (List.pairwise_cons.1 hasc).1 g' List.mem_cons_self
      have e1 := (hm g).1 (by rw [hl]; simp)
      have e2 := (hm g').1 (by rw [hl]; simp)
      have := ht.oneGroup c g g' hc e1.1 e2.1 e1.2 e2.2
      omega

/-- The links that `changeGroup` changes. -/
theorem changeGroup_some {db : Db} {r : Rule} {old : List Nat} {G : Option Nat} {s : Pod} (h : changeGroup r old G db = some s) :
    SameBut db s.db ∧ ∀ a b, s.db.normal a b = true ↔ (db.normal a b = true ∨ (G ≠ r.group ∧ (a ∈ r.outputs ∨ a = r.cmd) ∧ r.group = some b)) ∧
      ¬ (G ≠ r.group ∧ (a ∈ old ∨ a = r.cmd) ∧ G = some b) := by
  unfold changeGroup at h
  by_cases hgr : G = r.group
  · rw [if_pos hgr] at h
    cases h
    simp only [hgr, ne_eq, not_true_eq_false, false_and, or_false, not_false_eq_true, and_true, implies_true]
    exact SameBut.rfl
  · rw [if_neg hgr, Option.map_eq_some_iff] at h
    obtain ⟨dbj, j1, j2⟩ := h
    cases j2
    obtain ⟨k1, k2, k3, k4, k5⟩ := joinGroup_some j1
    obtain ⟨l1, l2, l3, l4⟩ := leaveGroup_spec r old dbj G
    simp only [ne_eq, hgr, not_false_eq_true, true_and]
    exact ⟨k1.trans l1, fun a b => by rw [l3, k5]⟩

theorem writeOutputs_total {db : Db} (hs : Sound db) {excl : Nat} {r : Rule} (ht : Tidy db excl) (hr : RuleOk db excl r) (hf : Free db excl r) :
    ∃ db' G, writeOutputs false excl r db = some (db', G) := by
  obtain ⟨G, hg⟩ := getOutputs_total hs ht hr.cmd
  obtain ⟨-, -, hG⟩ := getOutputs_some hs hg
  have hascO : Asc (oldOutputs db excl r.cmd) := asc_sub (asc_filter_range _ _) _
  have hascE : Asc (oldExclusions db excl r.cmd) := asc_sub (asc_filter_range _ _) _
  have mO := fun b => mem_oldOutputs hs (excl := excl) (c := r.cmd) (b := b)
  have mE := fun b => mem_oldExclusions hs (excl := excl) (c := r.cmd) (b := b)
  have hcO : r.cmd ∉ oldOutputs db excl r.cmd := by rw [mO, hr.self]; simp
  have hcE : r.cmd ∉ oldExclusions db excl r.cmd := by rw [mE, hr.self]; simp
  have kOut : ∀ b ∈ r.outputs, db.isKind .group b = false ∧ inDir db excl b = false ∧ b ≠ 0 := by
    intro b hb
    obtain ⟨n, k1, k2, k3⟩ := hr.output b hb
    refine ⟨?_, ?_, sound_ne_zero hs (by rw [k1]; rfl)⟩
    · unfold Db.isKind
      rw [k1]
      simp [k2]
    · unfold inDir
      rw [k1]
      simp [k3]
  have kExc : ∀ b ∈ r.exclusions, db.isKind .group b = false ∧ inDir db excl b = true ∧ b ≠ 0 := by
    intro b hb
    obtain ⟨n, k1, k2, k3⟩ := hr.exclusion b hb
    refine ⟨?_, ?_, sound_ne_zero hs (by rw [k1]; rfl)⟩
    · unfold Db.isKind
      rw [k1]
      simp [k2]
    · unfold inDir
      rw [k1]
      simp [k3]
  have kGrp : ∀ g, r.group = some g → db.isKind .group g = true ∧ g ≠ 0 := by
    intro g hg
    obtain ⟨n, k1, k2⟩ := hr.group g hg
    exact ⟨isKind_iff.2 ⟨n, k1, k2⟩, sound_ne_zero hs (by rw [k1]; rfl)⟩
  have hc0 : r.cmd ≠ 0 := by
    obtain ⟨n, k, _⟩ := isKind_iff.1 hr.cmd
    exact sound_ne_zero hs (by rw [k]; rfl)
  have hgc := group_ne_cmd hr.cmd
  -- no output is in the new group
  have hnew : ∀ g, r.group = some g → G ≠ some g → ∀ a ∈ r.outputs, db.normal a g = false := by
    intro g hrg hgg a ha
    have hcg : ¬ db.normal r.cmd g = true := fun h => hgg ((hG g).2 ⟨h, (kGrp g hrg).1⟩)
    cases hold : db.normal r.cmd a with
    | true =>
      rw [Bool.eq_false_iff]
      intro h
      exact hcg ((ht.member r.cmd a g ⟨hr.cmd, hold, (kOut a ha).1, (kOut a ha).2.1⟩ (kGrp g hrg).1).1 h)
    | false => exact hf.group a ha hold g (kGrp g hrg).1
  obtain ⟨s1, h1⟩ : ∃ s1, changeGroup r (oldOutputs db excl r.cmd) G db = some s1 := by
    unfold changeGroup
    by_cases hgr : G = r.group
    · rw [if_pos hgr]; exact ⟨_, rfl⟩
    · rw [if_neg hgr]
      unfold joinGroup
      cases hrg : r.group with
      | none => exact ⟨_, rfl⟩
      | some g =>
        have hgg : G ≠ some g := fun h => hgr (by rw [h, hrg])
        obtain ⟨db1, e1⟩ := insertAll_total (kGrp g hrg).2 (l := r.outputs) (db := db) (hr.outputs.imp (fun h => Nat.ne_of_lt h)) (fun i hi =>
          ⟨(kOut i hi).2.2, fun h => by rw [h] at hi; exact absurd (kOut g hi).1 (by rw [(kGrp g hrg).1]; simp), hnew g hrg hgg i hi⟩)
        obtain ⟨_, _, _, _, k5⟩ := insertAll_some e1
        have hcg : db1.normal r.cmd g = false := by
          rw [Bool.eq_false_iff]
          intro h
          rcases (k5 r.cmd g).1 h with h | h
          · exact hgg ((hG g).2 ⟨h, (kGrp g hrg).1⟩)
          · exact hr.ownOutput h.1
        obtain ⟨db2, e2⟩ := insertLink_ok (fun h => by rw [← h] at hrg; exact absurd (kGrp _ hrg).1 (by rw [hgc]; simp)) hc0 (kGrp g hrg).2 hcg
        simp only [e1, e2, Option.bind_eq_bind, Option.bind_some]
        exact ⟨_, rfl⟩
  obtain ⟨same1, n1⟩ := changeGroup_some h1
  obtain ⟨s2, h2⟩ : ∃ s2, compare (rmOutput false r.cmd (sameGroup r G)) (addOutput false r.cmd (sameGroup r G)) (oldOutputs db excl r.cmd) r.outputs s1 = some s2 := by
    refine pod_total hascO hr.outputs hcO hc0 fun i hi hno => ⟨(kOut i hi).2.2, fun h => hr.ownOutput (h ▸ hi), ?_, fun b hb => ?_⟩
    · rw [Bool.eq_false_iff]
      intro h
      rcases ((n1 r.cmd i).1 h).1 with h | ⟨_, _, h⟩
      · exact hno ((mO i).2 ⟨h, (kOut i hi).1, (kOut i hi).2.1⟩)
      · have := (kGrp i h).1
        rw [(kOut i hi).1] at this; cases this
    · unfold sameGroup at hb
      split at hb
      · rename_i hgr
        refine ⟨(kGrp b hb).2, fun h => ?_, ?_⟩
        · have := (kGrp b hb).1
          rw [h, (kOut i hi).1] at this; cases this
        · rw [Bool.eq_false_iff]
          intro h
          rcases ((n1 i b).1 h).1 with h | ⟨h, _⟩
          · have hold : db.normal r.cmd i = false := by
              rw [Bool.eq_false_iff]
              exact fun hx => hno ((mO i).2 ⟨hx, (kOut i hi).1, (kOut i hi).2.1⟩)
            rw [hf.group i hi hold b (kGrp b hb).1] at h; cases h
          · exact h hgr
      · cases hb
  have i2 := pod_compare hascO hr.outputs hcO h2
  obtain ⟨hlO, hrO⟩ := mem_diff hascO hr.outputs
  obtain ⟨s3, h3⟩ : ∃ s3, compare (rmOutput false r.cmd none) (addOutput false r.cmd none) (oldExclusions db excl r.cmd) r.exclusions s2 = some s3 := by
    refine pod_total hascE hr.exclusions hcE hc0 fun i hi hno => ⟨(kExc i hi).2.2, fun h => hr.ownExclusion (h ▸ hi), ?_, fun b hb => by cases hb⟩
    rw [Bool.eq_false_iff]
    intro h
    have hng : ∀ g, r.group = some g → g ≠ i := by
      rintro g hg rfl
      have := (kGrp _ hg).1
      rw [(kExc _ hi).1] at this; cases this
    rcases (i2.normal r.cmd i).1 h with ⟨h, _⟩ | ⟨_, h⟩ | ⟨h, _⟩
    · rcases ((n1 r.cmd i).1 h).1 with h | ⟨_, _, h⟩
      · exact hno ((mE i).2 ⟨h, (kExc i hi).1, (kExc i hi).2.1⟩)
      · exact hng i h rfl
    · have := (kOut i ((hrO i).1 h).1).2.1
      rw [(kExc i hi).2.1] at this; cases this
    · unfold sameGroup at h
      split at h
      · exact hng i h rfl
      · cases h
  unfold writeOutputs
  rw [hg]
  simp only [h1, h2, h3, Option.bind_eq_bind, Option.bind_some]
  split
  · rw [if_neg (by decide)]; exact ⟨_, _, rfl⟩
  · exact ⟨_, _, rfl⟩

/-- A rule can be written if its outputs are free, it does not read its own group, and no variable of the environment that it adds has
been recorded already. -/
theorem writeRule_total {db : Db} (hs : Sound db) {excl : Nat} {r : Rule} (ht : Tidy db excl) (hr : RuleOk db excl r) (hf : Free db excl r)
    (hg : ∀ g, r.group = some g → g ∉ r.inputs) (he : ∀ a, EnvAdded db r a → db.normal a r.cmd = false) :
    ∃ db', writeRule false excl r db = some db' := by
  obtain ⟨db1, G, h1⟩ := writeOutputs_total hs ht hr hf
  have o := writeOutputs_some hs hr h1
  have hs1 := out_sound hs hr o
  have hcn := out_inputs hr o
  have hk : ∀ k j, db1.isKind k j = db.isKind k j := o.same.kind
  have hn1 : db1.node = db.node := by
    have := o.same
    unfold SameNodes at this
    rw [this]
  have hc0 : r.cmd ≠ 0 := by
    obtain ⟨n, k, _⟩ := isKind_iff.1 hr.cmd
    exact sound_ne_zero hs (by rw [k]; rfl)
  have kGrp : ∀ g, r.group = some g → db.isKind .group g = true ∧ g ≠ 0 := by
    intro g hg
    obtain ⟨n, k1, k2⟩ := hr.group g hg
    exact ⟨isKind_iff.2 ⟨n, k1, k2⟩, sound_ne_zero hs (by rw [k1]; rfl)⟩
  have hasc : Asc (stickyInputs db1 r.cmd) := asc_filter_range _ _
  have mS : ∀ a, a ∈ stickyInputs db1 r.cmd ↔ db.sticky a r.cmd = true := by
    intro a
    unfold stickyInputs
    rw [List.mem_filter, List.mem_range, o.sticky]
    refine ⟨fun h => h.2, fun hn => ⟨?_, hn⟩⟩
    rw [← o.sticky] at hn
    obtain ⟨n, hn⟩ := Option.isSome_iff_exists.1 (hs1.sticky a r.cmd hn).1
    exact (hs1.node a n hn).2
  have hin : ∀ i ∈ r.inputs, i ≠ 0 ∧ i ≠ r.cmd := fun i hi => ⟨sound_ne_zero hs (hr.input i hi), fun h => hr.ownInput (h ▸ hi)⟩
  have hgl : ∀ x y, db1.group x y r.cmd = true ↔ db.sticky x r.cmd = true ∧ db.isKind .group x = true ∧ G = some y := by
    intro x y
    rw [o.links, ht.groups, o.group]
    constructor
    · rintro ⟨_, h1, h2, h3, h4⟩; exact ⟨h1, h3, h2, h4⟩
    · rintro ⟨h1, h2, h3, h4⟩; exact ⟨hr.cmd, h1, h3, h2, h4⟩
  obtain ⟨s, h2⟩ := wid_total (env := r.env) (g := sameGroup r G) (db := db1) (c := r.cmd) hr.inputs hasc hc0 (by
    intro i hi hno
    have hst : db.sticky i r.cmd = false := by rw [Bool.eq_false_iff]; exact fun h => hno ((mS i).2 h)
    refine ⟨(hin i hi).1, (hin i hi).2, ?_, fun hie => ?_, fun b hb _ => ?_⟩
    · rw [o.sticky]; exact hst
    · rw [hcn]; exact he i ⟨hie, hst⟩
    · unfold sameGroup at hb
      split at hb
      · refine ⟨(kGrp b hb).2, fun h => hg b hb (h ▸ hi), ?_⟩
        rw [Bool.eq_false_iff]
        intro h
        have := ((hgl i b).1 h).1
        rw [hst] at this; cases this
      · cases hb)
  have iv := wid_compare hr.inputs hasc h2
  obtain ⟨db2, h3⟩ : ∃ db2, forgetInputs r s.invalid s.db = some db2 := by
    unfold forgetInputs
    split
    · refine insertEnv_total hc0 (hr.env.imp (fun h => Nat.ne_of_lt h)) fun i hi => ⟨(hin i (hr.envInputs i hi)).1, (hin i (hr.envInputs i hi)).2, ?_⟩
      show (s.db.normal i r.cmd && !decide (r.cmd = r.cmd)) = false
      simp
    · exact ⟨_, rfl⟩
  have hgr2 : db2.group = s.db.group := by
    unfold forgetInputs at h3
    split at h3
    · obtain ⟨k1, _⟩ := insertEnv_some h3
      rw [k1]; rfl
    · cases h3; rfl
  obtain ⟨db3, h4⟩ : ∃ db3, changeGroupLinks r G db2 = some db3 := by
    unfold changeGroupLinks
    by_cases hgr : G = r.group
    · rw [if_pos hgr]; exact ⟨_, rfl⟩
    · rw [if_neg hgr]
      simp only
      cases hrg : r.group with
      | none => exact ⟨_, rfl⟩
      | some g =>
        refine insertGroups_total hc0 (kGrp g hrg).2 (hr.inputs.imp (fun h => Nat.ne_of_lt h)) fun i hi => ⟨(hin i hi).1, fun h => hg g hrg (h ▸ hi), ?_⟩
        have hno : G = some g → False := fun h => hgr (by rw [h, hrg])
        split
        · show (db2.group i g r.cmd && !decide (r.cmd = r.cmd)) = false
          simp
        · rw [hgr2, Bool.eq_false_iff]
          intro h
          rcases (iv.group i g r.cmd).1 h with h | h
          · exact hno ((hgl i g).1 h.1).2.2
          · have := h.2.1
            unfold sameGroup at this
            rw [if_neg hgr] at this; cases this
  refine ⟨db3, ?_⟩
  unfold writeRule writeInputs
  simp only [h1, h2, h3, h4, Option.bind_eq_bind, Option.bind_some, iv.failed]
  rfl

/-- The rule is what is stored already. -/
structure Unchanged (db : Db) (r : Rule) : Prop where
  modified : r.modified = false
  outputs : ∀ b, db.normal r.cmd b = true ↔ Declared r b
  inputs : ∀ a, db.sticky a r.cmd = true ↔ a ∈ r.inputs

theorem asc_ext {l l' : List Nat} (h : Asc l) (h' : Asc l') (hm : ∀ a, a ∈ l ↔ a ∈ l') : l = l' := by
  induction l generalizing l' with
  | nil =>
    cases l' with
    | nil => rfl
    | cons b l' => exact absurd ((hm b).2 List.mem_cons_self) (by simp)
  | cons a l ih =>
    cases l' with
    | nil => exact absurd ((hm a).1 List.mem_cons_self) (by simp)
    | cons b l' =>
      obtain ⟨a1, a2⟩ := List.pairwise_cons.1 h
      obtain ⟨b1, b2⟩ := List.pairwise_cons.1 h'
      have hab : a = b := by
        rcases List.mem_cons.1 ((hm a).1 List.mem_cons_self) with e | e
        · exact e
        · rcases List.mem_cons.1 ((hm b).2 List.mem_cons_self) with f | f
          · exact f.symm
          · have := a1 b f
            have := b1 a e
            omega
      subst hab
      rw [ih a2 b2 fun x => ?_]
      constructor
      · intro hx
        rcases List.mem_cons.1 ((hm x).1 (List.mem_cons_of_mem _ hx)) with e | e
        · have := a1 x hx; omega
        · exact e
      · intro hx
        rcases List.mem_cons.1 ((hm x).2 (List.mem_cons_of_mem _ hx)) with e | e
        · have := b1 x hx; omega
        · exact e

theorem unchanged_lists {db : Db} (hs : Sound db) {excl : Nat} {r : Rule} (hr : RuleOk db excl r) (hu : ∀ b, db.normal r.cmd b = true ↔ Declared r b) :
    oldOutputs db excl r.cmd = r.outputs ∧ oldExclusions db excl r.cmd = r.exclusions := by
  have kOut : ∀ b ∈ r.outputs, db.isKind .group b = false ∧ inDir db excl b = false := by
    intro b hb
    obtain ⟨n, k1, k2, k3⟩ := hr.output b hb
    unfold inDir Db.isKind
    rw [k1]
    simp [k2, k3]
  have kExc : ∀ b ∈ r.exclusions, db.isKind .group b = false ∧ inDir db excl b = true := by
    intro b hb
    obtain ⟨n, k1, k2, k3⟩ := hr.exclusion b hb
    unfold inDir Db.isKind
    rw [k1]
    simp [k2, k3]
  have kGrp : ∀ g, r.group = some g → db.isKind .group g = true := by
    intro g hg
    obtain ⟨n, k1, k2⟩ := hr.group g hg
    exact isKind_iff.2 ⟨n, k1, k2⟩
  constructor
  · refine asc_ext (asc_sub (asc_filter_range _ _) _) hr.outputs fun b => ?_
    have e1 := kOut b
    have e2 := kExc b
    have e3 := kGrp b
    show b ∈ oldOutputs db excl r.cmd ↔ _
    rw [mem_oldOutputs hs, hu]
    unfold Declared
    grind
  · refine asc_ext (asc_sub (asc_filter_range _ _) _) hr.exclusions fun b => ?_
    have e1 := kOut b
    have e2 := kExc b
    have e3 := kGrp b
    show b ∈ oldExclusions db excl r.cmd ↔ _
    rw [mem_oldExclusions hs, hu]
    unfold Declared
    grind

theorem writeRule_unchanged {db : Db} (hs : Sound db) {excl : Nat} {r : Rule} (ht : Tidy db excl) (hr : RuleOk db excl r) (hu : Unchanged db r)
    (refactoring : Bool) : writeRule refactoring excl r db = some db := by
  obtain ⟨G, hg⟩ := getOutputs_total hs ht hr.cmd
  obtain ⟨-, -, hG⟩ := getOutputs_some hs hg
  obtain ⟨e1, e2⟩ := unchanged_lists hs hr hu.outputs
  have hGr : G = r.group := by
    have hno : ∀ b, db.isKind .group b = true → Declared r b → r.group = some b := by
      rintro b hb (h | h | h)
      · obtain ⟨n, k1, k2, k3⟩ := hr.output b h
        obtain ⟨m, l1, l2⟩ := isKind_iff.1 hb
        rw [k1] at l1; cases l1
        exact absurd l2 k2
      · obtain ⟨n, k1, k2, k3⟩ := hr.exclusion b h
        obtain ⟨m, l1, l2⟩ := isKind_iff.1 hb
        rw [k1] at l1; cases l1
        exact absurd l2 k2
      · exact h
    cases hGG : G with
    | some g =>
      have := (hG g).1 hGG
      exact (hno g this.2 ((hu.outputs g).1 this.1)).symm
    | none =>
      cases hrg : r.group with
      | none => rfl
      | some g =>
        obtain ⟨n, k1, k2⟩ := hr.group g hrg
        have := (hG g).2 ⟨(hu.outputs g).2 (.inr (.inr hrg)), isKind_iff.2 ⟨n, k1, k2⟩⟩
        rw [hGG] at this; cases this
  have hin : stickyInputs db r.cmd = r.inputs := by
    refine asc_ext (asc_filter_range _ _) hr.inputs fun a => ?_
    rw [← hu.inputs]
    unfold stickyInputs
    rw [List.mem_filter, List.mem_range]
    refine ⟨fun h => h.2, fun hn => ⟨?_, hn⟩⟩
    obtain ⟨n, hn⟩ := Option.isSome_iff_exists.1 (hs.sticky a r.cmd hn).1
    exact (hs.node a n hn).2
  have hw : writeOutputs refactoring excl r db = some (db, G) := by
    unfold writeOutputs
    rw [hg]
    simp only [changeGroup, if_pos hGr, e1, e2, compare_same, Option.bind_eq_bind, Option.bind_some, hu.modified]
    rfl
  unfold writeRule writeInputs
  simp only [hw, hin, compare_same, forgetInputs, changeGroupLinks, if_pos hGr, Option.bind_eq_bind, Option.bind_some]
  rfl

theorem pod_refactoring {as bs : List Nat} (ha : Asc as) (hb : Asc bs) {c : Nat} {g : Option Nat} {s0 s : Pod}
    (h : compare (rmOutput true c g) (addOutput true c g) as bs s0 = some s) :
    s.db = s0.db ∧ (s.differ = true ↔ s0.differ = true ∨ ∃ e, e ∈ diff as bs) := by
  refine compare_inv ha hb (fun D s => s.db = s0.db ∧ (s.differ = true ↔ s0.differ = true ∨ ∃ e, D e)) (by simp) ?_ h
  intro D e s s' _ _ hp hs
  cases e <;> (cases hs; exact ⟨hp.1, by simp⟩)

theorem wid_refactoring {as bs : List Nat} (ha : Asc as) (hb : Asc bs) {c : Nat} {env : List Nat} {g : Option Nat} {s0 s : Wid}
    (h : compare (addSticky true c env g) (rmSticky true c g) as bs s0 = some s) :
    s.db = s0.db ∧ s.invalid = s0.invalid ∧ (s.failed = true ↔ s0.failed = true ∨ ∃ e, e ∈ diff as bs) := by
  refine compare_inv ha hb (fun D s => s.db = s0.db ∧ s.invalid = s0.invalid ∧ (s.failed = true ↔ s0.failed = true ∨ ∃ e, D e)) (by simp) ?_ h
  intro D e s s' _ _ hp hs
  cases e <;> (cases hs; exact ⟨hp.1, hp.2.1, by simp⟩)

theorem diff_empty {as bs : List Nat} (ha : Asc as) (hb : Asc bs) (h : ¬ ∃ e, e ∈ diff as bs) : ∀ x, x ∈ as ↔ x ∈ bs := by
  obtain ⟨hl, hr⟩ := mem_diff ha hb
  intro x
  have h1 : ¬ (x ∈ as ∧ x ∉ bs) := fun hx => h ⟨_, (hl x).2 hx⟩
  have h2 : ¬ (x ∈ bs ∧ x ∉ as) := fun hx => h ⟨_, (hr x).2 hx⟩
  grind

theorem writeRule_refactoring {db : Db} (hs : Sound db) {excl : Nat} {r : Rule} {db' : Db}
    (hr : RuleOk db excl r) (h : writeRule true excl r db = some db') : Unchanged db r ∧ db' = db := by
  obtain ⟨db1, G, h1, h2⟩ := writeRule_some h
  have hascO : Asc (oldOutputs db excl r.cmd) := asc_sub (asc_filter_range _ _) _
  have hascE : Asc (oldExclusions db excl r.cmd) := asc_sub (asc_filter_range _ _) _
  unfold writeOutputs at h1
  cases hg : getOutputs db excl r.cmd with
  | none => rw [hg] at h1; cases h1
  | some x =>
    obtain ⟨O, E, G'⟩ := x
    rw [hg] at h1
    obtain ⟨rfl, rfl, hG⟩ := getOutputs_some hs hg
    simp only [Option.bind_eq_bind, Option.bind_eq_some_iff] at h1
    obtain ⟨s1, k1, s2, k2, s3, k3, k4⟩ := h1
    obtain ⟨p1, p2⟩ := pod_refactoring hascO hr.outputs k2
    obtain ⟨q1, q2⟩ := pod_refactoring hascE hr.exclusions k3
    by_cases hd : s3.differ = true
    · rw [if_pos hd, if_pos trivial] at k4; cases k4
    · rw [if_neg hd] at k4
      cases k4
      rw [q2, p2] at hd
      simp only [not_or] at hd
      have hc : G = r.group ∧ s1.db = db ∧ s1.differ = r.modified := by
        unfold changeGroup at k1
        by_cases hgr : G = r.group
        · rw [if_pos hgr] at k1
          cases k1
          exact ⟨hgr, rfl, rfl⟩
        · rw [if_neg hgr, Option.map_eq_some_iff] at k1
          obtain ⟨_, _, k1⟩ := k1
          cases k1
          exact absurd rfl hd.1.1
      obtain ⟨hgr, hdb, hdm⟩ := hc
      have e1 : s3.db = db := by rw [q1, p1, hdb]
      rw [e1] at h2
      have mo := diff_empty hascO hr.outputs hd.1.2
      have me := diff_empty hascE hr.exclusions hd.2
      unfold writeInputs at h2
      simp only [Option.bind_eq_bind, Option.bind_eq_some_iff] at h2
      obtain ⟨w, l1, db2, l2, db3, l3, l4⟩ := h2
      obtain ⟨m1, m2, m3⟩ := wid_refactoring hr.inputs (asc_filter_range _ _) l1
      by_cases hf : w.failed = true
      · rw [if_pos hf] at l4; cases l4
      · rw [if_neg hf] at l4
        cases l4
        rw [m3] at hf
        simp only [not_or] at hf
        have mi := diff_empty hr.inputs (asc_filter_range _ _) hf.2
        refine ⟨⟨?_, fun b => ?_, fun a => ?_⟩, ?_⟩
        · rw [← hdm]
          exact Bool.eq_false_iff.2 hd.1.1
        · unfold Declared
          rw [← mo, ← me, ← hgr, hG, mem_oldOutputs hs, mem_oldExclusions hs]
          cases db.isKind .group b <;> cases inDir db excl b <;> simp
        · rw [mi]
          rw [List.mem_filter, List.mem_range]
          refine ⟨fun hn => ⟨?_, hn⟩, fun h => h.2⟩
          obtain ⟨n, hn⟩ := Option.isSome_iff_exists.1 (hs.sticky a r.cmd hn).1
          exact (hs.node a n hn).2
        · unfold changeGroupLinks at l3
          rw [if_pos hgr] at l3
          cases l3
          unfold forgetInputs at l2
          rw [m2, if_neg (fun h => by cases h)] at l2
          cases l2
          exact m1

end Tup.Links
