import Verif.Links.WriteIn

/-! A rule has been written: everything that is known about the links. -/

namespace Tup.Links

open Tup.Db

/-- Both parts of `writeRule`. -/
theorem writeRule_some {db : Db} {excl : Nat} {r : Rule} {refactoring : Bool} {db' : Db} (h : writeRule refactoring excl r db = some db') :
    ∃ db1 G, writeOutputs refactoring excl r db = some (db1, G) ∧ writeInputs refactoring r G db1 = some db' := by
  unfold writeRule at h
  simp only [Option.bind_eq_bind, Option.bind_eq_some_iff] at h
  obtain ⟨⟨db1, G⟩, h1, h2⟩ := h
  exact ⟨db1, G, h1, h2⟩

theorem isKind_ne {db : Db} {k k' : Kind} {i : Nat} (h : db.isKind k i = true) (h' : db.isKind k' i = true) (hn : k ≠ k') : False := by
  obtain ⟨n, e1, e2⟩ := isKind_iff.1 h
  obtain ⟨m, f1, f2⟩ := isKind_iff.1 h'
  rw [e1] at f1
  cases f1
  exact hn (e2.symm.trans f2)

theorem isKind_other {db : Db} {k k' : Kind} {i : Nat} (h : db.isKind k i = true) (hn : k ≠ k') : db.isKind k' i = false :=
  Bool.eq_false_iff.2 fun h' => isKind_ne h h' hn

theorem RuleOk.notCmd {db : Db} {excl : Nat} {r : Rule} (hr : RuleOk db excl r) : ∀ b ∈ r.outputs, db.isKind .cmd b = false :=
  fun b hb => isKind_other (hr.outputFile b hb) (by decide)

theorem RuleOk.ownOutput {db : Db} {excl : Nat} {r : Rule} (hr : RuleOk db excl r) : r.cmd ∉ r.outputs := by
  intro h
  have := hr.notCmd _ h
  rw [hr.cmd] at this
  cases this

theorem RuleOk.ownInput {db : Db} {excl : Nat} {r : Rule} (hr : RuleOk db excl r) : r.cmd ∉ r.inputs := by
  intro h
  have := (hr.inputFile _ h).1
  rw [hr.cmd] at this
  cases this

theorem RuleOk.ownExclusion {db : Db} {excl : Nat} {r : Rule} (hr : RuleOk db excl r) : r.cmd ∉ r.exclusions :=
  fun h => isKind_ne hr.cmd (hr.exclusionGhost _ h) (by decide)

theorem not_declared_self {db : Db} {excl : Nat} {r : Rule} (hr : RuleOk db excl r) : ¬ Declared r r.cmd := by
  rintro (h | h | h)
  · exact hr.ownOutput h
  · exact hr.ownExclusion h
  · obtain ⟨n, k1, k2⟩ := hr.group _ h
    obtain ⟨m, l1, l2⟩ := isKind_iff.1 hr.cmd
    rw [k1] at l1
    cases l1
    rw [k2] at l2
    cases l2

theorem group_ne_cmd {db : Db} {c : Nat} (hc : db.isKind .cmd c = true) : db.isKind .group c = false := by
  obtain ⟨n, k1, k2⟩ := isKind_iff.1 hc
  unfold Db.isKind
  rw [k1]
  show decide (n.kind = .group) = false
  rw [k2]; rfl

/-- The normal links into the command are not touched by the outputs. -/
theorem out_inputs {db : Db} {excl : Nat} {r : Rule} (hr : RuleOk db excl r) {G : Option Nat} {db1 : Db} (o : OutDone db excl r G db1)
    (a : Nat) : db1.normal a r.cmd = db.normal a r.cmd := by
  have hg := group_ne_cmd hr.cmd
  rw [Bool.eq_iff_iff]
  by_cases ha : a = r.cmd
  · subst ha
    rw [o.cmd, hr.self]
    simp [not_declared_self hr]
  · rw [o.other a r.cmd ha]
    have h1 : G ≠ some r.cmd := by
      intro h
      have := ((o.group _).1 h).2
      rw [hg] at this; cases this
    have h2 : r.group ≠ some r.cmd := by
      intro h
      exact not_declared_self hr (.inr (.inr h))
    simp [h1, h2]

theorem out_sound {db : Db} (hs : Sound db) {excl : Nat} {r : Rule} (hr : RuleOk db excl r) {G : Option Nat} {db1 : Db} (o : OutDone db excl r G db1) :
    Sound db1 := by
  have hn : db1.node = db.node := by
    have := o.same
    unfold SameNodes at this
    rw [this]
  have ht : db1.top = db.top := by
    have := o.same
    unfold SameNodes at this
    rw [this]
  have hdecl : ∀ b, Declared r b → (db.node b).isSome := by
    rintro b (h | h | h)
    · obtain ⟨n, k, _⟩ := hr.output b h; rw [k]; rfl
    · obtain ⟨n, k, _⟩ := hr.exclusion b h; rw [k]; rfl
    · obtain ⟨n, k, _⟩ := hr.group b h; rw [k]; rfl
  refine ⟨fun a n h => ?_, fun a b h => ?_, fun a b h => ?_⟩
  · rw [hn] at h
    rw [ht]
    exact hs.node a n h
  · rw [hn]
    by_cases ha : a = r.cmd
    · subst ha
      obtain ⟨n, k, _⟩ := isKind_iff.1 hr.cmd
      exact ⟨by rw [k]; rfl, hdecl b ((o.cmd b).1 h)⟩
    · rcases (o.other a b ha).1 h with h | h
      · exact hs.normal a b h.1
      · exact ⟨hdecl a (.inl h.2.1), hdecl b (.inr (.inr h.1))⟩
  · rw [hn]
    rw [o.sticky] at h
    exact hs.sticky a b h

/-- Everything about the links after a rule has been written. -/
structure RuleWritten (db : Db) (excl : Nat) (r : Rule) (db' : Db) : Prop where
  nodes : SameNodes db db'
  /-- The command writes to what the rule says. -/
  outputs : ∀ b, db'.normal r.cmd b = true ↔ Declared r b
  /-- The declared inputs are those of the rule. -/
  inputs : ∀ a, db'.sticky a r.cmd = true ↔ a ∈ r.inputs
  /-- The recorded dependencies, if no group has been taken away. -/
  used : (¬ ∃ a, db.sticky a r.cmd = true ∧ a ∉ r.inputs ∧ db.isKind .group a = true) →
    ∀ a, db'.normal a r.cmd = true ↔
      (db.normal a r.cmd = true ∧ ¬ (db.sticky a r.cmd = true ∧ a ∉ r.inputs)) ∨ EnvAdded db r a
  /-- Else, they are forgotten, but for the environment variables. -/
  forgotten : (∃ a, db.sticky a r.cmd = true ∧ a ∉ r.inputs ∧ db.isKind .group a = true) →
    ∀ a, db'.normal a r.cmd = true ↔ a ∈ r.env
  /-- The outputs are members of the group. -/
  joined : ∀ a b, r.group = some b → a ∈ r.outputs → db'.normal a b = true
  /-- What the command does not write any more, or does not put into the group any more, leaves the group. -/
  left : ∀ a b, db.normal r.cmd b = true → db.isKind .group b = true → a ∈ oldOutputs db excl r.cmd →
    ¬ (r.group = some b ∧ a ∈ r.outputs) → db'.normal a b = false
  /-- There is a link from each group that the command reads to the group that it writes. -/
  groups : ∀ x y, db'.group x y r.cmd = true ↔ x ∈ r.inputs ∧ db.isKind .group x = true ∧ r.group = some y
  /-- All other links are as before. -/
  otherNormal : ∀ a b, a ≠ r.cmd → b ≠ r.cmd → ¬ (r.group = some b ∧ a ∈ r.outputs) →
    ¬ (db.normal r.cmd b = true ∧ db.isKind .group b = true ∧ a ∈ oldOutputs db excl r.cmd) → db'.normal a b = db.normal a b
  otherSticky : ∀ a b, b ≠ r.cmd → db'.sticky a b = db.sticky a b
  otherGroup : ∀ x y z, z ≠ r.cmd → db'.group x y z = db.group x y z
  modify : ∀ j, db'.modify j = true ↔ db.modify j = true ∨
    (j = r.cmd ∧ (OutputsChange db r ∨ (∃ a, InputTaken db r a) ∨ ∃ a, EnvAdded db r a)) ∨
    (OutputsChange db r ∧ r.group = some j) ∨
    (∃ g, GroupLeft db r g ∧ (j = g ∨ (j ≠ g ∧ ∃ i ∈ oldOutputs db excl r.cmd, db.normal i j = true ∧
      (db.isKind .cmd j = true ∨ db.isKind .group j = true))))

theorem ruleWritten {db : Db} (hs : Sound db) {excl : Nat} {r : Rule} (ht : Tidy db excl) (hr : RuleOk db excl r) {db' : Db}
    (h : writeRule false excl r db = some db') : RuleWritten db excl r db' := by
  obtain ⟨db1, G, h1, h2⟩ := writeRule_some h
  have o := writeOutputs_some hs hr h1
  have i := writeInputs_some (out_sound hs hr o) hr.inputs hr.envInputs h2
  have hk : ∀ k j, db1.isKind k j = db.isKind k j := o.same.kind
  have hcn := out_inputs hr o
  have hit : ∀ a, InputTaken db1 r a ↔ InputTaken db r a := by
    intro a
    unfold InputTaken
    rw [o.sticky, hcn, hk]
  have hea : ∀ a, EnvAdded db1 r a ↔ EnvAdded db r a := by
    intro a
    unfold EnvAdded
    rw [o.sticky]
  have hgn := group_ne_cmd hr.cmd
  refine ⟨o.same.trans i.same, fun b => ?_, fun a => ?_, fun hno a => ?_, fun hex a => ?_, fun a b hb ha => ?_, fun a b h3 h4 ha hn => ?_,
    fun x y => ?_, fun a b ha hb hn1 hn2 => ?_, fun a b hb => ?_, fun x y z hz => ?_, fun j => ?_⟩
  · by_cases hb : b = r.cmd
    · subst hb
      have hnd := not_declared_self hr
      simp only [hnd, iff_false]
      by_cases hex : ∃ a, db1.sticky a r.cmd = true ∧ a ∉ r.inputs ∧ db1.isKind .group a = true
      · rw [i.invalid hex]
        exact fun h => hr.ownInput (hr.envInputs _ h)
      · rw [i.valid hex, hcn, hr.self]
        simp only [Bool.false_eq_true, false_and, false_or]
        exact fun h => hr.ownInput (hr.envInputs _ h.2)
    · rw [i.other _ _ hb]
      exact o.cmd b
  · rw [i.sticky]
    simp
  · rw [i.valid (by rw [o.sticky]; simp only [hk]; exact hno), hcn, o.sticky]
    unfold EnvAdded
    grind
  · rw [i.invalid (by rw [o.sticky]; simp only [hk]; exact hex)]
  · have hb' : b ≠ r.cmd := by
      rintro rfl
      exact not_declared_self hr (.inr (.inr hb))
    have ha' : a ≠ r.cmd := by
      rintro rfl
      exact hr.ownOutput ha
    rw [i.other _ _ hb', o.other a b ha']
    by_cases hq : G = some b ∧ a ∈ oldOutputs db excl r.cmd
    · -- an old output in the same group: it was a member, or becomes one
      have hw : Writes db excl r.cmd a := by
        have := (mem_oldOutputs hs).1 hq.2
        exact ⟨hr.cmd, this.1, this.2.1, this.2.2⟩
      have hg := (o.group b).1 hq.1
      exact .inl ⟨(ht.member r.cmd a b hw hg.2).2 hg.1, fun hc => hc.2.2 ⟨hb, ha⟩⟩
    · exact .inr ⟨hb, ha, hq⟩
  · have hb' : b ≠ r.cmd := by
      rintro rfl
      rw [hgn] at h4; cases h4
    have ha' : a ≠ r.cmd := by
      rintro rfl
      have := (mem_oldOutputs hs).1 ha
      rw [hr.self] at this
      cases this.1
    rw [i.other _ _ hb', Bool.eq_false_iff]
    intro hc
    have hG := (o.group b).2 ⟨h3, h4⟩
    rcases (o.other a b ha').1 hc with h | h
    · exact h.2 ⟨hG, ha, hn⟩
    · exact h.2.2 ⟨hG, ha⟩
  · rw [i.group, o.links, o.sticky, hk]
    have e1 := ht.groups x y r.cmd
    have e2 := o.group y
    have e3 := hr.group y
    have e4 := hr.cmd
    have e5 : ∀ n, db.node y = some n ∧ n.kind = .group → db.isKind .group y = true := fun n h => isKind_iff.2 ⟨n, h⟩
    rw [e1]
    cases hS : db.sticky x r.cmd <;> by_cases hx : x ∈ r.inputs <;> by_cases hgr : G = r.group <;> grind
  · rw [i.other _ _ hb, Bool.eq_iff_iff, o.other a b ha]
    have := o.group b
    grind
  · rw [Bool.eq_iff_iff, i.sticky, o.sticky]
    simp [hb]
  · rw [Bool.eq_iff_iff, i.group, o.links]
    simp [hz]
  · rw [i.modify, o.modify]
    simp only [hit, hea]
    grind

/-- A link of another command is kept, unless it is to an output. -/
theorem RuleWritten.normal_cmd {db : Db} {excl : Nat} {r : Rule} {db' : Db} (w : RuleWritten db excl r db') (hs : Sound db) (ht : Tidy db excl)
    (hr : RuleOk db excl r) {c b : Nat} (hc : db.isKind .cmd c = true) (hn : c ≠ r.cmd) (hb : b ≠ r.cmd) : db'.normal c b = db.normal c b := by
  refine w.otherNormal c b hn hb ?_ ?_
  · rintro ⟨_, h⟩
    have := hr.notCmd c h
    rw [hc] at this; cases this
  · rintro ⟨_, _, h⟩
    have h := (mem_oldOutputs hs).1 h
    have := ht.file r.cmd c hr.cmd h.1
    rw [hc] at this; cases this

/-- `Tidy` is kept. -/
theorem ruleWritten_tidy {db : Db} (hs : Sound db) {excl : Nat} {r : Rule} (ht : Tidy db excl) (hr : RuleOk db excl r) (hf : Free db excl r) {db' : Db}
    (h : writeRule false excl r db = some db') : Tidy db' excl := by
  have w := ruleWritten hs ht hr h
  have hk : ∀ k j, db'.isKind k j = db.isKind k j := w.nodes.kind
  have hd : ∀ j, inDir db' excl j = inDir db excl j := by
    intro j
    have : db'.node = db.node := by
      have := w.nodes
      unfold SameNodes at this
      rw [this]
    unfold inDir
    rw [this]
  have kGrp : ∀ g, r.group = some g → db.isKind .group g = true := by
    intro g hg
    obtain ⟨n, k1, k2⟩ := hr.group g hg
    exact isKind_iff.2 ⟨n, k1, k2⟩
  have hnc := not_declared_self hr
  have hgc := group_ne_cmd hr.cmd
  -- what the commands write
  have hwn : ∀ c a, db.isKind .cmd c = true → c ≠ r.cmd → db'.normal c a = true → db.normal c a = true := by
    intro c a h1 hc h2
    by_cases ha : a = r.cmd
    · subst ha
      have hce : c ∉ r.env := by
        intro he
        have := (hr.inputFile c (hr.envInputs c he)).1
        rw [h1] at this; cases this
      by_cases hex : ∃ a, db.sticky a r.cmd = true ∧ a ∉ r.inputs ∧ db.isKind .group a = true
      · exact absurd ((w.forgotten hex c).1 h2) hce
      · rcases (w.used hex c).1 h2 with h | h
        · exact h.1
        · exact absurd h.1 hce
    · rw [← w.normal_cmd hs ht hr h1 hc ha]
      exact h2
  have hw : ∀ c a, Writes db' excl c a → (c = r.cmd ∧ a ∈ r.outputs) ∨ (c ≠ r.cmd ∧ Writes db excl c a) := by
    rintro c a ⟨h1, h2, h3, h4⟩
    rw [hk] at h1 h3
    rw [hd] at h4
    by_cases hc : c = r.cmd
    · subst hc
      left
      refine ⟨rfl, ?_⟩
      rcases (w.outputs a).1 h2 with h | h | h
      · exact h
      · obtain ⟨n, k1, k2, k3⟩ := hr.exclusion a h
        unfold inDir at h4
        rw [k1] at h4
        simp [k3] at h4
      · rw [kGrp a h] at h3; cases h3
    · exact .inr ⟨hc, h1, hwn c a h1 hc h2, h3, h4⟩
  have hgne : ∀ g, db.isKind .group g = true → g ≠ r.cmd := by
    rintro g hg rfl
    rw [hgc] at hg; cases hg
  have hcg : ∀ g, db.isKind .group g = true → (db'.normal r.cmd g = true ↔ r.group = some g) := by
    intro g hg
    rw [w.outputs]
    constructor
    · rintro (h | h | h)
      · obtain ⟨n, k1, k2, k3⟩ := hr.output g h
        obtain ⟨m, l1, l2⟩ := isKind_iff.1 hg
        rw [k1] at l1; cases l1
        exact absurd l2 k2
      · obtain ⟨n, k1, k2, k3⟩ := hr.exclusion g h
        obtain ⟨m, l1, l2⟩ := isKind_iff.1 hg
        rw [k1] at l1; cases l1
        exact absurd l2 k2
      · exact h
    · exact fun h => .inr (.inr h)
  refine ⟨fun c a h h2 => ?_, fun c c' a h h' => ?_, fun c g g' h1 h2 h3 h4 h5 => ?_, fun c a g h1 h2 => ?_, fun x y z => ?_, fun y h1 h2 z => ?_, fun a b h1 h2 => ?_⟩
  · rw [hk] at h ⊢
    by_cases hc : c = r.cmd
    · subst hc
      rcases (w.outputs a).1 h2 with h | h | h
      · exact hr.notCmd a h
      · exact isKind_other (hr.exclusionGhost a h) (by decide)
      · exact isKind_other (kGrp a h) (by decide)
    · exact ht.file c a h (hwn c a h hc h2)
  · rcases hw c a h with ⟨e1, h1⟩ | ⟨e1, h1⟩ <;> rcases hw c' a h' with ⟨e2, h2⟩ | ⟨e2, h2⟩
    · rw [e1, e2]
    · rw [e1, hf.owner a h1 c' h2]
    · rw [e2, hf.owner a h2 c h1]
    · exact ht.owner c c' a h1 h2
  · rw [hk] at h1 h4 h5
    by_cases hc : c = r.cmd
    · subst hc
      have e1 := (hcg g h4).1 h2
      have e2 := (hcg g' h5).1 h3
      rw [e1] at e2
      cases e2
      rfl
    · rw [w.normal_cmd hs ht hr h1 hc (hgne _ h4)] at h2
      rw [w.normal_cmd hs ht hr h1 hc (hgne _ h5)] at h3
      exact ht.oneGroup c g g' h1 h2 h3 h4 h5
  · rw [hk] at h2
    rcases hw c a h1 with ⟨rfl, ha⟩ | ⟨hc, ha⟩
    · rw [hcg g h2]
      refine ⟨fun hn => Classical.byContradiction fun hno => ?_, fun hg => w.joined a g hg ha⟩
      have hac : a ≠ r.cmd := fun h => hr.ownOutput (h ▸ ha)
      have hgw := hgne g h2
      have hko : db.isKind .group a = false ∧ inDir db excl a = false := by
        obtain ⟨n, k1, k2, k3⟩ := hr.output a ha
        unfold inDir Db.isKind
        rw [k1]
        simp [k2, k3]
      cases hold : db.normal r.cmd a with
      | true =>
        have hao : a ∈ oldOutputs db excl r.cmd := (mem_oldOutputs hs).2 ⟨hold, hko⟩
        cases hcg' : db.normal r.cmd g with
        | true =>
          have := w.left a g hcg' h2 hao (fun h => hno h.1)
          rw [hn] at this; cases this
        | false =>
          rw [w.otherNormal a g hac hgw (fun h => hno h.1) (fun h => by rw [hcg'] at h; cases h.1)] at hn
          have := (ht.member r.cmd a g ⟨hr.cmd, hold, hko⟩ h2).1 hn
          rw [hcg'] at this; cases this
      | false =>
        have hao : a ∉ oldOutputs db excl r.cmd := by
          rw [mem_oldOutputs hs, hold]; simp
        rw [w.otherNormal a g hac hgw (fun h => hno h.1) (fun h => hao h.2.2)] at hn
        rw [hf.group a ha hold g h2] at hn; cases hn
    · have hac : a ≠ r.cmd := by
        rintro rfl
        have := ht.file _ _ ha.1 ha.2.1
        rw [hr.cmd] at this; cases this
      rw [w.normal_cmd hs ht hr ha.1 hc (hgne _ h2), w.otherNormal a g hac (hgne _ h2) ?_ ?_]
      · exact ht.member c a g ha h2
      · rintro ⟨_, h⟩
        exact hc (hf.owner a h c ha)
      · rintro ⟨_, _, h⟩
        have h := (mem_oldOutputs hs).1 h
        exact hc (ht.owner c r.cmd a ha ⟨hr.cmd, h⟩)
  · simp only [hk]
    by_cases hz : z = r.cmd
    · subst hz
      rw [w.groups, w.inputs]
      constructor
      · rintro ⟨h1, h2, h3⟩
        exact ⟨hr.cmd, h1, (hcg y (kGrp y h3)).2 h3, h2, kGrp y h3⟩
      · rintro ⟨_, h1, h2, h3, h4⟩
        exact ⟨h1, h3, (hcg y h4).1 h2⟩
    · rw [w.otherGroup x y z hz, ht.groups, w.otherSticky x z hz]
      constructor
      · rintro ⟨h1, h2, h3, h4, h5⟩
        rw [w.normal_cmd hs ht hr h1 hz (hgne _ h5)]
        exact ⟨h1, h2, h3, h4, h5⟩
      · rintro ⟨h1, h2, h3, h4, h5⟩
        rw [w.normal_cmd hs ht hr h1 hz (hgne _ h5)] at h3
        exact ⟨h1, h2, h3, h4, h5⟩
  · rw [hk] at h1
    rw [hd] at h2
    have hyc : y ≠ r.cmd := by
      rintro rfl
      exact isKind_ne h1 hr.cmd (by decide)
    have hnd : ¬ Declared r y := by
      rintro (h | h | h)
      · exact isKind_ne h1 (hr.outputFile y h) (by decide)
      · obtain ⟨n, k1, k2, k3⟩ := hr.exclusion y h
        unfold inDir at h2
        rw [k1] at h2
        simp [k3] at h2
      · exact isKind_ne h1 (kGrp y h) (by decide)
    constructor
    · by_cases hz : z = r.cmd
      · subst hz
        rw [Bool.eq_false_iff]
        exact fun h => hnd ((w.outputs y).1 h)
      · rw [w.otherNormal z y hz hyc (fun h => hnd (.inr (.inr h.1))) (fun h => isKind_ne h1 h.2.1 (by decide))]
        exact (ht.ghost y h1 h2 z).1
    · by_cases hz : z = r.cmd
      · subst hz
        rw [Bool.eq_false_iff]
        intro h
        have := (hr.inputFile y ((w.inputs y).1 h)).2
        rw [h1] at this; cases this
      · rw [w.otherSticky y z hz]
        exact (ht.ghost y h1 h2 z).2
  · rw [hk] at h1 ⊢
    by_cases ha : a = r.cmd
    · subst ha; exact hr.cmd
    · have hb : b ≠ r.cmd := by
        rintro rfl
        exact isKind_ne h1 hr.cmd (by decide)
      rw [w.otherNormal a b ha hb (fun h => isKind_ne h1 (kGrp b h.1) (by decide)) (fun h => isKind_ne h1 h.2.1 (by decide))] at h2
      exact ht.source a b h1 h2

end Tup.Links
