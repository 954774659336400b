import Verif.DoRule.Sched
import Verif.Links.WriteProps
import Verif.DoRule.Props

/-! C103: when a rule is parsed, its command is scheduled iff the rule is not what it was. -/

namespace Tup.DoRule

open Tup.Db Tup.Links Tup.Deletes

variable {excl : Nat} {p0 p p' : Parse} {r : Spec}

/-- The rule has an output of that name in that directory: a file, a group, or an exclusion (those are kept in a directory of their own). -/
def Says (excl : Nat) (r : Spec) (d : Nat) (name : Str) : Prop :=
  (∃ path src, Out.file d path src ∈ r.outputs ++ r.extra ∧ base path = name) ∨ Out.group d name ∈ r.outputs ++ r.extra ∨
    (d = excl ∧ Out.exclusion name ∈ r.outputs ++ r.extra)

/-- The command has that output in the database. -/
def Had (db : Db) (c d : Nat) (name : Str) : Prop := ∃ b n, db.node b = some n ∧ n.dir = d ∧ n.name = name ∧ db.normal c b = true

/-- There is a command with the string of the rule. -/
def Known (db : Db) (r : Spec) : Prop := ∃ i n, db.node i = some n ∧ n.dir = r.dir ∧ n.name = r.cmd

/-- The rule is different from what is stored for its command `c` (`db'` is the database after that): another string, other flags,
other outputs, a declared input less that was used or is a group, or another variable of the environment. -/
def Differs (excl : Nat) (r : Spec) (db db' : Db) (c : Nat) : Prop :=
  ¬ Known db r ∨ r.newFlags = true ∨ (∃ n, db.node c = some n ∧ n.transient ≠ r.transient) ∨
    (∃ d name, ¬ (Says excl r d name ↔ Had db c d name)) ∨
    (∃ a, db.sticky a c = true ∧ db'.sticky a c = false ∧ (db.normal a c = true ∨ db'.isKind .group a = true)) ∨
    ∃ a ∈ r.env, db.sticky a c = false

/-- The way through `do_rule`. -/
structure Stages (excl : Nat) (r : Spec) (p p' : Parse) (m s : Outs) (db1 : Db) (c : Nat) (modified : Bool) (db3 : Db) (inputs : List Nat) : Prop where
  first : addOuts excl p r r.outputs { db := p.db } = some m
  outs : addOuts excl p r (r.outputs ++ r.extra) { db := p.db } = some s
  inv : OutsInv p.db excl r s
  find : findCommand r m.outputs s.db s.modified = some (db1, c, modified)
  found : Found s.db excl r m.outputs db1 c
  name : ∃ n, p'.db.node c = some n ∧ n.kind = .cmd ∧ n.dir = r.dir ∧ n.name = r.cmd
  cuts : Cuts db1 excl c s.outputs db3
  unique : uniqueLinks c s.outputs db1 = some db3
  kept : KeptLinks c db1 db3
  ok : RuleOk db3 excl (toRule r s db3 c modified inputs)
  ins : allInputs r db3 = some inputs
  env : ∀ a, a ∈ (toRule r s db3 c modified inputs).env ↔ a ∈ r.env
  write : writeRule false excl (toRule r s db3 c modified inputs) db3 = some p'.db

theorem doRule_stages (hg : Good p.db excl) (hr : SpecOk p.db excl r) (h : doRule excl r p = some p') :
    ∃ m s db1 c modified db3 inputs, Stages excl r p p' m s db1 c modified db3 inputs := by
  have hs := hg.sound
  have ht := hg.tidy
  unfold doRule at h
  split at h
  · cases h
  rename_i m hm
  split at h
  · cases h
  rename_i s hso
  split at h
  · cases h
  split at h
  · cases h
  rename_i db1 c modified hc
  split at h
  · cases h
  split at h
  · cases h
  rename_i db2 hl
  cases h
  have im := addOuts_inv (fun o ho => hr.outs o (List.mem_append_left _ ho)) (outs_start hs ht r) hm
  have is := addOuts_inv (fun o ho => hr.outs o (List.mem_append_right _ ho)) im hso
  have hgen : ∀ b ∈ s.outputs, s.db.isKind .generated b = true := fun b hb => by
    obtain ⟨n, e1, e2, _⟩ := is.output b hb
    exact isKind_iff.2 ⟨n, e1, e2⟩
  have hmain := fun b hb => hgen b (addOuts_sub hso b hb)
  have hf := findCommand_spec is.sound is.tidy hmain hc
  obtain ⟨⟨nn, n1, n2⟩, _⟩ := findCommand_name is.sound hmain is.tidy hc
  unfold linkRule at hl
  split at hl
  · cases hl
  rename_i db3 hu
  split at hl
  · cases hl
  rename_i inputs hin
  split at hl
  · cases hl
  rename_i hcirc
  have hcirc : circular s inputs = false := Bool.eq_false_iff.2 hcirc
  obtain ⟨nc, ec1, ec2, ec3⟩ := hf.node
  have hne : ∀ b n, s.db.node b = some n → n.kind ≠ .cmd → db1.node b = some n := by
    intro b n hb hn
    have : b ≠ c := by
      rintro rfl
      rcases hf.old with h | h
      · rw [hb] at h; cases h
      · rw [isKind_some hb] at h
        exact hn (of_decide_eq_true h)
    rw [hf.other b this, hb]
  have hout : ∀ b ∈ s.outputs, db1.isKind .generated b = true ∧ inDir db1 excl b = false := fun b hb => by
    obtain ⟨n, e1, e2, e3, _⟩ := is.output b hb
    have := hne b n e1 (by rw [e2]; decide)
    refine ⟨isKind_iff.2 ⟨n, this, e2⟩, ?_⟩
    rw [inDir_some this]
    exact decide_eq_false e3
  have hcmd : db1.isKind .cmd c = true := isKind_iff.2 ⟨nc, ec1, ec2⟩
  have hk := uniqueLinks_spec hf.sound hf.tidy hcmd is.nodup hout hu
  have henv : ∀ a ∈ r.env, db3.isKind .var a = true := by
    intro a ha
    obtain ⟨n, e1, e2⟩ := isKind_iff.1 (hr.env a ha)
    obtain ⟨n', k1, _, _, k2, _⟩ := is.keep a n e1
    have k2 := k2 (by rw [e2]; decide)
    exact isKind_iff.2 ⟨n', by rw [hk.node]; exact hne a n' k1 (by rw [k2, e2]; decide), k2.trans e2⟩
  obtain ⟨ok, free, hmem⟩ := toRule_ok (modified := modified) is hf hk hin hcirc henv
  have w := ruleWritten hk.sound hk.tidy ok hl
  have hno : db2.node = db3.node := by
    have := w.nodes
    unfold SameNodes at this
    rw [this]
  refine ⟨m, s, db1, c, modified, db3, inputs, hm, by rw [addOuts_append, hm]; exact hso, is, hc, hf, ⟨nc, ?_, ec2, ec3, ?_⟩, hk, hu,
    uniqueLinks_kept hf.sound hf.tidy hcmd hout hu, ok, hin, fun a => mem_tree hk.sound fun a ha => ?_, hl⟩
  · show db2.node c = some nc
    rw [hno, hk.node, ec1]
  · rw [ec1] at n1; cases n1; exact n2
  · obtain ⟨n, e, _⟩ := isKind_iff.1 (henv a ha)
    rw [e]; rfl

/-- A node of the database before, other than the command, has its place afterwards. -/
theorem Stages.place {m s : Outs} {db1 db3 : Db} {c : Nat} {modified : Bool} {inputs : List Nat} (h : Stages excl r p p' m s db1 c modified db3 inputs)
    {b : Nat} {n : Node} (hn : p.db.node b = some n) (hb : b ≠ c) : ∃ n', db3.node b = some n' ∧ n'.dir = n.dir ∧ n'.name = n.name := by
  obtain ⟨n', e1, e2, e3, _⟩ := h.inv.keep b n hn
  exact ⟨n', by rw [h.cuts.node, h.found.other b hb, e1], e2, e3⟩

/-- What the rule declares is what it says. -/
theorem Stages.says {m s : Outs} {db1 db3 : Db} {c : Nat} {modified : Bool} {inputs : List Nat} (h : Stages excl r p p' m s db1 c modified db3 inputs)
    (hg : Good p.db excl) (hr : SpecOk p.db excl r) (d : Nat) (name : Str) :
    Says excl r d name ↔ ∃ b n, db3.node b = some n ∧ n.dir = d ∧ n.name = name ∧ Declared (toRule r s db3 c modified inputs) b := by
  have hst := outs_start hg.sound hg.tidy r
  have hno : ∀ b n, s.db.node b = some n → n.kind ≠ .cmd → db3.node b = some n := fun b n hb hn => by
    have hbc : b ≠ c := by
      rintro rfl
      rcases h.found.old with h | h
      · rw [hb] at h; cases h
      · rw [isKind_some hb] at h
        exact hn (of_decide_eq_true h)
    rw [h.cuts.node, h.found.other b hbc, hb]
  have hout : ∀ b ∈ s.outputs, ∃ n, s.db.node b = some n ∧ db3.node b = some n := fun b hb => by
    obtain ⟨n, e1, e2, _⟩ := h.inv.output b hb
    exact ⟨n, e1, hno b n e1 (by rw [e2]; decide)⟩
  have hexc : ∀ b ∈ s.exclusions, ∃ n, s.db.node b = some n ∧ n.dir = excl ∧ db3.node b = some n := fun b hb => by
    obtain ⟨n, e1, e2, e3⟩ := h.inv.exclusion b hb
    exact ⟨n, e1, e3, hno b n e1 (by rw [e2]; decide)⟩
  have hgrp : ∀ g, s.group = some g → ∃ n, s.db.node g = some n ∧ db3.node g = some n := fun g hg => by
    obtain ⟨n, e1, e2⟩ := h.inv.group g hg
    exact ⟨n, e1, hno g n e1 (by rw [e2]; decide)⟩
  have t1 : ∀ b, b ∈ (toRule r s db3 c modified inputs).outputs ↔ b ∈ s.outputs := fun b =>
    mem_tree h.cuts.sound fun a ha => by obtain ⟨n, _, e⟩ := hout a ha; rw [e]; rfl
  have t2 : ∀ b, b ∈ (toRule r s db3 c modified inputs).exclusions ↔ b ∈ s.exclusions := fun b =>
    mem_tree h.cuts.sound fun a ha => by obtain ⟨n, _, _, e⟩ := hexc a ha; rw [e]; rfl
  unfold Declared
  simp only [t1, t2]
  constructor
  · rintro (⟨path, src, h1, rfl⟩ | h1 | ⟨rfl, h1⟩)
    · obtain ⟨b, hb, n, e1, e2, e3⟩ := addOuts_listed hr.outs hst h.outs d path src h1
      obtain ⟨n', f1, f2⟩ := hout b hb
      rw [e1] at f1; cases f1
      exact ⟨b, n, f2, e2, e3, .inl hb⟩
    · obtain ⟨g, n, e0, e1, e2, e3⟩ := (addOuts_grouped hr.outs hst h.outs).2 d name h1
      obtain ⟨n', f1, f2⟩ := hgrp g e0
      rw [e1] at f1; cases f1
      exact ⟨g, n, f2, e2, e3, .inr (.inr e0)⟩
    · obtain ⟨b, hb, n, e1, e2, e3⟩ := (addOuts_excluded hr.outs hst h.outs).2 name h1
      obtain ⟨n', f1, _, f2⟩ := hexc b hb
      rw [e1] at f1; cases f1
      exact ⟨b, n, f2, e2, e3, .inr (.inl hb)⟩
  · rintro ⟨b, n, hn, rfl, rfl, hb | hb | hb⟩
    · obtain ⟨n', f1, f2⟩ := hout b hb
      rw [hn] at f2; cases f2
      exact .inl (addOuts_only hr.outs hst h.outs b hb (by simp) n f1)
    · obtain ⟨n', f1, f3, f2⟩ := hexc b hb
      rw [hn] at f2; cases f2
      exact .inr (.inr ⟨f3, addOuts_only_excluded hr.outs hst h.outs b hb (by simp) n f1⟩)
    · obtain ⟨n', f1, f2⟩ := hgrp b hb
      rw [hn] at f2; cases f2
      exact .inr (.inl (addOuts_only_group hr.outs hst h.outs b hb rfl n f1))

/-- A rule with a file that is not there yet has outputs that its command did not have. -/
theorem newFile_says (hg : Good p.db excl) (hr : SpecOk p.db excl r) {c : Nat} (h : NewFile p.db (r.outputs ++ r.extra)) :
    ∃ d name, ¬ (Says excl r d name ↔ Had p.db c d name) := by
  obtain ⟨d, path, src, h1, h2⟩ := h
  refine ⟨d, base path, fun hx => ?_⟩
  obtain ⟨b, n, e1, e2, e3, e4⟩ := hx.1 (.inl ⟨path, src, h1, rfl⟩)
  have hk := h2 b n e1 e2 e3
  have hd : d ≠ excl := hr.outs _ h1
  have := (hg.tidy.ghost b (isKind_iff.2 ⟨n, e1, hk⟩) (by rw [inDir_some e1, e2]; exact decide_eq_false hd) c).1
  rw [e4] at this; cases this

/-- C103: an accepted rule has a command with its string; it is scheduled iff it was before, or the rule is different. -/
theorem c103_scheduled (h0 : Initial p0) (hs : Steps excl p0 p) (hr : SpecOk p.db excl r) (hd : doRule excl r p = some p') :
    ∃ c n, p'.db.node c = some n ∧ n.kind = .cmd ∧ n.dir = r.dir ∧ n.name = r.cmd ∧
      (p'.db.modify c = true ↔ p.db.modify c = true ∨ Differs excl r p.db p'.db c) := by
  have hg := good_steps (initial_good (excl := excl) h0) hs
  obtain ⟨m, s, db1, c, modified, db3, inputs, st⟩ := doRule_stages hg hr hd
  obtain ⟨n, e1, e2, e3, e4⟩ := st.name
  refine ⟨c, n, e1, e2, e3, e4, ?_⟩
  have hw := c25_scheduled st.cuts.sound st.cuts.tidy st.ok st.write
  have w := ruleWritten st.cuts.sound st.cuts.tidy st.ok st.write
  have hno : p'.db.node = db3.node := by
    have := w.nodes
    unfold SameNodes at this
    rw [this]
  have hm3 : db3.modify = db1.modify := (uniqueLinks_quiet st.unique).2
  rw [show (toRule r s db3 c modified inputs).cmd = c from rfl, hm3] at hw
  -- there was no such command: it is new, or it has got that string
  have hnew : s.db.select r.dir r.cmd = none → ¬ Known p.db r := by
    rintro hsel ⟨i, n, h1, h2, h3⟩
    obtain ⟨n', f1, f2, f3, _⟩ := st.inv.keep i n h1
    have := select_eq (sound_bounded st.inv.sound) (st.inv.unique hg.unique) f1
    rw [f2, f3, h2, h3, hsel] at this
    cases this
  have hfind := st.find
  unfold findCommand at hfind
  split at hfind
  · rename_i c' hsel
    split at hfind
    · rename_i hk
      cases hfind
      -- the command was there
      have hpc : p.db.isKind .cmd c = true := by
        obtain ⟨n, f1, f2⟩ := isKind_iff.1 hk
        rw [st.inv.cmd c hk] at f1
        exact isKind_iff.2 ⟨n, f1, f2⟩
      have ad := addOuts_added hg.unique hpc hr.outs (outs_start hg.sound hg.tidy r) st.outs
      have kl : KeptLinks c p.db db3 := (ad.links.trans (kept_of (db' := setTransient s.db c r.transient) rfl rfl)).trans st.kept
      obtain ⟨nc, g1, g2, g3⟩ := select_some hsel
      have hpn : p.db.node c = some nc := by rw [← st.inv.cmd c hk, g1]
      have hknown : Known p.db r := ⟨c, nc, hpn, g2, g3⟩
      have hcn : ∀ b, db3.normal c b = true → b ≠ c := fun b hb he => by
        have := st.ok.self
        rw [he] at hb
        exact absurd (hb.symm.trans this) (by decide)
      have hu3 : Unique db3 := fun i j a b ha hb => (st.found.unique (st.inv.unique hg.unique)) i j a b (by rw [← st.cuts.node]; exact ha) (by rw [← st.cuts.node]; exact hb)
      have hhad : ∀ d name, Had p.db c d name ↔ ∃ b n, db3.node b = some n ∧ n.dir = d ∧ n.name = name ∧ db3.normal c b = true := fun d name => by
        constructor
        · rintro ⟨b, n, h1, rfl, rfl, h4⟩
          have h5 : db3.normal c b = true := by rw [kl.out]; exact h4
          obtain ⟨n', f1, f2, f3⟩ := st.place h1 (hcn b h5)
          exact ⟨b, n', f1, f2, f3, h5⟩
        · rintro ⟨b, n, h1, rfl, rfl, h4⟩
          have h5 : p.db.normal c b = true := by rw [← kl.out]; exact h4
          obtain ⟨n0, f0⟩ := Option.isSome_iff_exists.1 (hg.sound.normal c b h5).2
          obtain ⟨n', f1, f2, f3⟩ := st.place f0 (hcn b h4)
          rw [h1] at f1; cases f1
          exact ⟨b, n0, f0, f2.symm, f3.symm, h5⟩
      have hdecl : (∃ b, ¬ (db3.normal c b = true ↔ Declared (toRule r s db3 c (s.modified || newFlags r s.db c) inputs) b)) ↔
          ∃ d name, ¬ (Says excl r d name ↔ Had p.db c d name) := by
        have hdn : ∀ b, Declared (toRule r s db3 c (s.modified || newFlags r s.db c) inputs) b → (db3.node b).isSome := by
          rintro b (h | h | h)
          · obtain ⟨n, e, _⟩ := st.ok.output b h; rw [e]; rfl
          · obtain ⟨n, e, _⟩ := st.ok.exclusion b h; rw [e]; rfl
          · obtain ⟨n, e, _⟩ := st.ok.group b h; rw [e]; rfl
        constructor
        · rintro ⟨b, hb⟩
          have : ∃ n, db3.node b = some n := by
            refine Option.isSome_iff_exists.1 (Classical.byContradiction fun hx => hb ⟨fun h => ?_, fun h => ?_⟩)
            · exact absurd (st.cuts.sound.normal c b h).2 hx
            · exact absurd (hdn b h) hx
          obtain ⟨n, hn⟩ := this
          refine ⟨n.dir, n.name, fun hx => hb ?_⟩
          rw [st.says hg hr, hhad] at hx
          constructor
          · intro h
            obtain ⟨b', n', f1, f2, f3, f4⟩ := hx.2 ⟨b, n, hn, rfl, rfl, h⟩
            rw [hu3 b b' n n' hn f1 f2.symm f3.symm]
            exact f4
          · intro h
            obtain ⟨b', n', f1, f2, f3, f4⟩ := hx.1 ⟨b, n, hn, rfl, rfl, h⟩
            rw [hu3 b b' n n' hn f1 f2.symm f3.symm]
            exact f4
        · rintro ⟨d, name, hx⟩
          refine Classical.byContradiction fun hall => hx ?_
          rw [st.says hg hr, hhad]
          have hall : ∀ b, db3.normal c b = true ↔ Declared (toRule r s db3 c (s.modified || newFlags r s.db c) inputs) b := fun b =>
            Classical.byContradiction fun h => hall ⟨b, h⟩
          simp only [hall]
      have hflags : newFlags r s.db c = true ↔ r.newFlags = true ∨ ∃ n, p.db.node c = some n ∧ n.transient ≠ r.transient := by
        unfold newFlags
        rw [g1, hpn]
        simp
      have hin : (∃ a, InputTaken db3 (toRule r s db3 c (s.modified || newFlags r s.db c) inputs) a) ↔
          ∃ a, p.db.sticky a c = true ∧ p'.db.sticky a c = false ∧ (p.db.normal a c = true ∨ p'.db.isKind .group a = true) := by
        refine exists_congr fun a => ?_
        unfold InputTaken
        rw [show (toRule r s db3 c (s.modified || newFlags r s.db c) inputs).cmd = c from rfl, kl.sticky, ← isKind_congr (congrFun hno a)]
        have := w.inputs a
        rw [show (toRule r s db3 c (s.modified || newFlags r s.db c) inputs).cmd = c from rfl] at this
        rw [← this, Bool.not_eq_true]
        constructor
        · rintro ⟨h1, h2, h3⟩
          exact ⟨h1, h2, by rw [← kl.used a h1]; exact h3⟩
        · rintro ⟨h1, h2, h3⟩
          exact ⟨h1, h2, by rw [kl.used a h1]; exact h3⟩
      have hen : (∃ a, EnvAdded db3 (toRule r s db3 c (s.modified || newFlags r s.db c) inputs) a) ↔ ∃ a ∈ r.env, p.db.sticky a c = false := by
        refine exists_congr fun a => ?_
        unfold EnvAdded
        rw [show (toRule r s db3 c (s.modified || newFlags r s.db c) inputs).cmd = c from rfl, kl.sticky, st.env]
      have hmod : (setTransient s.db c r.transient).modify = s.db.modify := rfl
      rw [hw, hmod, hin, hen]
      unfold OutputsChange Differs
      rw [show (toRule r s db3 c (s.modified || newFlags r s.db c) inputs).cmd = c from rfl, hdecl,
        show (toRule r s db3 c (s.modified || newFlags r s.db c) inputs).modified = (s.modified || newFlags r s.db c) from rfl, Bool.or_eq_true, hflags]
      have hnf : NewFile p.db (r.outputs ++ r.extra) → ∃ d name, ¬ (Says excl r d name ↔ Had p.db c d name) := newFile_says hg hr
      have a1 := ad.modify
      have a2 := ad.modified
      have a3 := ad.keep
      simp only [Bool.false_eq_true, false_or] at a2
      have hnk : ¬ ¬ Known p.db r := fun h => h hknown
      constructor
      · rintro (h | ((h | h | h) | h) | h | h)
        · rcases a1 h with h | h
          · exact .inl h
          · exact .inr (.inr (.inr (.inr (.inl (hnf h)))))
        · exact .inr (.inr (.inr (.inr (.inl (hnf (a2 h))))))
        · exact .inr (.inr (.inl h))
        · exact .inr (.inr (.inr (.inl h)))
        · exact .inr (.inr (.inr (.inr (.inl h))))
        · exact .inr (.inr (.inr (.inr (.inr (.inl h)))))
        · exact .inr (.inr (.inr (.inr (.inr (.inr h)))))
      · rintro (h | h | h | h | h | h | h)
        · exact .inl (a3 h)
        · exact absurd h hnk
        · exact .inr (.inl (.inl (.inr (.inl h))))
        · exact .inr (.inl (.inl (.inr (.inr h))))
        · exact .inr (.inl (.inr h))
        · exact .inr (.inr (.inl h))
        · exact .inr (.inr (.inr h))
    · cases hfind
  · rename_i hsel
    refine ⟨fun _ => .inr (.inl (hnew hsel)), fun _ => hw.2 ?_⟩
    split at hfind
    · cases hfind
    · cases hfind
      exact .inr (.inl (.inl rfl))
    · obtain ⟨⟨db', c'⟩, _, he⟩ := Option.map_eq_some_iff.1 hfind
      cases he
      left
      show (db'.modify c || decide (c = c)) = true
      simp

theorem uniqueLink_sticky {db db' : Db} {c b : Nat} (h : uniqueLink db c b = some db') : db'.sticky = db.sticky := by
  unfold uniqueLink at h
  split at h
  · cases h
  · obtain ⟨g, _, rfl⟩ := Option.map_eq_some_iff.1 h
    exact (leave_spec db b g).2.1
  · split at h
    · cases h; rfl
    · obtain ⟨g, _, rfl⟩ := Option.map_eq_some_iff.1 h
      exact (leave_spec db b g).2.1

theorem uniqueLinks_sticky {c : Nat} : ∀ {l : List Nat} {db db' : Db}, uniqueLinks c l db = some db' → db'.sticky = db.sticky
  | [], db, db', h => by cases h; rfl
  | b :: l, db, db', h => by
    unfold uniqueLinks at h
    split at h
    · cases h
    rename_i h1
    rw [uniqueLinks_sticky h, uniqueLink_sticky h1]

theorem inputsNodes_iff {db : Db} {force : Bool} : ∀ {as l : List Nat}, inputsNodes db force as = some l → ∀ z,
    z ∈ l ↔ ∃ a ∈ as, ∃ x, inputNodes db force a = some x ∧ z ∈ x
  | [], l, h, z => by cases h; simp
  | a :: as, l, h, z => by
    unfold inputsNodes at h
    split at h
    · rename_i x y h1 h2
      cases h
      rw [List.mem_append, inputsNodes_iff h2 z]
      constructor
      · rintro (h | ⟨a', h3, h4⟩)
        · exact ⟨a, List.mem_cons_self, x, h1, h⟩
        · exact ⟨a', List.mem_cons_of_mem _ h3, h4⟩
      · rintro ⟨a', h3, w, h4, h5⟩
        rcases List.mem_cons.1 h3 with rfl | h3
        · rw [h1] at h4; cases h4; exact .inl h5
        · exact .inr ⟨a', h3, w, h4, h5⟩
    · cases h

/-- A node that a rule has as an input; files only among those that are not order-only. -/
def Input (db : Db) (force : Bool) (a : Nat) : Prop :=
  db.isKind .generated a = true ∨ db.isKind .var a = true ∨ db.isKind .group a = true ∨ (db.isKind .file a = true ∧ force = true)

theorem inputNodes_iff {db : Db} (hs : Sound db) {force : Bool} {a : Nat} {x : List Nat} (h : inputNodes db force a = some x) (z : Nat) :
    z ∈ x ↔ (z = a ∧ Input db force a) ∨
      (db.isKind .group z = true ∧ db.isKind .generated a = true ∧ ∃ c, incoming db a = some (some c) ∧ db.sticky z c = true) := by
  unfold Input
  unfold inputNodes at h
  split at h
  · rename_i hk
    split at h
    · rename_i c hi
      cases h
      rw [List.mem_cons]
      have hz : z ∈ groupInputs db c ↔ db.isKind .group z = true ∧ db.sticky z c = true := by
        unfold groupInputs stickyInputs
        simp only [List.mem_filter, List.mem_range]
        refine ⟨fun h => ⟨h.2, h.1.2⟩, fun h => ⟨⟨?_, h.2⟩, h.1⟩⟩
        obtain ⟨n, hn, _⟩ := isKind_iff.1 h.1
        exact (hs.node z n hn).2
      rw [hz]
      constructor
      · rintro (h | h)
        · exact .inl ⟨h, .inl hk⟩
        · exact .inr ⟨h.1, hk, c, hi, h.2⟩
      · rintro (h | ⟨h1, _, c', h3, h4⟩)
        · exact .inl h.1
        · rw [hi] at h3; cases h3; exact .inr ⟨h1, h4⟩
    · cases h
  · rename_i hk
    split at h
    · rename_i hv
      cases h
      rw [List.mem_singleton]
      refine ⟨fun h => .inl ⟨h, ?_⟩, fun h => h.elim And.left fun h => absurd h.2.1 hk⟩
      exact (Bool.or_eq_true_iff.1 hv).elim (fun h => .inr (.inl h)) fun h => .inr (.inr (.inl h))
    · rename_i hv
      split at h
      · rename_i hf
        cases h
        rw [List.mem_singleton]
        exact ⟨fun h => .inl ⟨h, .inr (.inr (.inr (Bool.and_eq_true_iff.1 hf)))⟩, fun h => h.elim And.left fun h => absurd h.2.1 hk⟩
      · rename_i hf
        cases h
        refine ⟨fun h => by simp at h, ?_⟩
        rintro (⟨_, h | h | h | h⟩ | ⟨_, h, _⟩)
        · exact absurd h hk
        · exact absurd (Bool.or_eq_true_iff.2 (.inl h)) hv
        · exact absurd (Bool.or_eq_true_iff.2 (.inr h)) hv
        · exact absurd (Bool.and_eq_true_iff.2 h) hf
        · exact absurd h hk

theorem allInputs_iff {db : Db} (hs : Sound db) {l : List Nat} (h : allInputs r db = some l) (z : Nat) :
    z ∈ l ↔ (z ∈ r.inputs ∧ Input db true z) ∨ (z ∈ r.order ++ r.env ∧ Input db false z) ∨
      (db.isKind .group z = true ∧ ∃ a ∈ r.inputs ++ (r.order ++ r.env), db.isKind .generated a = true ∧
        ∃ c, incoming db a = some (some c) ∧ db.sticky z c = true) := by
  unfold allInputs at h
  split at h
  · rename_i x y h1 h2
    cases h
    rw [List.mem_append, inputsNodes_iff h1, inputsNodes_iff h2]
    constructor
    · rintro (⟨a, ha, w, h3, h4⟩ | ⟨a, ha, w, h3, h4⟩)
      · rcases (inputNodes_iff hs h3 z).1 h4 with ⟨rfl, h5⟩ | ⟨h5, h6⟩
        · exact .inl ⟨ha, h5⟩
        · exact .inr (.inr ⟨h5, a, List.mem_append_left _ ha, h6⟩)
      · rcases (inputNodes_iff hs h3 z).1 h4 with ⟨rfl, h5⟩ | ⟨h5, h6⟩
        · exact .inr (.inl ⟨ha, h5⟩)
        · exact .inr (.inr ⟨h5, a, List.mem_append_right _ ha, h6⟩)
    · rintro (⟨h3, h4⟩ | ⟨h3, h4⟩ | ⟨h3, a, ha, h4⟩)
      · obtain ⟨w, e1, _⟩ := inputsNodes_mem h1 z h3
        exact .inl ⟨z, h3, w, e1, (inputNodes_iff hs e1 z).2 (.inl ⟨rfl, h4⟩)⟩
      · obtain ⟨w, e1, _⟩ := inputsNodes_mem h2 z h3
        exact .inr ⟨z, h3, w, e1, (inputNodes_iff hs e1 z).2 (.inl ⟨rfl, h4⟩)⟩
      · rcases List.mem_append.1 ha with ha | ha
        · obtain ⟨w, e1, _⟩ := inputsNodes_mem h1 a ha
          exact .inl ⟨a, ha, w, e1, (inputNodes_iff hs e1 z).2 (.inr ⟨h3, h4⟩)⟩
        · obtain ⟨w, e1, _⟩ := inputsNodes_mem h2 a ha
          exact .inr ⟨a, ha, w, e1, (inputNodes_iff hs e1 z).2 (.inr ⟨h3, h4⟩)⟩
  · cases h

/-- C103: the declared inputs of the command are then those of the rule: the files, generated files, variables and groups among the
inputs, the generated files, variables and groups among the order-only inputs and the environment, and the groups that are declared
inputs of a command which makes one of these. -/
theorem c103_inputs (h0 : Initial p0) (hs : Steps excl p0 p) (hr : SpecOk p.db excl r) (hd : doRule excl r p = some p') :
    ∃ c n, p'.db.node c = some n ∧ n.kind = .cmd ∧ n.dir = r.dir ∧ n.name = r.cmd ∧
      (∀ a ∈ r.inputs, Input p'.db true a → p'.db.sticky a c = true) ∧
      (∀ a ∈ r.order ++ r.env, Input p'.db false a → p'.db.sticky a c = true) ∧
      (∀ a b c', a ∈ r.inputs ++ (r.order ++ r.env) → p'.db.isKind .generated a = true → p.db.normal c' a = true →
        (∀ c'', p.db.normal c'' a = true → c'' = c') → p'.db.isKind .group b = true → p.db.sticky b c' = true → p'.db.sticky b c = true) ∧
      ∀ b, p'.db.sticky b c = true → (b ∈ r.inputs ∧ Input p'.db true b) ∨ (b ∈ r.order ++ r.env ∧ Input p'.db false b) ∨
        (p'.db.isKind .group b = true ∧ ∃ a ∈ r.inputs ++ (r.order ++ r.env), p'.db.isKind .generated a = true ∧
          ∃ c', p.db.normal c' a = true ∧ p.db.sticky b c' = true) := by
  have hg := good_steps (initial_good (excl := excl) h0) hs
  obtain ⟨m, s, db1, c, modified, db3, inputs, st⟩ := doRule_stages hg hr hd
  obtain ⟨n, e1, e2, e3, e4⟩ := st.name
  have w := ruleWritten st.cuts.sound st.cuts.tidy st.ok st.write
  have hno : p'.db.node = db3.node := by
    have := w.nodes
    unfold SameNodes at this
    rw [this]
  have hk : ∀ k a, p'.db.isKind k a = db3.isKind k a := fun k a => isKind_congr (congrFun hno a) k
  have hI : ∀ f a, Input p'.db f a ↔ Input db3 f a := fun f a => by unfold Input; simp only [hk]
  have hin : ∀ b, p'.db.sticky b c = true ↔ b ∈ inputs := fun b => by
    refine (w.inputs b).trans (mem_tree st.cuts.sound fun a ha => ?_)
    exact (allInputs_kind st.ins a ha).some
  have hall := allInputs_iff st.cuts.sound st.ins
  have hst3 : db3.sticky = s.db.sticky := (uniqueLinks_sticky st.unique).trans st.found.sticky
  -- the command that makes a generated input
  have hmk : ∀ a c', db3.isKind .generated a = true → incoming db3 a = some (some c') →
      p.db.normal c' a = true ∧ ∀ b, db3.sticky b c' = p.db.sticky b c' := fun a c' ha hi => by
    have h3 := (incoming_some st.cuts.sound hi c').2 rfl
    have h1 := st.cuts.normal c' a h3
    rw [st.found.normal] at h1
    refine ⟨st.inv.normal c' a h1, fun b => ?_⟩
    have hck : s.db.isKind .cmd c' = true := by
      have := st.cuts.tidy.source c' a ha h3
      rw [isKind_congr (congrFun st.cuts.node c')] at this
      by_cases hcc : c' = c
      · subst hcc
        rcases st.found.old with h | h
        · have := (st.inv.sound.normal c' a h1).1
          rw [h] at this; cases this
        · exact h
      · rw [isKind_congr (st.found.other c' hcc)] at this
        exact this
    have hpc : p.db.isKind .cmd c' = true := by rw [← isKind_congr (st.inv.cmd c' hck)]; exact hck
    rw [hst3]
    exact (addOuts_added hg.unique hpc hr.outs (outs_start hg.sound hg.tidy r) st.outs).links.sticky b
  refine ⟨c, n, e1, e2, e3, e4, fun a ha hi => ?_, fun a ha hi => ?_, fun a b c' ha hga hn hon hgb hb => ?_, fun b hb => ?_⟩
  · exact (hin a).2 ((hall a).2 (.inl ⟨ha, (hI _ _).1 hi⟩))
  · exact (hin a).2 ((hall a).2 (.inr (.inl ⟨ha, (hI _ _).1 hi⟩)))
  · rw [hk] at hga hgb
    have : ∃ f x, inputNodes db3 f a = some x := by
      have h := st.ins
      unfold allInputs at h
      split at h
      · rename_i x y h1 h2
        rcases List.mem_append.1 ha with ha | ha
        · obtain ⟨w, e, _⟩ := inputsNodes_mem h1 a ha
          exact ⟨_, w, e⟩
        · obtain ⟨w, e, _⟩ := inputsNodes_mem h2 a ha
          exact ⟨_, w, e⟩
      · cases h
    obtain ⟨f, x, hx⟩ := this
    unfold inputNodes at hx
    rw [if_pos hga] at hx
    split at hx
    · rename_i c2 hi
      obtain ⟨k1, k2⟩ := hmk a c2 hga hi
      have := hon c2 k1
      subst this
      exact (hin b).2 ((hall b).2 (.inr (.inr ⟨hgb, a, ha, hga, c2, hi, by rw [k2]; exact hb⟩)))
    · cases hx
  · rcases (hall b).1 ((hin b).1 hb) with ⟨h1, h2⟩ | ⟨h1, h2⟩ | ⟨h1, a, h2, h3, c', h4, h5⟩
    · exact .inl ⟨h1, (hI _ _).2 h2⟩
    · exact .inr (.inl ⟨h1, (hI _ _).2 h2⟩)
    · obtain ⟨k1, k2⟩ := hmk a c' h3 h4
      exact .inr (.inr ⟨by rw [hk]; exact h1, a, h2, by rw [hk]; exact h3, c', k1, by rw [← k2]; exact h5⟩)

/-! The rule of `exDone` in the next update, after its command has run. -/

def exRan (db : Db) : Db :=
  { db with
    create := fun _ => false, modify := fun _ => false, config := fun _ => false, variant := fun _ => false, transient := fun _ => false }

def exNext : Parse :=
  (beginParse 1 (beginUpdate (fun d => decide (d = 1)) (exRan exDone.db))).get (by decide +kernel)

theorem exNext_steps : Steps 2 exStart exNext :=
  .step (.step (.step exDone_steps (.flags exDone (fun _ => false) (fun _ => false) (fun _ => false) (fun _ => false) (fun _ => false)))
    (.update _ fun d => decide (d = 1))) (.parse 1 (Option.some_get _).symm)

/-- The same rule again: the command is not scheduled, so nothing differs. -/
def exSame : Parse := (doRule 2 exRule exNext).get (by decide +kernel)

example : ¬ Differs 2 exRule exNext.db exSame.db 9 ∧ exSame.db.modify 9 = false := by
  have hm : exSame.db.modify 9 = false := by decide +kernel
  refine ⟨fun h => ?_, hm⟩
  obtain ⟨c, n, h1, _, h3, h4, h5⟩ := c103_scheduled exStart_initial exNext_steps exRule_ok (Option.some_get _).symm (p' := exSame)
  have hs : exSame.db.select 1 "cc a.c".toList = some 9 := by decide +kernel
  have hg := good_steps (initial_good (excl := 2) exStart_initial) (.step exNext_steps (.rule exRule (by decide +kernel) exRule_ok (Option.some_get _).symm)) (p' := exSame)
  have := select_eq (sound_bounded hg.sound) hg.unique h1
  rw [h3, h4, show exRule.dir = 1 from rfl, show exRule.cmd = "cc a.c".toList from rfl, hs] at this
  cases this
  rw [hm] at h5
  exact absurd (h5.2 (.inr h)) (by decide)

/-- The number of the command of the rule, whether it is scheduled, and its declared inputs. -/
def exShow (r : Spec) : Option (Option Nat × Bool × List Nat) :=
  (doRule 2 r exNext).map fun q => (q.db.select r.dir r.cmd, q.db.modify 9, (List.range 12).filter fun a => q.db.sticky a 9)

/-- Each of the differences schedules it: another string, other flags, one output more, another one, one less; an order-only input that
is a source file, or one input more, does not. -/
example :
    exShow exRule = some (some 9, false, [3]) ∧
    exShow { exRule with cmd := "cc -O2 a.c".toList } = some (some 9, true, [3]) ∧
    exShow { exRule with newFlags := true } = some (some 9, true, [3]) ∧
    exShow { exRule with transient := true } = some (some 9, true, [3]) ∧
    exShow { exRule with extra := [.file 1 "a.d".toList none] } = some (some 9, true, [3]) ∧
    exShow { exRule with outputs := [.file 1 "a.o".toList none, .group 1 "<others>".toList, .exclusion "\\.log".toList] } = some (some 9, true, [3]) ∧
    exShow { exRule with outputs := [.file 1 "a.o".toList none, .group 1 "<objs>".toList] } = some (some 9, true, [3]) ∧
    exShow { exRule with order := [4] } = some (some 9, false, [3]) ∧
    exShow { exRule with inputs := [3, 4] } = some (some 9, false, [3, 4]) := by
  refine ⟨?_, ?_, ?_, ?_, ?_, ?_, ?_, ?_, ?_⟩ <;> decide +kernel

/-- What `c103_inputs` says of the rule with another input. -/
example {p' : Parse} (h : doRule 2 { exRule with inputs := [3, 4] } exNext = some p') (hk : p'.db.isKind .file 4 = true) :
    ∃ c n, p'.db.node c = some n ∧ n.name = "cc a.c".toList ∧ p'.db.sticky 4 c = true := by
  obtain ⟨c, n, h1, _, _, h4, h5, _⟩ := c103_inputs (r := { exRule with inputs := [3, 4] }) exStart_initial exNext_steps ⟨exRule_ok (db := exNext.db).outs, fun a ha => by cases ha⟩ h
  exact ⟨c, n, h1, h4, h5 4 (by simp) (.inr (.inr (.inr ⟨hk, rfl⟩)))⟩

end Tup.DoRule
