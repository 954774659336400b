import Verif.DoRule.Reject

/-! The properties about rules: a file has one command (C27), and which rules are rejected (C50). -/

namespace Tup.DoRule

open Tup.Db Tup.Links

variable {excl : Nat} {p0 p p' p1 p2 : Parse} {r r2 : Spec}

/-- In all histories a generated file has one command at most. -/
theorem c27_history (h0 : Initial p0) (hs : Steps excl p0 p) {c c' b : Nat} (h : Produces p.db excl c b) (h' : Produces p.db excl c' b) : c = c' := by
  have hg := good_steps (initial_good (excl := excl) h0) hs
  exact hg.tidy.owner c c' b ((produces_iff hg.tidy hg.homes).1 h) ((produces_iff hg.tidy hg.homes).1 h')

/-- A generated file is marked with the directory of its command. -/
theorem c27_home (h0 : Initial p0) (hs : Steps excl p0 p) {c b : Nat} (h : Produces p.db excl c b) :
    ∃ n m, p.db.node c = some n ∧ p.db.node b = some m ∧ m.src = some n.dir := by
  have hg := good_steps (initial_good (excl := excl) h0) hs
  obtain ⟨n, m, e1, e2, _, e3⟩ := hg.homes c b ((produces_iff hg.tidy hg.homes).1 h)
  exact ⟨n, m, e1, e2, e3⟩

/-- In all histories no two nodes of a directory have the same name. -/
theorem c27_names (h0 : Initial p0) (hs : Steps excl p0 p) {a b : Nat} {n m : Node} (ha : p.db.node a = some n) (hb : p.db.node b = some m)
    (hd : n.dir = m.dir) (hn : n.name = m.name) : a = b :=
  (good_steps (initial_good (excl := excl) h0) hs).unique a b n m ha hb hd hn

/-- A rule with a file of a command that stays is rejected. -/
theorem c27_rejected (h0 : Initial p0) (hs : Steps excl p0 p) (hr : SpecOk p.db excl r) {c b : Nat} {n : Node} (h : Produces p.db excl c b)
    (hst : Stays p c) (hn : p.db.node b = some n) (hl : Lists r n) : doRule excl r p = none := by
  have hg := good_steps (initial_good (excl := excl) h0) hs
  exact stays_rejected hg hr ((produces_iff hg.tidy hg.homes).1 h) hst hn hl

/-- An accepted rule has a command in its directory that has all its files, and no others; and the command stays. -/
theorem c27_accepted (h0 : Initial p0) (hs : Steps excl p0 p) (hp : p.parsing r.dir = some true) (hr : SpecOk p.db excl r)
    (hd : doRule excl r p = some p') :
    ∃ c nc, p'.db.node c = some nc ∧ nc.dir = r.dir ∧ Stays p' c ∧
      (∀ d path src, Out.file d path src ∈ r.outputs ++ r.extra → ∃ b n, p'.db.node b = some n ∧ n.dir = d ∧ n.name = base path ∧ Produces p'.db excl c b) ∧
      ∀ b n, Produces p'.db excl c b → p'.db.node b = some n → Lists r n := by
  have hg := good_steps (initial_good (excl := excl) h0) hs
  have hg' := good_rule hg hr hd
  obtain ⟨m, s, c, h1, h2, d⟩ := doRule_done hg.sound hg.tidy hr hd
  obtain ⟨nc, e1, e2, e3⟩ := d.cmd
  refine ⟨c, nc, e1, e3, ⟨by rw [d.doomed]; simp, nc, e1, by rw [d.parsing, e3, hp]; simp⟩, fun dd path src hl => ?_, fun b n hw hn => ?_⟩
  · obtain ⟨b, hb, n, f1, f2, f3⟩ := listed_output (p' := p') (c := c) hg hr h1 h2 hl
    exact ⟨b, n, by rw [d.names b hb, f1], f2, f3, (produces_iff hg'.tidy hg'.homes).2 ((d.own b).2 hb)⟩
  · have hb := (d.own b).1 ((produces_iff hg'.tidy hg'.homes).1 hw)
    rw [d.names b hb] at hn
    have h3 : addOuts excl p r (r.outputs ++ r.extra) { db := p.db } = some s := by rw [addOuts_append, h1]; exact h2
    exact addOuts_only hr.outs (outs_start hg.sound hg.tidy r) h3 b hb (by simp) n hn

/-- Of two rules with the same file that are found in one update, the second is rejected, whatever is parsed in between. -/
theorem c27_second (h0 : Initial p0) (hs : Steps excl p0 p) (hp : p.parsing r.dir = some true) (hr : SpecOk p.db excl r)
    (hd : doRule excl r p = some p1) (hpar : Parsing excl p1 p2) (hr2 : SpecOk p2.db excl r2) {d : Nat} {path path2 : Str} {src src2 : Option Nat}
    (h1 : Out.file d path src ∈ r.outputs ++ r.extra) (h2 : Out.file d path2 src2 ∈ r2.outputs ++ r2.extra) (hb : base path = base path2) :
    doRule excl r2 p2 = none := by
  have hg := good_steps (initial_good (excl := excl) h0) hs
  have hc := claimed_steps (initial_good (excl := excl) h0) (claimed_initial h0) hs
  have hg1 := good_rule hg hr hd
  have hc1 := claimed_rule hg hc hr hd
  obtain ⟨c, nc, e1, e2, e3, e4, _⟩ := c27_accepted h0 hs hp hr hd
  obtain ⟨b, n, f1, f2, f3, f4⟩ := e4 d path src h1
  obtain ⟨k1, k2, n', k3, k4, k5⟩ := stays_parsing hg1 hc1 hpar e3 ((produces_iff hg1.tidy hg1.homes).1 f4) f1
  exact stays_rejected (good_steps hg1 (parsing_steps hpar)) hr2 k2 k1 k3 ⟨path2, src2, by rw [k4, f2]; exact h2, by rw [k5, f3, hb]⟩

/-- The names of files that are never outputs (below, for the root variant). -/
def Special (path : String) : Prop :=
  path = "Tupfile" ∨ path = "Tuprules.tup" ∨ path = "Tupfile.lua" ∨ path = "Tuprules.lua" ∨ path = "tup.config"

/-- No rule writes a Tupfile and so on. -/
theorem c50_reserved {d : Nat} {path : String} {src : Option Nat} (hl : Out.file d path.toList src ∈ r.outputs ++ r.extra) (hv : r.variant = none)
    (hs : Special path) : doRule excl r p = none := by
  obtain ⟨l, l', hl⟩ := List.append_of_mem hl
  refine doRule_fails hl fun s _ => ?_
  have : fullPath r.variant path.toList ∈ reserved := by
    rw [hv]
    rcases hs with rfl | rfl | rfl | rfl | rfl <;> decide
  simp only [addOut, addFile_eq, this, if_true, ite_self]

/-- No rule writes the same file twice. -/
theorem c50_twice (h0 : Initial p0) (hs : Steps excl p0 p) (hr : SpecOk p.db excl r) {l1 l2 l3 : List Out} {d : Nat} {path path' : Str} {src src' : Option Nat}
    (hl : r.outputs ++ r.extra = l1 ++ .file d path src :: l2 ++ .file d path' src' :: l3) (hb : base path = base path') : doRule excl r p = none := by
  have hg := good_steps (initial_good (excl := excl) h0) hs
  have hok : ∀ o ∈ l1 ++ .file d path src :: l2, OutOk excl o := fun o ho => hr.outs o (by rw [hl]; exact List.mem_append_left _ ho)
  refine doRule_fails hl fun s h => ?_
  have is := addOuts_inv hok (outs_start hg.sound hg.tidy r) h
  obtain ⟨b, h1, n, h2, h3, h4⟩ := addOuts_listed hok (outs_start hg.sound hg.tidy r) h d path src (by simp)
  cases ha : addOut excl p r s (.file d path' src') with
  | none => rfl
  | some s' =>
    have hok' : OutOk excl (.file d path' src') := hr.outs _ (by rw [hl]; simp)
    simp only [addOut, addFile_eq] at ha
    split at ha
    · cases ha
    split at ha
    · cases ha
    split at ha
    · cases ha
    split at ha
    · cases ha
    rename_i db' i hc
    split at ha
    · cases ha
    rename_i hi
    have m := create_made (.inl ⟨.inl rfl, hok'⟩) is.sound is.tidy hc
    obtain ⟨q, e1, _, e2, e3, _⟩ := m.node
    obtain ⟨n', f1, f2, f3, _⟩ := m.keep (.inr hok') h2
    have : i = b := m.unique (is.unique hg.unique) i b q n' e1 f1 (by rw [e2, f2, h3]) (by rw [e3, f3, h4, hb])
    exact absurd (this ▸ h1) hi

/-- No rule puts its files into two groups. -/
theorem c50_groups {l1 l2 l3 : List Out} {d d' : Nat} {name name' : Str}
    (hl : r.outputs ++ r.extra = l1 ++ .group d name :: l2 ++ .group d' name' :: l3) : doRule excl r p = none := by
  refine doRule_fails hl fun s h => ?_
  have := addOuts_group h (.inl ⟨d, name, by simp⟩)
  cases hg : s.group with
  | none => exact absurd hg this
  | some g => simp only [addOut, addGroup, hg]

/-- No rule has the same exclusion twice. -/
theorem c50_exclusions (h0 : Initial p0) (hs : Steps excl p0 p) (hr : SpecOk p.db excl r) {l1 l2 l3 : List Out} {pat : Str}
    (hl : r.outputs ++ r.extra = l1 ++ .exclusion pat :: l2 ++ .exclusion pat :: l3) : doRule excl r p = none := by
  have hg := good_steps (initial_good (excl := excl) h0) hs
  have hok : ∀ o ∈ l1 ++ .exclusion pat :: l2, OutOk excl o := fun o ho => hr.outs o (by rw [hl]; exact List.mem_append_left _ ho)
  refine doRule_fails hl fun s h => ?_
  have is := addOuts_inv hok (outs_start hg.sound hg.tidy r) h
  obtain ⟨b, h1, n, h2, h3, h4⟩ := (addOuts_excluded hok (outs_start hg.sound hg.tidy r) h).2 pat (by simp)
  cases ha : addOut excl p r s (.exclusion pat) with
  | none => rfl
  | some s' =>
    simp only [addOut, addExclusion] at ha
    split at ha
    · cases ha
    rename_i db' i hc
    split at ha
    · cases ha
    rename_i hi
    have m := create_made (.inr ⟨rfl, rfl⟩) is.sound is.tidy hc
    obtain ⟨q, e1, _, e2, e3, _⟩ := m.node
    obtain ⟨n', f1, f2, f3, _⟩ := m.keep (.inl rfl) h2
    have : i = b := m.unique (is.unique hg.unique) i b q n' e1 f1 (by rw [e2, f2, h3]) (by rw [e3, f3, h4])
    exact absurd (this ▸ h1) hi

/-- No rule writes a file that is there and that no command has generated. -/
theorem c50_existing (h0 : Initial p0) (hs : Steps excl p0 p) (hr : SpecOk p.db excl r) {b : Nat} {n : Node} (hn : p.db.node b = some n)
    (hl : Lists r n) (hk : n.kind ≠ .ghost) (hk' : n.kind ≠ .generated) : doRule excl r p = none := by
  have hg := good_steps (initial_good (excl := excl) h0) hs
  cases hd : doRule excl r p with
  | none => rfl
  | some p' =>
    exfalso
    obtain ⟨m, s, c, h1, h2, d⟩ := doRule_done hg.sound hg.tidy hr hd
    obtain ⟨path, src, h3, h4⟩ := hl
    obtain ⟨b', hb', n', e1, e2, e3⟩ := listed_output (p' := p') (c := c) hg hr h1 h2 h3
    have im := addOuts_inv (fun o ho => hr.outs o (List.mem_append_left _ ho)) (outs_start hg.sound hg.tidy r) h1
    have is := addOuts_inv (fun o ho => hr.outs o (List.mem_append_right _ ho)) im h2
    obtain ⟨n'', f1, f2, f3, f4, _⟩ := is.keep b n hn
    have := is.unique hg.unique b' b n' n'' e1 f1 (by rw [e2, f2]) (by rw [e3, f3, h4])
    subst this
    obtain ⟨q, g1, g2, _⟩ := is.output b' hb'
    rw [f1] at g1
    cases g1
    exact hk' ((f4 hk).symm.trans g2)

/-- In a variant, no rule writes a file that is there in the directory of the sources; but for the rules that copy such files. -/
theorem c50_source (h0 : Initial p0) (hs : Steps excl p0 p) (hr : SpecOk p.db excl r) {d d' b : Nat} {path : Str} {n : Node}
    (hl : Out.file d path (some d') ∈ r.outputs ++ r.extra) (hv : r.variant ≠ none) (hc : r.copy = false)
    (hn : p.db.node b = some n) (hd : n.dir = d') (hp : n.name = path) (hk : n.kind ≠ .ghost) : doRule excl r p = none := by
  have hg := good_steps (initial_good (excl := excl) h0) hs
  obtain ⟨l, l', hl⟩ := List.append_of_mem hl
  refine doRule_fails hl fun s h => ?_
  have is := addOuts_inv (fun o ho => hr.outs o (by rw [hl]; exact List.mem_append_left _ ho)) (outs_start hg.sound hg.tidy r) h
  obtain ⟨n', e1, e2, e3, e4, _⟩ := is.keep b n hn
  have hsel := select_eq (sound_bounded is.sound) (is.unique hg.unique) e1
  rw [e2, e3, hd, hp] at hsel
  have : inSource r s.db path (some d') = true := by
    unfold inSource
    cases hv' : r.variant with
    | none => exact absurd hv' hv
    | some v => simp only [hsel, hc, Bool.not_false, Bool.true_and, isKind_some e1, e4 hk, hk, decide_false]
  simp only [addOut, addFile_eq, this, if_true]

/-- Is it a file? -/
def Out.isFile : Out → Bool
  | .file .. => true
  | _ => false

theorem addOuts_count {excl : Nat} {p : Parse} {r : Spec} : ∀ {l : List Out} {s s' : Outs}, addOuts excl p r l s = some s' →
    s'.outputs.length = s.outputs.length + (l.filter Out.isFile).length
  | [], s, s', h => by cases h; rfl
  | o :: l, s, s', h => by
    unfold addOuts at h
    split at h
    · cases h
    rename_i s1 h1
    rw [addOuts_count h]
    cases o with
    | file d path src =>
      simp only [addOut, addFile_eq] at h1
      split at h1
      · cases h1
      split at h1
      · cases h1
      split at h1
      · cases h1
      split at h1
      · cases h1
      split at h1
      · cases h1
      cases h1
      rw [List.filter_cons_of_pos rfl, List.length_append]
      simp only [List.length_cons, List.length_nil]
      omega
    | exclusion pat =>
      simp only [addOut, addExclusion] at h1
      split at h1
      · cases h1
      split at h1
      · cases h1
      cases h1
      rfl
    | group d name =>
      simp only [addOut, addGroup] at h1
      split at h1
      · cases h1
      split at h1
      · cases h1
      cases h1
      rfl

/-- The rules that copy a file to the variant have one input and one output. -/
theorem c50_copy (hc : r.copy = true) (hd : doRule excl r p = some p') : r.inputs.length = 1 ∧ (r.outputs.filter Out.isFile).length = 1 := by
  unfold doRule at hd
  split at hd
  · cases hd
  rename_i m hm
  split at hd
  · cases hd
  split at hd
  · cases hd
  rename_i hk
  have := addOuts_count hm
  simp only [copyOk, hc, Bool.not_true, Bool.false_or, Bool.and_eq_true, decide_eq_true_eq, Bool.not_eq_true, Bool.not_eq_false'] at hk
  simp only [List.length_nil, Nat.zero_add] at this
  exact ⟨hk.2, this.symm.trans hk.1⟩

/-- No rule writes a file that it reads. -/
theorem c50_own_input (h0 : Initial p0) (hs : Steps excl p0 p) (hr : SpecOk p.db excl r) {b : Nat} {n : Node} (hn : p.db.node b = some n)
    (hl : Lists r n) (hi : b ∈ r.inputs ++ r.order) : doRule excl r p = none := by
  have hg := good_steps (initial_good (excl := excl) h0) hs
  cases hd : doRule excl r p with
  | none => rfl
  | some p' =>
    exfalso
    obtain ⟨s, db3, inputs, h1, is, h2, h3, h4⟩ := doRule_linked hg.sound hg.tidy hr hd
    obtain ⟨path, src, h5, h6⟩ := hl
    obtain ⟨b', hb', n', e1, e2, e3⟩ := addOuts_listed hr.outs (outs_start hg.sound hg.tidy r) h1 n.dir path src h5
    obtain ⟨n'', f1, f2, f3, _⟩ := is.keep b n hn
    have := is.unique hg.unique b' b n' n'' e1 f1 (by rw [e2, f2]) (by rw [e3, f3, h6])
    subst this
    obtain ⟨q, g1, g2, _⟩ := is.output b' hb'
    have hmem := allInputs_mem h2 hi (.inl (isKind_iff.2 ⟨q, h4 b' q g1 (by rw [g2]; decide), g2⟩))
    unfold circular at h3
    rw [Bool.or_eq_false_iff, List.any_eq_false] at h3
    exact h3.2 b' hb' (decide_eq_true hmem)

/-- No rule puts its files into a group that it reads. -/
theorem c50_own_group (h0 : Initial p0) (hs : Steps excl p0 p) (hr : SpecOk p.db excl r) {g : Nat} {n : Node} (hn : p.db.node g = some n)
    (hl : Out.group n.dir n.name ∈ r.outputs ++ r.extra) (hi : g ∈ r.inputs ++ r.order) : doRule excl r p = none := by
  have hg := good_steps (initial_good (excl := excl) h0) hs
  cases hd : doRule excl r p with
  | none => rfl
  | some p' =>
    exfalso
    obtain ⟨s, db3, inputs, h1, is, h2, h3, h4⟩ := doRule_linked hg.sound hg.tidy hr hd
    obtain ⟨g', n', e0, e1, e2, e3⟩ := (addOuts_grouped hr.outs (outs_start hg.sound hg.tidy r) h1).2 n.dir n.name hl
    obtain ⟨n'', f1, f2, f3, _⟩ := is.keep g n hn
    have := is.unique hg.unique g' g n' n'' e1 f1 (by rw [e2, f2]) (by rw [e3, f3])
    subst this
    obtain ⟨q, g1, g2⟩ := is.group g' e0
    have hmem := allInputs_mem h2 hi (.inr (isKind_iff.2 ⟨q, h4 g' q g1 (by rw [g2]; decide), g2⟩))
    unfold circular at h3
    rw [e0] at h3
    simp [hmem] at h3

/-- No Tupfile has the same command twice. -/
theorem c50_command (h0 : Initial p0) (hs : Steps excl p0 p) (hr : SpecOk p.db excl r) {c : Nat} {n : Node} (hn : p.db.node c = some n)
    (hd : n.dir = r.dir) (hc : n.name = r.cmd) (hseen : p.seen r.dir c = true) : doRule excl r p = none := by
  have hg := good_steps (initial_good (excl := excl) h0) hs
  cases h : doRule excl r p with
  | none => rfl
  | some p' =>
    exfalso
    unfold doRule at h
    split at h
    · cases h
    rename_i m hm
    split at h
    · cases h
    rename_i s hso
    split at h
    · cases h
    split at h
    · cases h
    rename_i db1 c' modified hf
    split at h
    · cases h
    rename_i hns
    have im := addOuts_inv (fun o ho => hr.outs o (List.mem_append_left _ ho)) (outs_start hg.sound hg.tidy r) hm
    have is := addOuts_inv (fun o ho => hr.outs o (List.mem_append_right _ ho)) im hso
    obtain ⟨n', e1, e2, e3, _⟩ := is.keep c n hn
    have hsel := select_eq (sound_bounded is.sound) (is.unique hg.unique) e1
    rw [e2, hd, e3, hc] at hsel
    unfold findCommand at hf
    rw [hsel] at hf
    simp only at hf
    split at hf
    · cases hf
      exact hns hseen
    · cases hf


/-! A history to which the theorems apply: the root directory, the directory of the exclusions (2), two source files and a ghost;
then the Tupfile is parsed, with a rule that makes `a.o` from `a.c`. -/

def exNode : Nat → Option Node
  | 1 => some { dir := 0, kind := .dir, name := ".".toList }
  | 2 => some { dir := 0, kind := .dir, name := "^".toList }
  | 3 => some { dir := 1, kind := .file, name := "a.c".toList }
  | 4 => some { dir := 1, kind := .file, name := "b.c".toList }
  | 5 => some { dir := 1, kind := .ghost, name := "a.o".toList }
  | 6 => some { dir := 1, kind := .group, name := "<objs>".toList }
  | 7 => some { dir := 1, kind := .dir, name := "sub".toList }
  | _ => none

def exDb : Db := { node := exNode, top := 8, normal := fun _ _ => false, sticky := fun _ _ => false, group := fun _ _ _ => false, vars := fun _ => none, config := fun _ => false, create := fun _ => false, modify := fun _ => false, variant := fun _ => false, transient := fun _ => false, ghosts := fun _ => false }

def exStart : Parse := { db := exDb, doomed := fun _ => false, parsing := fun _ => none, seen := fun _ _ => false }

theorem exNode_some {i : Nat} {n : Node} (h : exNode i = some n) : 0 < i ∧ i < 8 := by
  unfold exNode at h
  split at h <;> first | omega | cases h

theorem exStart_initial : Initial exStart := by
  refine ⟨fun a b n m ha hb hd hn => ?_, fun a n ha hk => ?_, fun a n ha => exNode_some ha, fun _ _ => rfl, fun _ _ => rfl, fun _ _ _ => rfl⟩
  · have ha : exNode a = some n := ha
    have hb : exNode b = some m := hb
    have h1 := exNode_some ha
    have h2 := exNode_some hb
    have key : ∀ a < 8, ∀ b < 8, ∀ n m, exNode a = some n → exNode b = some m → n.dir = m.dir → n.name = m.name → a = b := by
      have : ∀ a ∈ List.range 8, ∀ b ∈ List.range 8, (exNode a).isSome = true →
          decide (((exNode a).map fun n => (n.dir, n.name)) = ((exNode b).map fun n => (n.dir, n.name))) = true → a = b := by decide
      intro a ha b hb n m e1 e2 e3 e4
      exact this a (List.mem_range.2 ha) b (List.mem_range.2 hb) (by rw [e1]; simp) (by rw [e1, e2]; simp [e3, e4])
    exact key a h1.2 b h2.2 n m ha hb hd hn
  · have ha : exNode a = some n := ha
    have : ∀ a < 8, ∀ n, exNode a = some n → n.kind ≠ .cmd := by
      have : ∀ a < 8, (exNode a).map (fun n => decide (n.kind = .cmd)) ≠ some true := by decide
      intro a h n e hk
      exact this a h (by rw [e]; simp [hk])
    exact this a (exNode_some ha).2 n ha hk

/-- The update begins, and the parsing of directories 1 and 7. -/
def exUpdate : Parse := beginUpdate (fun d => decide (d = 1 ∨ d = 7)) exDb

def exParse : Parse := (beginParse 1 exUpdate).get (by decide)

/-- `: a.c |> cc a.c |> a.o <objs> ^\.log` -/
def exRule : Spec := { dir := 1, cmd := "cc a.c".toList, outputs := [.file 1 "a.o".toList none, .group 1 "<objs>".toList, .exclusion "\\.log".toList], inputs := [3] }

def exDone : Parse := (doRule 2 exRule exParse).get (by decide +kernel)

theorem exRule_done : doRule 2 exRule exParse = some exDone := (Option.some_get _).symm

theorem specOk_simple {db : Db} {r : Spec} (h : ∀ o ∈ r.outputs ++ r.extra, OutOk 2 o) (he : r.env = []) : SpecOk db 2 r :=
  ⟨h, fun a ha => by rw [he] at ha; cases ha⟩

theorem exRule_ok {db : Db} : SpecOk db 2 exRule := by
  refine specOk_simple (fun o ho => ?_) rfl
  simp only [exRule, List.mem_append, List.mem_cons, List.not_mem_nil, or_false] at ho
  rcases ho with rfl | rfl | rfl
  · exact (by decide : (1 : Nat) ≠ 2)
  · exact (by decide : (1 : Nat) ≠ 2)
  · trivial

theorem exParse_steps : Steps 2 exStart exParse :=
  .step (.step (.refl _) (.update exStart _)) (.parse 1 (Option.some_get _).symm)

theorem exDone_steps : Steps 2 exStart exDone := .step exParse_steps (.rule exRule (by decide) exRule_ok exRule_done)

/-- The nodes and links are these: 8 is the exclusion, 9 is the command. -/
example : exDone.db.node 9 = some { dir := 1, kind := .cmd, name := "cc a.c".toList } ∧
    exDone.db.node 5 = some { dir := 1, kind := .generated, name := "a.o".toList, src := some 1 } ∧
    ((List.range 10).filter fun a => exDone.db.normal 9 a) = [5, 6, 8] ∧ ((List.range 10).filter fun a => exDone.db.sticky a 9) = [3] ∧
    exDone.db.normal 5 6 = true ∧ exDone.doomed 9 = false ∧ exDone.seen 1 9 = true := by
  refine ⟨?_, ?_, ?_, ?_, ?_, ?_, ?_⟩ <;> decide +kernel

theorem exDone_produces : Produces exDone.db 2 9 5 :=
  ⟨{ dir := 1, kind := .cmd, name := "cc a.c".toList }, { dir := 1, kind := .generated, name := "a.o".toList, src := some 1 },
    by decide +kernel, rfl, by decide +kernel, rfl, by decide, by decide +kernel⟩

/-- The properties of histories apply. -/
example : (∀ c, Produces exDone.db 2 c 5 → c = 9) ∧ ∃ n m, exDone.db.node 9 = some n ∧ exDone.db.node 5 = some m ∧ m.src = some n.dir :=
  ⟨fun _ h => c27_history exStart_initial exDone_steps h exDone_produces, c27_home exStart_initial exDone_steps exDone_produces⟩

/-- `: b.c |> cc b.c |> ./a.o`, in the same Tupfile, is rejected, and so it is in that of directory 7. -/
example : doRule 2 { dir := 1, cmd := "cc b.c".toList, outputs := [.file 1 "./a.o".toList none], inputs := [4] } exDone = none := by
  refine c27_rejected exStart_initial exDone_steps (specOk_simple ?_ rfl) exDone_produces
    ⟨by decide +kernel, { dir := 1, kind := .cmd, name := "cc a.c".toList }, by decide +kernel, by decide +kernel⟩
    (n := { dir := 1, kind := .generated, name := "a.o".toList, src := some 1 }) (by decide +kernel) ⟨"./a.o".toList, none, by simp, by decide +kernel⟩
  intro o ho
  simp only [List.append_nil, List.mem_singleton] at ho
  subst ho
  exact (by decide : (1 : Nat) ≠ 2)

example {p2 : Parse} (h : beginParse 7 exDone = some p2) :
    doRule 2 { dir := 7, cmd := "cc ../b.c".toList, outputs := [.file 1 "../a.o".toList none], inputs := [4] } p2 = none := by
  refine c27_second exStart_initial exParse_steps (by decide) exRule_ok exRule_done (.parse 7 (.refl _) h) (specOk_simple ?_ rfl)
    (d := 1) (path := "a.o".toList) (src := none) (path2 := "../a.o".toList) (src2 := none) (by simp [exRule]) (by simp) (by decide +kernel)
  intro o ho
  simp only [List.append_nil, List.mem_singleton] at ho
  subst ho
  exact (by decide : (1 : Nat) ≠ 2)

/-- The parsing of directory 7 does begin. -/
example : (beginParse 7 exDone).isSome = true := by decide +kernel

/-- In the next update the rule may have changed: the file goes to another command, and the old one is left without it. -/
def exAgain : Parse := (beginParse 1 (beginUpdate (fun d => decide (d = 1)) exDone.db)).get (by decide +kernel)

def exOther : Spec := { dir := 1, cmd := "cc b.c".toList, outputs := [.file 1 "b.o".toList none, .file 1 "a.o".toList none], inputs := [4] }

example : (doRule 2 exOther exAgain).map (fun q => (q.db.node 9).map fun n => (n.name, q.db.normal 9 5, q.doomed 9)) =
    some (some ("cc b.c".toList, true, false)) := by decide +kernel

/-- In a variant: `a.c` (3) is there in the source directory 1, so that no rule of the variant writes `a.c` to directory 7, unless it
copies the file. -/
example : doRule 2 { dir := 1, cmd := "x".toList, outputs := [.file 7 "a.c".toList (some 1)], variant := some "build".toList } exParse = none := by
  refine c50_source exStart_initial exParse_steps (specOk_simple (fun o ho => ?_) rfl) (d := 7) (d' := 1) (path := "a.c".toList) (by simp) (by simp) rfl
    (b := 3) (n := { dir := 1, kind := .file, name := "a.c".toList }) (by decide +kernel) rfl rfl (by decide)
  simp only [List.append_nil, List.mem_singleton] at ho
  subst ho
  exact (by decide : (7 : Nat) ≠ 2)

def exCopy : Spec := { dir := 1, cmd := "x".toList, outputs := [.file 7 "a.c".toList (some 1)], inputs := [3], variant := some "build".toList, copy := true }

example : (doRule 2 exCopy exParse).isSome = true ∧ (doRule 2 { exCopy with inputs := [3, 4] } exParse).isSome = false ∧
    (doRule 2 { exCopy with outputs := [.file 7 "a.c".toList (some 1), .file 7 "b.c".toList (some 1)] } exParse).isSome = false ∧
    (doRule 2 { exCopy with outputs := [.file 7 "d.c".toList (some 1)], copy := false } exParse).isSome = true := by
  refine ⟨?_, ?_, ?_, ?_⟩ <;> decide +kernel

/-- Each of the reasons for a rejection is met by a rule that is accepted without it. -/
example :
    (doRule 2 { exRule with extra := [.file 1 "Tupfile".toList none] } exParse).isSome = false ∧
    (doRule 2 { exRule with extra := [.file 7 "sub/x".toList none] } exParse).isSome = true ∧
    (doRule 2 { exRule with extra := [.file 1 "sub/../a.o".toList none] } exParse).isSome = false ∧
    (doRule 2 { exRule with extra := [.group 7 "<objs>".toList] } exParse).isSome = false ∧
    (doRule 2 { exRule with extra := [.exclusion "\\.log".toList] } exParse).isSome = false ∧
    (doRule 2 { exRule with extra := [.exclusion "\\.tmp".toList] } exParse).isSome = true ∧
    (doRule 2 { exRule with extra := [.file 1 "b.c".toList none] } exParse).isSome = false ∧
    (doRule 2 { exRule with order := [6] } exParse).isSome = false ∧
    (doRule 2 { exRule with order := [4] } exParse).isSome = true ∧
    (doRule 2 { exRule with outputs := [.file 1 "b.o".toList none] } exDone).isSome = false := by
  refine ⟨?_, ?_, ?_, ?_, ?_, ?_, ?_, ?_, ?_, ?_⟩ <;> decide +kernel

/-- Only the whole path is compared with the reserved names: a Tupfile in another directory can be written. -/
theorem c50_reserved_elsewhere : ∃ (p : Parse) (r : Spec), r.variant = none ∧ .file 7 "sub/Tupfile".toList none ∈ r.outputs ∧
    base "sub/Tupfile".toList = "Tupfile".toList ∧ (doRule 2 r p).isSome = true :=
  ⟨exParse, { dir := 1, cmd := "x".toList, outputs := [.file 7 "sub/Tupfile".toList none] }, rfl, by simp, by decide +kernel, by decide +kernel⟩

/-- In a variant the path begins with that of the variant, so that no name is reserved. -/
theorem c50_reserved_variant : ∃ (p : Parse) (r : Spec), r.variant = some "build".toList ∧ .file 7 "tup.config".toList none ∈ r.outputs ∧
    (doRule 2 r p).isSome = true :=
  ⟨exParse, { dir := 1, cmd := "x".toList, outputs := [.file 7 "tup.config".toList none], variant := some "build".toList }, rfl, by simp, by decide +kernel⟩

/-! A file moves from one rule to another, and the rule that has lost it is not run again.  First `: |> c1 |> a b` and
`: |> c2 |> x`, which are run; then the Tupfile has `: |> c2 |> x b` and, below it, `: |> c1 |> a`. -/

def exTwo : Option Db :=
  match doRule 2 { dir := 1, cmd := "c1".toList, outputs := [.file 1 "a".toList none, .file 1 "b".toList none] } exParse with
  | none => none
  | some p => (doRule 2 { dir := 1, cmd := "c2".toList, outputs := [.file 1 "x".toList none] } p).map fun p => { p.db with modify := fun _ => false }

def exMoved : Option Parse :=
  match exTwo with
  | none => none
  | some db =>
    match beginParse 1 (beginUpdate (fun d => decide (d = 1)) db) with
    | none => none
    | some p =>
      match doRule 2 { dir := 1, cmd := "c2".toList, outputs := [.file 1 "x".toList none, .file 1 "b".toList none] } p with
      | none => none
      | some p => doRule 2 { dir := 1, cmd := "c1".toList, outputs := [.file 1 "a".toList none] } p

/-- The command (10) wrote two files and has one now, but it is not among those that are to be run; the other one (12) is. -/
theorem c25_stolen : exTwo.map (fun db => ((db.node 10).map Node.name, (List.range 14).filter (db.normal 10))) = some (some "c1".toList, [8, 9]) ∧
    exMoved.map (fun p => ((p.db.node 10).map Node.name, (List.range 14).filter (p.db.normal 10), p.db.modify 10, p.db.modify 12)) =
      some (some "c1".toList, [8], false, true) := by
  constructor <;> decide +kernel

end Tup.DoRule
