import Verif.DoRule.Unique

/-! What `do_rule` does to the tables. -/

namespace Tup.DoRule

open Tup.Db Tup.Links

variable {db db' : Db} {excl : Nat}

/-- The rule is one the parser makes: the files and groups are in real directories, the environment consists of variables. -/
structure SpecOk (db : Db) (excl : Nat) (r : Spec) : Prop where
  outs : ∀ o ∈ r.outputs ++ r.extra, OutOk excl o
  env : ∀ a ∈ r.env, db.isKind .var a = true

theorem mem_tree (hs : Sound db) {l : List Nat} (hl : ∀ a ∈ l, (db.node a).isSome) {a : Nat} : a ∈ tree db l ↔ a ∈ l := by
  unfold tree
  simp only [List.mem_filter, List.mem_range, decide_eq_true_eq]
  refine ⟨fun h => h.2, fun h => ⟨?_, h⟩⟩
  obtain ⟨n, hn⟩ := Option.isSome_iff_exists.1 (hl a h)
  exact (hs.node a n hn).2

theorem tree_asc (db : Db) (l : List Nat) : Asc (tree db l) := asc_filter_range _ _

/-- The types of inputs. -/
def InputKind (db : Db) (a : Nat) : Prop :=
  db.isKind .generated a = true ∨ db.isKind .var a = true ∨ db.isKind .group a = true ∨ db.isKind .file a = true

theorem inputNodes_kind {force : Bool} {a : Nat} {l : List Nat} (h : inputNodes db force a = some l) : ∀ x ∈ l, InputKind db x := by
  intro x hx
  unfold inputNodes at h
  split at h
  · rename_i hg
    split at h
    · cases h
      rcases List.mem_cons.1 hx with rfl | hx
      · exact .inl hg
      · unfold groupInputs at hx
        exact .inr (.inr (.inl (List.mem_filter.1 hx).2))
    · cases h
  · split at h
    · rename_i hv
      cases h
      simp only [List.mem_singleton] at hx
      subst hx
      simp only [Bool.or_eq_true] at hv
      rcases hv with hv | hv
      · exact .inr (.inl hv)
      · exact .inr (.inr (.inl hv))
    · split at h
      · rename_i hf
        cases h
        simp only [List.mem_singleton] at hx
        subst hx
        simp only [Bool.and_eq_true] at hf
        exact .inr (.inr (.inr hf.1))
      · cases h; cases hx

theorem inputsNodes_kind {force : Bool} : ∀ {as l : List Nat}, inputsNodes db force as = some l → ∀ x ∈ l, InputKind db x
  | [], l, h => by cases h; intro x hx; cases hx
  | a :: as, l, h => by
    unfold inputsNodes at h
    split at h
    · rename_i x y h1 h2
      cases h
      intro z hz
      rcases List.mem_append.1 hz with hz | hz
      · exact inputNodes_kind h1 z hz
      · exact inputsNodes_kind h2 z hz
    · cases h

theorem inputsNodes_mem {force : Bool} : ∀ {as l : List Nat}, inputsNodes db force as = some l → ∀ a ∈ as,
    ∃ x, inputNodes db force a = some x ∧ ∀ z ∈ x, z ∈ l
  | [], l, h => by intro a ha; cases ha
  | b :: as, l, h => by
    unfold inputsNodes at h
    split at h
    · rename_i x y h1 h2
      cases h
      intro a ha
      rcases List.mem_cons.1 ha with rfl | ha
      · exact ⟨x, h1, fun z hz => List.mem_append_left _ hz⟩
      · obtain ⟨w, e1, e2⟩ := inputsNodes_mem h2 a ha
        exact ⟨w, e1, fun z hz => List.mem_append_right _ (e2 z hz)⟩
    · cases h

theorem allInputs_kind {r : Spec} {l : List Nat} (h : allInputs r db = some l) : ∀ x ∈ l, InputKind db x := by
  unfold allInputs at h
  split at h
  · rename_i x y h1 h2
    cases h
    intro z hz
    rcases List.mem_append.1 hz with hz | hz
    · exact inputsNodes_kind h1 z hz
    · exact inputsNodes_kind h2 z hz
  · cases h

theorem allInputs_env {r : Spec} {l : List Nat} (h : allInputs r db = some l) {a : Nat} (ha : a ∈ r.env) (hv : db.isKind .var a = true) : a ∈ l := by
  unfold allInputs at h
  split at h
  · rename_i x y h1 h2
    cases h
    obtain ⟨w, e1, e2⟩ := inputsNodes_mem h2 a (List.mem_append_right _ ha)
    unfold inputNodes at e1
    rw [if_neg (fun hg => isKind_ne hg hv (by decide)), if_pos (by simp [hv])] at e1
    cases e1
    exact List.mem_append_right _ (e2 a (by simp))
  · cases h

theorem InputKind.some {a : Nat} (h : InputKind db a) : (db.node a).isSome := by
  rcases h with h | h | h | h <;> (obtain ⟨n, e, _⟩ := isKind_iff.1 h; rw [e]; rfl)

theorem InputKind.not {a : Nat} (h : InputKind db a) : db.isKind .cmd a = false ∧ db.isKind .ghost a = false := by
  rcases h with h | h | h | h <;> exact ⟨isKind_other h (by decide), isKind_other h (by decide)⟩

/-- What the rule has done. -/
structure Done (excl : Nat) (r : Spec) (p p' : Parse) (s : Outs) (c : Nat) : Prop where
  sound : Sound p'.db
  tidy : Tidy p'.db excl
  cmd : ∃ n, p'.db.node c = some n ∧ n.kind = .cmd ∧ n.dir = r.dir
  old : p.db.node c = none ∨ p.db.isKind .cmd c = true
  own : ∀ b, Writes p'.db excl c b ↔ b ∈ s.outputs
  output : ∀ b ∈ s.outputs, ∃ n, p'.db.node b = some n ∧ n.kind = .generated ∧ n.src = some r.dir
  others : ∀ c' b, c' ≠ c → Writes p'.db excl c' b → Writes p.db excl c' b ∧ b ∉ s.outputs
  kept : ∀ c' b, c' ≠ c → Writes p.db excl c' b → p.db.isKind .generated b = true → b ∉ s.outputs → Writes p'.db excl c' b
  unique : Unique p.db → Unique p'.db
  origin : p.db.node c = none ∨ (∃ n, p.db.node c = some n ∧ n.dir = r.dir) ∨ ∃ b ∈ s.outputs, p.db.normal c b = true
  names : ∀ b ∈ s.outputs, p'.db.node b = s.db.node b
  cmds : ∀ j n, p'.db.node j = some n → n.kind = .cmd → j ≠ c → p.db.node j = some n
  node : ∀ j n, p.db.node j = some n → ∃ m, p'.db.node j = some m ∧ (n.kind = .generated → m.kind = .generated ∧ (j ∉ s.outputs → m.src = n.src)) ∧
    (n.kind = .cmd → m.kind = .cmd ∧ (j ≠ c → m = n)) ∧ (j ≠ c → m.dir = n.dir ∧ m.name = n.name)
  doomed : ∀ j, p'.doomed j = (p.doomed j && !decide (j = c))
  parsing : p'.parsing = p.parsing
  fresh : p.seen r.dir c = false
  seen : ∀ d j, p'.seen d j = (p.seen d j || (decide (d = r.dir) && decide (j = c)))

/-- Where another command writes after a rule, it did before. -/
theorem written_writes (hs : Sound db) {r : Rule} (ht : Tidy db excl) (hr : RuleOk db excl r) (hf : Free db excl r)
    (h : writeRule false excl r db = some db') {c b : Nat} :
    Writes db' excl c b ↔ (c = r.cmd ∧ b ∈ r.outputs) ∨ (c ≠ r.cmd ∧ Writes db excl c b) := by
  have w := ruleWritten hs ht hr h
  have ht' := ruleWritten_tidy hs ht hr hf h
  have hno : db'.node = db.node := by
    have := w.nodes
    unfold SameNodes at this
    rw [this]
  have hk : ∀ k i, db'.isKind k i = db.isKind k i := fun k i => isKind_congr (congrFun hno i) k
  have hd : ∀ i, inDir db' excl i = inDir db excl i := fun i => inDir_congr (congrFun hno i) _
  constructor
  · intro hw
    obtain ⟨h1, h2, h3, h4⟩ := hw
    have hbc : b ≠ r.cmd := by
      rintro rfl
      have := ht'.file c _ h1 h2
      rw [hk, hr.cmd] at this; cases this
    rw [hk] at h1 h3
    rw [hd] at h4
    by_cases hc : c = r.cmd
    · subst hc
      left
      refine ⟨rfl, ?_⟩
      rcases (w.outputs b).1 h2 with h | h | h
      · exact h
      · obtain ⟨n, k1, k2, k3⟩ := hr.exclusion b h
        rw [inDir_some k1, k3] at h4
        simp at h4
      · obtain ⟨n, k1, k2⟩ := hr.group b h
        rw [isKind_some k1, k2] at h3
        simp at h3
    · right
      rw [w.normal_cmd hs ht hr h1 hc hbc] at h2
      exact ⟨hc, h1, h2, h3, h4⟩
  · rintro (⟨rfl, hb⟩ | ⟨hc, h1, h2, h3, h4⟩)
    · obtain ⟨n, k1, k2, k3⟩ := hr.output b hb
      refine ⟨by rw [hk]; exact hr.cmd, (w.outputs b).2 (.inl hb), ?_, ?_⟩
      · rw [hk, isKind_some k1]; simp [k2]
      · rw [hd, inDir_some k1]; simp [k3]
    · have hbc : b ≠ r.cmd := by
        rintro rfl
        have := ht.file c _ h1 h2
        rw [hr.cmd] at this; cases this
      refine ⟨by rw [hk]; exact h1, ?_, by rw [hk]; exact h3, by rw [hd]; exact h4⟩
      rw [w.normal_cmd hs ht hr h1 hc hbc]
      exact h2

/-- The hypotheses of the theorems about the links hold when they are written. -/
theorem toRule_ok {db0 : Db} {r : Spec} {s : Outs} (hi : OutsInv db0 excl r s) {c : Nat} {modified : Bool} {inputs : List Nat} {db1 : Db}
    {main : List Nat} (hf : Found s.db excl r main db1 c) (hk : Cuts db1 excl c s.outputs db) (ha : allInputs r db = some inputs) (hnc : circular s inputs = false)
    (he : ∀ a ∈ r.env, db.isKind .var a = true) :
    RuleOk db excl (toRule r s db c modified inputs) ∧ Free db excl (toRule r s db c modified inputs) ∧
      ∀ b, b ∈ (toRule r s db c modified inputs).outputs ↔ b ∈ s.outputs := by
  have hs := hk.sound
  have ht := hk.tidy
  obtain ⟨nc, ec1, ec2, ec3⟩ := hf.node
  have hcmd : db.isKind .cmd c = true := isKind_iff.2 ⟨nc, by rw [hk.node]; exact ec1, ec2⟩
  have hne : ∀ b n, s.db.node b = some n → n.kind ≠ .cmd → db.node b = some n := by
    intro b n hb hn
    have : b ≠ c := by
      rintro rfl
      rcases hf.old with h | h
      · rw [hb] at h; cases h
      · rw [isKind_some hb] at h
        simp only [decide_eq_true_eq] at h
        exact hn h
    rw [hk.node, hf.other b this, hb]
  have hout : ∀ b ∈ s.outputs, ∃ n, db.node b = some n ∧ n.kind = .generated ∧ n.dir ≠ excl ∧ n.src = some r.dir := by
    intro b hb
    obtain ⟨n, e1, e2, e3, e4⟩ := hi.output b hb
    exact ⟨n, hne b n e1 (by rw [e2]; decide), e2, e3, e4⟩
  have hexc : ∀ b ∈ s.exclusions, ∃ n, db.node b = some n ∧ n.kind = .ghost ∧ n.dir = excl := by
    intro b hb
    obtain ⟨n, e1, e2, e3⟩ := hi.exclusion b hb
    exact ⟨n, hne b n e1 (by rw [e2]; decide), e2, e3⟩
  have mo : ∀ b, b ∈ tree db s.outputs ↔ b ∈ s.outputs := fun b => mem_tree hs fun a ha => by
    obtain ⟨n, e, _⟩ := hout a ha
    rw [e]; rfl
  have me : ∀ b, b ∈ tree db s.exclusions ↔ b ∈ s.exclusions := fun b => mem_tree hs fun a ha => by
    obtain ⟨n, e, _⟩ := hexc a ha
    rw [e]; rfl
  have mi : ∀ b, b ∈ tree db inputs ↔ b ∈ inputs := fun b => mem_tree hs fun a h => (allInputs_kind ha a h).some
  have mv : ∀ b, b ∈ tree db r.env ↔ b ∈ r.env := fun b => mem_tree hs fun a h => by
    obtain ⟨n, e, _⟩ := isKind_iff.1 (he a h)
    rw [e]; rfl
  refine ⟨⟨tree_asc _ _, tree_asc _ _, tree_asc _ _, tree_asc _ _, fun a h => ?_, fun b h => ?_, fun b h => ?_, fun g h => ?_, fun a h => ?_, hcmd, ?_,
    fun b h => ?_, fun b h => ?_, fun a h => ?_⟩, ⟨fun b h c' hw => ?_, fun b h hn g hg => ?_⟩, mo⟩
  · have h := (mv a).1 h
    exact (mi a).2 (allInputs_env ha h (he a h))
  · obtain ⟨n, e1, e2, e3, _⟩ := hout b ((mo b).1 h)
    exact ⟨n, e1, by rw [e2]; decide, e3⟩
  · obtain ⟨n, e1, e2, e3⟩ := hexc b ((me b).1 h)
    exact ⟨n, e1, by rw [e2]; decide, e3⟩
  · obtain ⟨n, e1, e2⟩ := hi.group g h
    exact ⟨n, hne g n e1 (by rw [e2]; decide), e2⟩
  · exact (allInputs_kind ha a ((mi a).1 h)).some
  · rw [Bool.eq_false_iff]
    intro h
    have := ht.file c c hcmd h
    rw [hcmd] at this; cases this
  · obtain ⟨n, e1, e2, _⟩ := hout b ((mo b).1 h)
    exact isKind_iff.2 ⟨n, e1, e2⟩
  · obtain ⟨n, e1, e2, _⟩ := hexc b ((me b).1 h)
    exact isKind_iff.2 ⟨n, e1, e2⟩
  · exact (allInputs_kind ha a ((mi a).1 h)).not
  · exact (hk.taken b ((mo b).1 h)).1 c' hw.2.1
  · exact (hk.taken b ((mo b).1 h)).2 hn g hg

/-- All of `do_rule`. -/
theorem doRule_done {r : Spec} {p p' : Parse} (hs : Sound p.db) (ht : Tidy p.db excl) (hr : SpecOk p.db excl r) (h : doRule excl r p = some p') :
    ∃ m s c, addOuts excl p r r.outputs { db := p.db } = some m ∧ addOuts excl p r r.extra m = some s ∧ Done excl r p p' s c := by
  unfold doRule at h
  split at h
  · cases h
  rename_i m hm
  split at h
  · cases h
  rename_i s hso
  split at h
  · cases h
  split at h
  · cases h
  rename_i db1 c modified hc
  split at h
  · cases h
  rename_i hseen
  split at h
  · cases h
  rename_i db2 hl
  cases h
  refine ⟨m, s, c, hm, hso, ?_⟩
  have im := addOuts_inv (fun o ho => hr.outs o (List.mem_append_left _ ho)) (outs_start hs ht r) hm
  have is := addOuts_inv (fun o ho => hr.outs o (List.mem_append_right _ ho)) im hso
  have hgen : ∀ b ∈ s.outputs, s.db.isKind .generated b = true := fun b hb => by
    obtain ⟨n, e1, e2, _⟩ := is.output b hb
    exact isKind_iff.2 ⟨n, e1, e2⟩
  have hf := findCommand_spec is.sound is.tidy (fun b hb => hgen b (addOuts_sub hso b hb)) hc
  unfold linkRule at hl
  split at hl
  · cases hl
  rename_i db3 hu
  split at hl
  · cases hl
  rename_i inputs hin
  split at hl
  · cases hl
  rename_i hcirc
  have hcirc : circular s inputs = false := Bool.eq_false_iff.2 hcirc
  obtain ⟨nc, ec1, ec2, ec3⟩ := hf.node
  have hne : ∀ b n, s.db.node b = some n → n.kind ≠ .cmd → db1.node b = some n := by
    intro b n hb hn
    have : b ≠ c := by
      rintro rfl
      rcases hf.old with h | h
      · rw [hb] at h; cases h
      · rw [isKind_some hb] at h
        simp only [decide_eq_true_eq] at h
        exact hn h
    rw [hf.other b this, hb]
  have hk := uniqueLinks_spec hf.sound hf.tidy (isKind_iff.2 ⟨nc, ec1, ec2⟩) is.nodup (fun b hb => by
    obtain ⟨n, e1, e2, e3, _⟩ := is.output b hb
    have := hne b n e1 (by rw [e2]; decide)
    refine ⟨isKind_iff.2 ⟨n, this, e2⟩, ?_⟩
    rw [inDir_some this]
    exact decide_eq_false e3) hu
  have henv : ∀ a ∈ r.env, db3.isKind .var a = true := by
    intro a ha
    obtain ⟨n, e1, e2⟩ := isKind_iff.1 (hr.env a ha)
    obtain ⟨n', k1, _, _, k2, _⟩ := is.keep a n e1
    have k2 := k2 (by rw [e2]; decide)
    exact isKind_iff.2 ⟨n', by rw [hk.node]; exact hne a n' k1 (by rw [k2, e2]; decide), k2.trans e2⟩
  obtain ⟨ok, free, hmem⟩ := toRule_ok (modified := modified) is hf hk hin hcirc henv
  have w := ruleWritten hk.sound hk.tidy ok hl
  have hno : db2.node = db3.node := by
    have := w.nodes
    unfold SameNodes at this
    rw [this]
  have ww := fun {c b : Nat} => written_writes hk.sound hk.tidy ok free hl (c := c) (b := b)
  refine ⟨ruleWritten_sound hk.sound ok hl, ruleWritten_tidy hk.sound hk.tidy ok free hl, ⟨nc, ?_, ec2, ec3⟩, ?_, fun b => ?_, fun b hb => ?_,
    fun c' b hcc hw => ?_, fun c' b hcc hw hg hb => ?_, fun hu => ?_, ?_, fun b hb => ?_, fun j n hn hkn hjc => ?_, fun j n hn => ?_, fun j => rfl, rfl, Bool.eq_false_iff.2 hseen, fun d j => rfl⟩
  · show db2.node c = some nc
    rw [hno, hk.node, ec1]
  · -- the command was one, or is new
    rcases hf.old with h | h
    · left
      cases hpc : p.db.node c with
      | none => rfl
      | some n =>
        obtain ⟨n', e, _⟩ := is.keep c n hpc
        rw [h] at e; cases e
    · right
      obtain ⟨n, e1, e2⟩ := isKind_iff.1 h
      rw [is.cmd c h] at e1
      exact isKind_iff.2 ⟨n, e1, e2⟩
  · show Writes db2 excl c b ↔ _
    rw [ww, hmem]
    constructor
    · rintro (h | h)
      · exact h.2
      · exact absurd rfl h.1
    · exact fun h => .inl ⟨rfl, h⟩
  · obtain ⟨n, e1, e2, e3, e4⟩ := is.output b hb
    refine ⟨n, ?_, e2, e4⟩
    show db2.node b = some n
    rw [hno, hk.node]
    exact hne b n e1 (by rw [e2]; decide)
  · rcases ww.1 hw with h | ⟨_, hw⟩
    · exact absurd h.1 hcc
    · have hb : b ∉ s.outputs := fun hb => hcc ((free.owner b ((hmem b).2 hb) c' hw))
      refine ⟨?_, hb⟩
      obtain ⟨h1, h2, h3, h4⟩ := hw
      have h2 := hk.normal _ _ h2
      rw [hf.normal] at h2
      rw [isKind_congr (congrFun hk.node c'), isKind_congr (hf.other c' hcc)] at h1
      have hbc : b ≠ c := by
        rintro rfl
        have := is.tidy.file c' b h1 h2
        rcases hf.old with h | h
        · have := (is.sound.normal c' b h2).2
          rw [h] at this; cases this
        · rw [this] at h; cases h
      rw [isKind_congr (congrFun hk.node b), isKind_congr (hf.other b hbc)] at h3
      rw [inDir_congr (congrFun hk.node b), inDir_congr (hf.other b hbc)] at h4
      have h2' := is.normal _ _ h2
      obtain ⟨nb, eb⟩ := Option.isSome_iff_exists.1 (hs.normal c' b h2').2
      obtain ⟨nb', k1, k2, k3, k4, _⟩ := is.keep b nb eb
      obtain ⟨n', e1, e2⟩ := isKind_iff.1 h1
      rw [is.cmd c' h1] at e1
      refine ⟨isKind_iff.2 ⟨n', e1, e2⟩, h2', ?_, ?_⟩
      · rw [isKind_some eb]
        rw [isKind_some k1] at h3
        simp only [decide_eq_false_iff_not] at h3 ⊢
        intro hg
        exact h3 ((k4 (by rw [hg]; decide)).trans hg)
      · rw [inDir_some eb]
        rw [inDir_some k1, k2] at h4
        exact h4
  · obtain ⟨n, e1, e2⟩ := isKind_iff.1 hw.1
    obtain ⟨m, f1, f2⟩ := isKind_iff.1 hg
    obtain ⟨n', g1, _, _, g4, _⟩ := is.keep c' n e1
    have g4 := g4 (by rw [e2]; decide)
    obtain ⟨m', h1, h2, _, h4, _⟩ := is.keep b m f1
    have h4 := h4 (by rw [f2]; decide)
    have hc's : c' ∉ s.outputs := fun h => by
      have := hgen c' h
      rw [isKind_some g1, g4, e2] at this
      simp at this
    have n1 : db3.node c' = some n' := by rw [hk.node, hf.other c' hcc, g1]
    have n2 : db3.node b = some m' := by rw [hk.node]; exact hne b m' h1 (by rw [h4, f2]; decide)
    refine ww.2 (.inr ⟨hcc, isKind_iff.2 ⟨n', n1, g4.trans e2⟩, ?_, ?_, ?_⟩)
    · rw [hk.other c' b hc's hb, hf.normal, is.links c' b n m e1 f1 (by rw [e2]; decide) (by rw [f2]; decide)]
      exact hw.2.1
    · rw [isKind_some n2, h4, f2]; rfl
    · have := hw.2.2.2
      rw [inDir_some f1] at this
      rw [inDir_some n2, h2, this]
  · refine unique_sub (hf.unique (is.unique hu)) fun j q hq => ⟨q, ?_, rfl, rfl⟩
    have hq : db2.node j = some q := hq
    rw [hno, hk.node] at hq
    exact hq
  · rcases hf.origin with h | ⟨n, h1, h2⟩ | ⟨b, h1, h2⟩
    · left
      cases hpc : p.db.node c with
      | none => rfl
      | some n =>
        obtain ⟨n', e, _⟩ := is.keep c n hpc
        rw [h] at e; cases e
    · right; left
      rcases hf.old with h | h
      · rw [h] at h1; cases h1
      · exact ⟨n, by rw [← is.cmd c h, h1], h2⟩
    · exact .inr (.inr ⟨b, addOuts_sub hso b h1, is.normal _ _ h2⟩)
  · obtain ⟨n, e1, e2, _⟩ := is.output b hb
    show db2.node b = _
    rw [hno, hk.node, e1]
    exact hne b n e1 (by rw [e2]; decide)
  · have hn : db2.node j = some n := hn
    rw [hno, hk.node, hf.other j hjc] at hn
    rw [← is.cmd j (isKind_iff.2 ⟨n, hn, hkn⟩), hn]
  · obtain ⟨n', e1, e2, e3, e4, e5⟩ := is.keep j n hn
    by_cases hjc : j = c
    · subst hjc
      refine ⟨nc, ?_, fun hg => ?_, fun _ => ⟨ec2, fun h => absurd rfl h⟩, fun h => absurd rfl h⟩
      · show db2.node j = some nc
        rw [hno, hk.node, ec1]
      · rcases hf.old with h | h
        · rw [e1] at h; cases h
        · rw [isKind_some e1] at h
          simp only [decide_eq_true_eq] at h
          have := e4 (by rw [hg]; decide)
          rw [h, hg] at this; cases this
    · refine ⟨n', ?_, fun hg => ⟨?_, fun ho => e5 hg ho⟩, fun hg => ?_, fun _ => ⟨e2, e3⟩⟩
      · show db2.node j = some n'
        rw [hno, hk.node, hf.other j hjc, e1]
      · rw [e4 (by rw [hg]; decide), hg]
      · have hk' := e4 (by rw [hg]; decide)
        refine ⟨hk'.trans hg, fun _ => ?_⟩
        have := is.cmd j (isKind_iff.2 ⟨n', e1, hk'.trans hg⟩)
        rw [e1, hn] at this
        exact Option.some.inj this

end Tup.DoRule
