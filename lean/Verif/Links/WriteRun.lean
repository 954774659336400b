import Verif.Links.WriteSpec
import Verif.Links.WriteLemmas

/-! What is stored after a rule has been written. -/

namespace Tup.Links

open Tup.Db

theorem asc_filter_range (n : Nat) (p : Nat → Bool) : Asc ((List.range n).filter p) :=
  List.Pairwise.filter _ List.pairwise_lt_range

theorem mem_linkedTo {db : Db} (h : Sound db) {c b : Nat} : b ∈ linkedTo db c ↔ db.normal c b = true := by
  unfold linkedTo
  rw [List.mem_filter, List.mem_range]
  refine ⟨fun h => h.2, fun hn => ⟨?_, hn⟩⟩
  obtain ⟨n, hn⟩ := Option.isSome_iff_exists.1 (h.normal c b hn).2
  exact (h.node b n hn).2

theorem mem_oldOutputs {db : Db} (h : Sound db) {excl c b : Nat} :
    b ∈ oldOutputs db excl c ↔ db.normal c b = true ∧ db.isKind .group b = false ∧ inDir db excl b = false := by
  unfold oldOutputs
  rw [List.mem_filter, mem_linkedTo h]
  simp

theorem mem_oldExclusions {db : Db} (h : Sound db) {excl c b : Nat} :
    b ∈ oldExclusions db excl c ↔ db.normal c b = true ∧ db.isKind .group b = false ∧ inDir db excl b = true := by
  unfold oldExclusions
  rw [List.mem_filter, mem_linkedTo h]
  simp

theorem mem_oldGroups {db : Db} (h : Sound db) {c b : Nat} :
    b ∈ oldGroups db c ↔ db.normal c b = true ∧ db.isKind .group b = true := by
  unfold oldGroups
  rw [List.mem_filter, mem_linkedTo h]

theorem asc_sub {l : List Nat} (h : Asc l) (p : Nat → Bool) : Asc (l.filter p) := List.Pairwise.filter _ h

theorem getOutputs_some {db : Db} (h : Sound db) {excl c : Nat} {O E : List Nat} {G : Option Nat}
    (hg : getOutputs db excl c = some (O, E, G)) :
    O = oldOutputs db excl c ∧ E = oldExclusions db excl c ∧ ∀ g, G = some g ↔ db.normal c g = true ∧ db.isKind .group g = true := by
  unfold getOutputs at hg
  split at hg
  · rename_i hl
    cases hg
    refine ⟨rfl, rfl, fun g => ?_⟩
    rw [← mem_oldGroups h, hl]
    simp
  · rename_i g hl
    cases hg
    refine ⟨rfl, rfl, fun g' => ?_⟩
    rw [← mem_oldGroups h, hl]
    simp only [List.mem_singleton, Option.some.injEq]
    exact eq_comm
  · cases hg

/-- The state after the outputs have been written. -/
structure OutDone (db : Db) (excl : Nat) (r : Rule) (G : Option Nat) (db' : Db) : Prop where
  group : ∀ g, G = some g ↔ db.normal r.cmd g = true ∧ db.isKind .group g = true
  same : SameNodes db db'
  sticky : db'.sticky = db.sticky
  links : db'.group = db.group
  cmd : ∀ b, db'.normal r.cmd b = true ↔ Declared r b
  other : ∀ a b, a ≠ r.cmd → (db'.normal a b = true ↔
    (db.normal a b = true ∧ ¬ (G = some b ∧ a ∈ oldOutputs db excl r.cmd ∧ ¬ (r.group = some b ∧ a ∈ r.outputs))) ∨
      (r.group = some b ∧ a ∈ r.outputs ∧ ¬ (G = some b ∧ a ∈ oldOutputs db excl r.cmd)))
  modify : ∀ j, db'.modify j = true ↔ db.modify j = true ∨
    (OutputsChange db r ∧ (j = r.cmd ∨ r.group = some j)) ∨
    (∃ g, GroupLeft db r g ∧ (j = g ∨ (j ≠ g ∧ ∃ i ∈ oldOutputs db excl r.cmd, db.normal i j = true ∧
      (db.isKind .cmd j = true ∨ db.isKind .group j = true))))
  transient : ∀ j, db'.transient j = true ↔ db.transient j = true ∨
    (OutputsChange db r ∧ j = r.cmd ∧ ∃ n, db.node j = some n ∧ n.transient = true)
  ghosts : ∀ j, db'.ghosts j = true ↔ db.ghosts j = true ∨ GroupLeft db r j ∨
    (db.normal r.cmd j = true ∧ db.isKind .ghost j = true ∧ ¬ Declared r j)

theorem writeOutputs_some {db : Db} (hs : Sound db) {excl : Nat} {r : Rule} (hr : RuleOk db excl r) {db' : Db} {G : Option Nat}
    (h : writeOutputs false excl r db = some (db', G)) : OutDone db excl r G db' := by
  unfold writeOutputs at h
  cases hg : getOutputs db excl r.cmd with
  | none => rw [hg] at h; cases h
  | some x =>
    obtain ⟨O, E, G'⟩ := x
    rw [hg] at h
    obtain ⟨rfl, rfl, hG⟩ := getOutputs_some hs hg
    simp only [Option.bind_eq_bind, Option.bind_eq_some_iff] at h
    obtain ⟨s1, h1, s2, h2, s3, h3, h4⟩ := h
    have hascO : Asc (oldOutputs db excl r.cmd) := asc_sub (asc_filter_range _ _) _
    have hascE : Asc (oldExclusions db excl r.cmd) := asc_sub (asc_filter_range _ _) _
    have hself := hr.self
    have hcO : r.cmd ∉ oldOutputs db excl r.cmd := by
      rw [mem_oldOutputs hs, hself]; simp
    have hcE : r.cmd ∉ oldExclusions db excl r.cmd := by
      rw [mem_oldExclusions hs, hself]; simp
    have i2 := pod_compare hascO hr.outputs hcO h2
    have i3 := pod_compare hascE hr.exclusions hcE h3
    obtain ⟨hlO, hrO⟩ := mem_diff hascO hr.outputs
    obtain ⟨hlE, hrE⟩ := mem_diff hascE hr.exclusions
    -- kinds
    have kOut : ∀ b ∈ r.outputs, db.isKind .group b = false ∧ inDir db excl b = false := by
      intro b hb
      obtain ⟨n, k1, k2, k3⟩ := hr.output b hb
      unfold inDir Db.isKind
      rw [k1]
      simp [k2, k3]
    have kExc : ∀ b ∈ r.exclusions, db.isKind .group b = false ∧ inDir db excl b = true := by
      intro b hb
      obtain ⟨n, k1, k2, k3⟩ := hr.exclusion b hb
      unfold inDir Db.isKind
      rw [k1]
      simp [k2, k3]
    have kGrp : ∀ g, r.group = some g → db.isKind .group g = true := by
      intro g hg
      obtain ⟨n, k1, k2⟩ := hr.group g hg
      exact isKind_iff.2 ⟨n, k1, k2⟩
    have mO := fun b => mem_oldOutputs hs (excl := excl) (c := r.cmd) (b := b)
    have mE := fun b => mem_oldExclusions hs (excl := excl) (c := r.cmd) (b := b)
    -- the change of the group
    obtain ⟨same1, n1, newg, m1, g1, d1⟩ : SameBut db s1.db ∧
        (∀ a b, s1.db.normal a b = true ↔ (db.normal a b = true ∨ (G' ≠ r.group ∧ (a ∈ r.outputs ∨ a = r.cmd) ∧ r.group = some b)) ∧
          ¬ (G' ≠ r.group ∧ (a ∈ oldOutputs db excl r.cmd ∨ a = r.cmd) ∧ G' = some b)) ∧
        (G' ≠ r.group → ∀ g, r.group = some g → db.normal r.cmd g = false) ∧
        (∀ j, s1.db.modify j = true ↔ db.modify j = true ∨ (G' ≠ r.group ∧ (G' = some j ∨
          (G'.isSome ∧ G' ≠ some j ∧ ∃ i ∈ oldOutputs db excl r.cmd,
            (db.normal i j = true ∨ ((i ∈ r.outputs ∨ i = r.cmd) ∧ r.group = some j)) ∧
            (db.isKind .cmd j = true ∨ db.isKind .group j = true))))) ∧
        (∀ j, s1.db.ghosts j = true ↔ db.ghosts j = true ∨ (G' ≠ r.group ∧ G' = some j)) ∧
        (s1.differ = true ↔ r.modified = true ∨ G' ≠ r.group) := by
      unfold changeGroup at h1
      by_cases hgr : G' = r.group
      · rw [if_pos hgr] at h1
        cases h1
        simp only [hgr, ne_eq, not_true_eq_false, false_and, or_false, not_false_eq_true, and_true, false_implies, implies_true]
        exact SameBut.rfl
      · rw [if_neg hgr, Option.map_eq_some_iff] at h1
        obtain ⟨dbj, j1, j2⟩ := h1
        cases j2
        obtain ⟨k1, k2, k3, k4, k5⟩ := joinGroup_some j1
        obtain ⟨l1, l2, l3, l4⟩ := leaveGroup_spec r (oldOutputs db excl r.cmd) dbj G'
        simp only [ne_eq, hgr, not_false_eq_true, true_and, or_true, true_implies]
        refine ⟨k1.trans l1, fun a b => ?_, fun g hg => (k4 g hg).2, fun j => ?_, fun j => ?_, trivial⟩
        · rw [l3, k5]
        · rw [l4, k2]
          simp only [k5, k1.kind]
          grind
        · rw [l2, k3]
          have : G' = some j → dbj.ghosty j = true := by
            intro hj
            unfold Db.ghosty
            rw [k1.kind, k1.kind, ((hG j).1 hj).2]
            simp
          grind
    have hsame : sameGroup r G' = if G' = r.group then r.group else none := rfl
    -- the nodes
    have same3 : SameBut db s3.db := same1.trans (i2.same.trans i3.same)
    have kg2 : ∀ k j, s2.db.isKind k j = db.isKind k j := fun k j => by rw [i2.same.kind, same1.kind]
    -- whether there is a change
    have hleft : ∀ g, GroupLeft db r g ↔ G' ≠ r.group ∧ G' = some g := by
      intro g
      unfold GroupLeft
      rw [← and_assoc, ← hG]
      grind
    have hdiff : s3.differ = true ↔ OutputsChange db r := by
      rw [i3.differ, i2.differ, d1]
      unfold OutputsChange Declared
      constructor
      · rintro ((((h | h) | ⟨e, he⟩)) | ⟨e, he⟩)
        · exact .inl h
        · right
          cases hgg : G' with
          | some g =>
            refine ⟨g, fun hx => ?_⟩
            have hk := (hG g).1 hgg
            have hx := hx.1 hk.1
            rcases hx with hx | hx | hx
            · have := (kOut g hx).1; rw [hk.2] at this; cases this
            · have := (kExc g hx).1; rw [hk.2] at this; cases this
            · exact h (by rw [hgg, hx])
          | none =>
            cases hrg : r.group with
            | none => exact absurd (by rw [hgg, hrg]) h
            | some g =>
              refine ⟨g, fun hx => ?_⟩
              have := hx.2 (.inr (.inr rfl))
              rw [newg h g hrg] at this; cases this
        · right
          cases e with
          | left b =>
            obtain ⟨e1, e2⟩ := (hlO b).1 he
            obtain ⟨f1, f2, f3⟩ := (mO b).1 e1
            refine ⟨b, fun hx => ?_⟩
            rcases hx.1 f1 with hx | hx | hx
            · exact e2 hx
            · have := (kExc b hx).2; rw [f3] at this; cases this
            · have := kGrp b hx; rw [f2] at this; cases this
          | right b =>
            obtain ⟨e1, e2⟩ := (hrO b).1 he
            exact ⟨b, fun hx => e2 ((mO b).2 ⟨hx.2 (.inl e1), kOut b e1⟩)⟩
        · right
          cases e with
          | left b =>
            obtain ⟨e1, e2⟩ := (hlE b).1 he
            obtain ⟨f1, f2, f3⟩ := (mE b).1 e1
            refine ⟨b, fun hx => ?_⟩
            rcases hx.1 f1 with hx | hx | hx
            · have := (kOut b hx).2; rw [f3] at this; cases this
            · exact e2 hx
            · have := kGrp b hx; rw [f2] at this; cases this
          | right b =>
            obtain ⟨e1, e2⟩ := (hrE b).1 he
            exact ⟨b, fun hx => e2 ((mE b).2 ⟨hx.2 (.inr (.inl e1)), kExc b e1⟩)⟩
      · rintro (h | ⟨b, hb⟩)
        · exact .inl (.inl (.inl h))
        · refine Classical.byContradiction fun hno => hb ?_
          simp only [not_or, not_exists, Classical.not_not] at hno
          obtain ⟨⟨⟨_, e1⟩, e2⟩, e3⟩ := hno
          have hO : ∀ b, b ∈ oldOutputs db excl r.cmd ↔ b ∈ r.outputs := by
            intro b
            have a1 := hlO b
            have a2 := hrO b
            have a3 := e2 (.left b)
            have a4 := e2 (.right b)
            grind
          have hE : ∀ b, b ∈ oldExclusions db excl r.cmd ↔ b ∈ r.exclusions := by
            intro b
            have a1 := hlE b
            have a2 := hrE b
            have a3 := e3 (.left b)
            have a4 := e3 (.right b)
            grind
          rw [← hO, ← hE, ← e1, hG, mO, mE]
          cases db.isKind .group b <;> cases inDir db excl b <;> simp
    -- the links
    have n3c : ∀ b, s3.db.normal r.cmd b = true ↔ Declared r b := by
      intro b
      have a1 := mO b
      have a2 := mE b
      have a3 := hG b
      have a4 := kOut b
      have a5 := kExc b
      have a6 := kGrp b
      have a7 := newg
      have a8 := hlO b
      have a9 := hrO b
      have b1 := hlE b
      have b2 := hrE b
      have b3 := n1 r.cmd b
      have b4 := i2.new b
      have b5 := i3.new b
      have b6 := i2.self
      have b7 := i2.normal r.cmd b
      have b8 := i3.normal r.cmd b
      have b9 := hlO r.cmd
      have c1 := hrO r.cmd
      unfold Declared
      rw [b8, b7, b3]
      cases hk : db.isKind .group b <;> cases hd : inDir db excl b <;> by_cases hgr : G' = r.group <;> grind
    have n3o : ∀ a b, a ≠ r.cmd → (s3.db.normal a b = true ↔
        (db.normal a b = true ∧ ¬ (G' = some b ∧ a ∈ oldOutputs db excl r.cmd ∧ ¬ (r.group = some b ∧ a ∈ r.outputs))) ∨
          (r.group = some b ∧ a ∈ r.outputs ∧ ¬ (G' = some b ∧ a ∈ oldOutputs db excl r.cmd))) := by
      intro a b ha
      rw [i3.normal, i2.normal, n1, hsame]
      have a8 := hlO a
      have a9 := hrO a
      by_cases hgr : G' = r.group
      · rw [if_pos hgr]; grind
      · rw [if_neg hgr]; grind
    have m3 : ∀ j, s3.db.modify j = true ↔ db.modify j = true ∨
        (∃ g, GroupLeft db r g ∧ (j = g ∨ (j ≠ g ∧ ∃ i ∈ oldOutputs db excl r.cmd,
          (db.normal i j = true ∨ ((i ∈ r.outputs ∨ i = r.cmd) ∧ r.group = some j)) ∧
          (db.isKind .cmd j = true ∨ db.isKind .group j = true)))) := by
      intro j
      rw [i3.modify, i2.modify, m1]
      simp only [hleft]
      constructor
      · rintro (h | ⟨h, h' | ⟨h1, h2, h3⟩⟩)
        · exact .inl h
        · exact .inr ⟨j, ⟨h, h'⟩, .inl rfl⟩
        · obtain ⟨g, hg⟩ := Option.isSome_iff_exists.1 h1
          exact .inr ⟨g, ⟨h, hg⟩, .inr ⟨fun hj => h2 (by rw [hg, hj]), h3⟩⟩
      · rintro (h | ⟨g, ⟨h, hg⟩, rfl | ⟨h2, h3⟩⟩)
        · exact .inl h
        · exact .inr ⟨h, .inl hg⟩
        · refine .inr ⟨h, .inr ⟨by rw [hg]; rfl, ?_, h3⟩⟩
          rw [hg]
          simpa using fun h => h2 h.symm
    have g3 : ∀ j, s3.db.ghosts j = true ↔ db.ghosts j = true ∨ GroupLeft db r j ∨
        (db.normal r.cmd j = true ∧ db.isKind .ghost j = true ∧ ¬ Declared r j) := by
      intro j
      rw [i3.ghosts, i2.ghosts, g1, hleft, kg2, same1.kind, hlO, hlE, mO, mE]
      unfold Declared
      have a4 := kOut j
      have a5 := kExc j
      have a6 := kGrp j
      have a7 : db.isKind .ghost j = true → db.isKind .group j = false := by
        intro h
        obtain ⟨n, e1, e2⟩ := isKind_iff.1 h
        unfold Db.isKind
        rw [e1]
        simp [e2]
      cases hd : inDir db excl j <;> grind
    have e3 : SameBut db s3.db → s3.db.sticky = db.sticky ∧ s3.db.group = db.group ∧ s3.db.transient = db.transient ∧ s3.db.node = db.node := by
      intro h; rw [h]; exact ⟨rfl, rfl, rfl, rfl⟩
    obtain ⟨f1, f2, f3, f4⟩ := e3 same3
    by_cases hd : s3.differ = true
    · rw [if_pos hd, if_neg (by decide)] at h4
      cases h4
      have hch := hdiff.1 hd
      obtain ⟨k1, k2, k3, k4, k5, k6, k7⟩ := scheduleRule_spec r s3.db
      refine ⟨hG, same3.nodes.trans k1, k3.trans f1, k4.trans f2, fun b => by rw [k2]; exact n3c b, fun a b ha => by rw [k2]; exact n3o a b ha, ?_, ?_, ?_⟩
      · intro j
        rw [k6, m3]
        constructor
        · rintro ((h | ⟨g, h1, h2⟩) | h)
          · exact .inl h
          · rcases h2 with h2 | ⟨h2, i, h3, h4 | ⟨_, h4⟩, h5⟩
            · exact .inr (.inr ⟨g, h1, .inl h2⟩)
            · exact .inr (.inr ⟨g, h1, .inr ⟨h2, i, h3, h4, h5⟩⟩)
            · exact .inr (.inl ⟨hch, .inr h4⟩)
          · exact .inr (.inl ⟨hch, h⟩)
        · rintro (h | ⟨_, h⟩ | ⟨g, h1, h2⟩)
          · exact .inl (.inl h)
          · exact .inr h
          · rcases h2 with h2 | ⟨h2, i, h3, h4, h5⟩
            · exact .inl (.inr ⟨g, h1, .inl h2⟩)
            · exact .inl (.inr ⟨g, h1, .inr ⟨h2, i, h3, .inl h4, h5⟩⟩)
      · intro j
        rw [k7, f3, f4]
        simp only [hch, true_and]
      · intro j
        rw [k5]; exact g3 j
    · rw [if_neg hd] at h4
      cases h4
      have hch : ¬ OutputsChange db r := fun h => hd (hdiff.2 h)
      have hnl : ∀ g, ¬ GroupLeft db r g := by
        intro g hgl
        refine hch (.inr ⟨g, fun hx => ?_⟩)
        rcases hx.1 hgl.1 with hx | hx | hx
        · have := (kOut g hx).1; rw [hgl.2.1] at this; cases this
        · have := (kExc g hx).1; rw [hgl.2.1] at this; cases this
        · exact hgl.2.2 hx
      refine ⟨hG, same3.nodes, f1, f2, n3c, n3o, ?_, ?_, g3⟩
      · intro j
        rw [m3]
        simp [hnl, hch]
      · intro j
        rw [f3]
        simp [hch]

end Tup.Links
