import Verif.DoRule.Model
import Verif.Links.WriteTotal

/-! Changes of the tables that keep the stored rules in order. -/

namespace Tup.DoRule

open Tup.Db Tup.Links

variable {db db' : Db} {excl : Nat}

/-- Only the nodes in `X` change, nothing writes to these, and links of others stay as they are. -/
structure Change (db : Db) (excl : Nat) (X : Nat → Prop) (db' : Db) : Prop where
  kind : ∀ i, ¬ X i → ∀ k, db'.isKind k i = db.isKind k i
  inDir : ∀ i, ¬ X i → db.isKind .cmd i = false → inDir db' excl i = inDir db excl i
  normal : ∀ a b, ¬ X a → ¬ X b → db'.normal a b = db.normal a b
  normalX : ∀ a b, db'.normal a b = true → db.normal a b = true
  inX : ∀ a b, X b → db'.normal a b = false
  outX : ∀ a b, X a → db'.isKind .cmd a = true → db'.normal a b = false
  genX : ∀ a b, X a → db'.normal a b = true → db'.isKind .generated b = false
  sticky : ∀ a b, ¬ X a → ¬ X b → db'.sticky a b = db.sticky a b
  stickyX : ∀ a b, X a → db'.isKind .group a = true ∨ db'.isKind .ghost a = true → db'.sticky a b = false
  stickySub : ∀ a b, db'.sticky a b = true → db.sticky a b = true
  stickyIn : ∀ a b, X b → db'.isKind .cmd b = true → db'.sticky a b = false
  group : ∀ x y z, ¬ X x → ¬ X y → ¬ X z → db'.group x y z = db.group x y z
  groupX : ∀ x y z, X x ∨ X y ∨ X z → db'.group x y z = false

theorem Change.writes {X : Nat → Prop} (h : Change db excl X db') (ht : Tidy db excl) {c a : Nat} (hw : Writes db' excl c a) :
    ¬ X c ∧ ¬ X a ∧ Writes db excl c a := by
  obtain ⟨h1, h2, h3, h4⟩ := hw
  have hc : ¬ X c := fun hx => by rw [h.outX c a hx h1] at h2; cases h2
  have ha : ¬ X a := fun hx => by rw [h.inX c a hx] at h2; cases h2
  rw [h.kind c hc] at h1
  rw [h.kind a ha] at h3
  have h5 := h.normalX _ _ h2
  have h6 := ht.file c a h1 h5
  rw [h.inDir a ha h6] at h4
  exact ⟨hc, ha, h1, h5, h3, h4⟩

theorem tidy_change {X : Nat → Prop} (h : Change db excl X db') (ht : Tidy db excl) : Tidy db' excl := by
  refine ⟨fun c a h1 h2 => ?_, fun c c' a h1 h2 => ?_, fun c g g' h1 h2 h3 h4 h5 => ?_, fun c a g h1 h2 => ?_, fun x y z => ?_, fun y h1 h2 z => ?_,
    fun a b h1 h2 => ?_⟩
  · have hc : ¬ X c := fun hx => by rw [h.outX c a hx h1] at h2; cases h2
    have ha : ¬ X a := fun hx => by rw [h.inX c a hx] at h2; cases h2
    rw [h.kind c hc] at h1
    rw [h.kind a ha]
    exact ht.file c a h1 (h.normalX _ _ h2)
  · exact ht.owner c c' a (h.writes ht h1).2.2 (h.writes ht h2).2.2
  · have hc : ¬ X c := fun hx => by rw [h.outX c g hx h1] at h2; cases h2
    have hg : ¬ X g := fun hx => by rw [h.inX c g hx] at h2; cases h2
    have hg' : ¬ X g' := fun hx => by rw [h.inX c g' hx] at h3; cases h3
    rw [h.kind c hc] at h1
    rw [h.kind g hg] at h4
    rw [h.kind g' hg'] at h5
    exact ht.oneGroup c g g' h1 (h.normalX _ _ h2) (h.normalX _ _ h3) h4 h5
  · obtain ⟨hc, ha, hw⟩ := h.writes ht h1
    by_cases hg : X g
    · rw [h.inX a g hg, h.inX c g hg]
    · rw [h.kind g hg] at h2
      rw [h.normal a g ha hg, h.normal c g hc hg]
      exact ht.member c a g hw h2
  · by_cases hx : X x
    · rw [h.groupX x y z (.inl hx)]
      constructor
      · intro h; cases h
      · rintro ⟨_, h1, _, h2, _⟩
        rw [h.stickyX x z hx (.inl h2)] at h1; cases h1
    by_cases hy : X y
    · rw [h.groupX x y z (.inr (.inl hy))]
      constructor
      · intro h; cases h
      · rintro ⟨_, _, h1, _, _⟩
        rw [h.inX z y hy] at h1; cases h1
    by_cases hz : X z
    · rw [h.groupX x y z (.inr (.inr hz))]
      constructor
      · intro h; cases h
      · rintro ⟨h1, h2, _, _, _⟩
        rw [h.stickyIn x z hz h1] at h2; cases h2
    rw [h.group x y z hx hy hz, h.kind z hz, h.kind x hx, h.kind y hy, h.sticky x z hx hz, h.normal z y hz hy]
    exact ht.groups x y z
  · by_cases hy : X y
    · exact ⟨h.inX z y hy, h.stickyX y z hy (.inr h1)⟩
    · rw [h.kind y hy] at h1
      rw [h.inDir y hy (isKind_other h1 (by decide))] at h2
      have := ht.ghost y h1 h2
      constructor
      · rw [Bool.eq_false_iff]
        intro hn
        have := (this z).1
        rw [h.normalX _ _ hn] at this; cases this
      · rw [Bool.eq_false_iff]
        intro hn
        have := (this z).2
        rw [h.stickySub _ _ hn] at this; cases this
  · have hb : ¬ X b := fun hx => by rw [h.inX a b hx] at h2; cases h2
    have ha : ¬ X a := fun hx => by rw [h.genX a b hx h2] at h1; cases h1
    rw [h.kind b hb] at h1
    rw [h.kind a ha]
    exact ht.source a b h1 (h.normalX _ _ h2)

/-- Nothing about the links, and of the nodes neither types nor directories of files. -/
theorem tidy_nodes (hk : ∀ i k, db'.isKind k i = db.isKind k i) (hd : ∀ i, db.isKind .cmd i = false → inDir db' excl i = inDir db excl i)
    (h1 : db'.normal = db.normal) (h2 : db'.sticky = db.sticky) (h3 : db'.group = db.group) (ht : Tidy db excl) : Tidy db' excl :=
  tidy_change (X := fun _ => False)
    ⟨fun i _ => hk i, fun i _ => hd i, fun a b _ _ => by rw [h1], fun a b => by rw [h1]; exact id, fun _ _ h => h.elim, fun _ _ h => h.elim,
      fun _ _ h => h.elim, fun a b _ _ => by rw [h2], fun _ _ h => h.elim, fun a b => by rw [h2]; exact id, fun _ _ h => h.elim, fun x y z _ _ _ => by rw [h3],
      fun x y z h => by rcases h with h | h | h <;> exact h.elim⟩ ht

/-- Where a node without a row has no links. -/
theorem group_nodes (ht : Tidy db excl) {x y z : Nat} (h : db.group x y z = true) :
    db.isKind .group x = true ∧ db.isKind .group y = true ∧ db.isKind .cmd z = true :=
  let h := (ht.groups x y z).1 h
  ⟨h.2.2.2.1, h.2.2.2.2, h.1⟩

theorem isKind_none {i : Nat} (h : db.node i = none) (k : Kind) : db.isKind k i = false := by
  unfold Db.isKind
  rw [h]

theorem isKind_some {i : Nat} {n : Node} (h : db.node i = some n) (k : Kind) : db.isKind k i = decide (n.kind = k) := by
  unfold Db.isKind
  rw [h]

theorem inDir_some {i : Nat} {n : Node} (h : db.node i = some n) (d : Nat) : Links.inDir db d i = decide (n.dir = d) := by
  unfold Links.inDir
  rw [h]

theorem inDir_congr {i : Nat} (h : db'.node i = db.node i) (d : Nat) : Links.inDir db' d i = Links.inDir db d i := by
  unfold Links.inDir
  rw [h]

theorem sound_bounded (hs : Sound db) : Bounded db := by
  intro i hi
  cases h : db.node i with
  | none => rfl
  | some n => have := hs.node i n h; omega

theorem fresh_pos (node : Nat → Option Node) (n : Nat) : 0 < fresh node n := by
  fun_induction fresh node n <;> omega

/-- A new node. -/
theorem sound_insert (hs : Sound db) (n : Node) : Sound (db.insertNode n).1 := by
  have hf := fresh_node (sound_bounded hs)
  have hp := fresh_pos db.node db.top
  have hn : ∀ i, (db.node i).isSome → ((db.insertNode n).1.node i).isSome := by
    intro i hi
    show ((if i = _ then some n else db.node i)).isSome
    split
    · rfl
    · exact hi
  refine ⟨fun a m h => ?_, fun a b h => ?_, fun a b h => ?_⟩
  · have h : (if a = fresh db.node db.top then some n else db.node a) = some m := h
    show 0 < a ∧ a < max db.top (fresh db.node db.top + 1)
    split at h
    · omega
    · have := hs.node a m h
      omega
  · have := hs.normal a b h
    exact ⟨hn a this.1, hn b this.2⟩
  · have := hs.sticky a b h
    exact ⟨hn a this.1, hn b this.2⟩

theorem insert_node (n : Node) (i : Nat) : (db.insertNode n).1.node i = if i = (db.insertNode n).2 then some n else db.node i := rfl

theorem insert_fresh (hs : Sound db) (n : Node) : db.node (db.insertNode n).2 = none := fresh_node (sound_bounded hs)

theorem insert_change (hs : Sound db) (ht : Tidy db excl) (n : Node) :
    Change db excl (fun i => i = (db.insertNode n).2) (db.insertNode n).1 := by
  have hf := insert_fresh hs n
  have hno : ∀ i, i ≠ (db.insertNode n).2 → (db.insertNode n).1.node i = db.node i := fun i hi => by rw [insert_node, if_neg hi]
  have hn1 : ∀ a, db.normal (db.insertNode n).2 a = false := by
    intro a
    rw [Bool.eq_false_iff]
    intro h
    have := (hs.normal _ _ h).1
    rw [hf] at this; cases this
  have hn2 : ∀ a, db.normal a (db.insertNode n).2 = false := by
    intro a
    rw [Bool.eq_false_iff]
    intro h
    have := (hs.normal _ _ h).2
    rw [hf] at this; cases this
  have hs1 : ∀ a, db.sticky (db.insertNode n).2 a = false := by
    intro a
    rw [Bool.eq_false_iff]
    intro h
    have := (hs.sticky _ _ h).1
    rw [hf] at this; cases this
  have hs2 : ∀ a, db.sticky a (db.insertNode n).2 = false := by
    intro a
    rw [Bool.eq_false_iff]
    intro h
    have := (hs.sticky _ _ h).2
    rw [hf] at this; cases this
  refine ⟨fun i hi k => isKind_congr (hno i hi) k, fun i hi _ => inDir_congr (hno i hi) _, fun _ _ _ _ => rfl, fun _ _ h => h, fun a b hb => ?_,
    fun a b ha _ => ?_, fun a b ha h => ?_, fun _ _ _ _ => rfl, fun a b ha _ => ?_, fun _ _ h => h, fun a b hb _ => ?_, fun _ _ _ _ _ _ => rfl, fun x y z h => ?_⟩
  · subst hb; exact hn2 a
  · subst ha; exact hn1 b
  · subst ha
    have h : db.normal _ _ = true := h
    rw [hn1] at h; cases h
  · subst ha; exact hs1 b
  · subst hb; exact hs2 a
  · show db.group x y z = false
    rw [Bool.eq_false_iff]
    intro hg
    obtain ⟨h1, h2, h3⟩ := group_nodes ht hg
    rcases h with rfl | rfl | rfl
    · rw [isKind_none hf] at h1; cases h1
    · rw [isKind_none hf] at h2; cases h2
    · rw [isKind_none hf] at h3; cases h3


/-- What deleting the links does to the tables. -/
theorem deleteLinks_spec (db : Db) (i : Nat) :
    (∀ a b, (db.deleteLinks i).normal a b = (db.normal a b && !decide (a = i) && !decide (b = i))) ∧
    (∀ a b, (db.deleteLinks i).sticky a b = (db.sticky a b && !decide (a = i) && !decide (b = i))) ∧
    (∀ a b c, (db.deleteLinks i).group a b c = (db.group a b c && !decide (c = i))) ∧ (db.deleteLinks i).node = db.node ∧
    (db.deleteLinks i).top = db.top := by
  unfold Db.deleteLinks Db.flagGroupUsers
  split <;> exact ⟨fun _ _ => rfl, fun _ _ => rfl, fun _ _ _ => rfl, rfl, rfl⟩

/-- The links of a node go away; the node is no group with links. -/
theorem cut_change (ht : Tidy db excl) {i : Nat} (hno : ∀ j, j ≠ i → db'.node j = db.node j)
    (hg : db.isKind .group i = false ∨ ∀ j, db.normal j i = false ∧ db.sticky i j = false)
    (h1 : ∀ a b, db'.normal a b = (db.normal a b && !decide (a = i) && !decide (b = i)))
    (h2 : ∀ a b, db'.sticky a b = (db.sticky a b && !decide (a = i) && !decide (b = i)))
    (h3 : ∀ a b c, db'.group a b c = (db.group a b c && !decide (c = i))) : Change db excl (fun j => j = i) db' := by
  refine ⟨fun j hj k => isKind_congr (hno j hj) k, fun j hj _ => inDir_congr (hno j hj) _, fun a b ha hb => ?_, fun a b h => ?_, fun a b hb => ?_,
    fun a b ha _ => ?_, fun a b ha h => ?_, fun a b ha hb => ?_, fun a b ha _ => ?_, fun a b h => ?_, fun a b hb _ => ?_, fun x y z hx hy hz => ?_,
    fun x y z h => ?_⟩
  · simp [h1, ha, hb]
  · simp [h1] at h; exact h.1.1
  · simp [h1, hb]
  · simp [h1, ha]
  · simp [h1, ha] at h
  · simp [h2, ha, hb]
  · simp [h2, ha]
  · simp [h2] at h; exact h.1.1
  · simp [h2, hb]
  · simp [h3, hz]
  · rw [Bool.eq_false_iff]
    intro hq
    rw [h3] at hq
    simp only [Bool.and_eq_true, Bool.not_eq_true', decide_eq_false_iff_not] at hq
    have hk := (ht.groups x y z).1 hq.1
    rcases h with rfl | rfl | rfl
    · rcases hg with hg | hg
      · rw [hg] at hk; cases hk.2.2.2.1
      · have := (hg z).2
        rw [hk.2.1] at this; cases this
    · rcases hg with hg | hg
      · rw [hg] at hk; cases hk.2.2.2.2
      · have := (hg z).1
        rw [hk.2.2.1] at this; cases this
    · exact hq.2 rfl

/-- Rows of nodes stay, though with other content. -/
theorem sound_keep (hs : Sound db) (ht : db'.top = db.top) (hn : ∀ j, (db'.node j).isSome = (db.node j).isSome)
    (h1 : ∀ a b, db'.normal a b = true → db.normal a b = true) (h2 : ∀ a b, db'.sticky a b = true → db.sticky a b = true) : Sound db' := by
  refine ⟨fun a n h => ?_, fun a b h => ?_, fun a b h => ?_⟩
  · have : (db.node a).isSome := by rw [← hn, h]; rfl
    rw [ht]
    obtain ⟨m, hm⟩ := Option.isSome_iff_exists.1 this
    exact hs.node a m hm
  · rw [hn, hn]; exact hs.normal a b (h1 a b h)
  · rw [hn, hn]; exact hs.sticky a b (h2 a b h)

theorem setKind_node (db : Db) (i : Nat) (k : Kind) (j : Nat) :
    (db.setKind i k).node j = if j = i then (db.node j).map fun n => { n with kind := k } else db.node j := rfl

theorem setSrc_node (db : Db) (i : Nat) (s : Option Nat) (j : Nat) :
    (db.setSrc i s).node j = if j = i then (db.node j).map fun n => { n with src := s } else db.node j := rfl

/-- A ghost becomes a generated file. -/
theorem upgrade_generated {i : Nat} {n : Node} (hi : db.node i = some n) (src : Option Nat) :
    let db' := upgradeGhost db i .generated src
    (∀ a b, db'.normal a b = (db.normal a b && !decide (a = i) && !decide (b = i))) ∧
    (∀ a b, db'.sticky a b = (db.sticky a b && !decide (a = i) && !decide (b = i))) ∧
    (∀ a b c, db'.group a b c = (db.group a b c && !decide (c = i))) ∧
    (∀ j, j ≠ i → db'.node j = db.node j) ∧ db'.node i = some { n with kind := .generated, src := src } ∧ db'.top = db.top := by
  intro db'
  obtain ⟨h1, h2, h3, h4, h5⟩ := deleteLinks_spec ((db.createByInput i).modifyByInput i) i
  have e : db' = ((((((db.createByInput i).modifyByInput i).deleteLinks i).addModify i).setKind i .generated).setSrc i src) := rfl
  rw [e]
  refine ⟨h1, h2, h3, fun j hj => ?_, ?_, h5⟩
  · rw [setSrc_node, if_neg hj, setKind_node, if_neg hj]
    exact congrFun h4 j
  · rw [setSrc_node, if_pos rfl, setKind_node, if_pos rfl]
    show Option.map _ (Option.map _ ((Db.deleteLinks ((db.createByInput i).modifyByInput i) i).node i)) = _
    rw [h4]
    show Option.map _ (Option.map _ (db.node i)) = _
    rw [hi]
    rfl

theorem keep_isSome {i : Nat} {n m : Node} (h1 : db.node i = some n) (h2 : db'.node i = some m) (h3 : ∀ j, j ≠ i → db'.node j = db.node j) (j : Nat) :
    (db'.node j).isSome = (db.node j).isSome := by
  by_cases hj : j = i
  · subst hj; rw [h1, h2]; rfl
  · rw [h3 j hj]


/-- Rows keep their names. -/
theorem unique_sub (hu : Unique db) (h : ∀ i m, db'.node i = some m → ∃ n, db.node i = some n ∧ n.dir = m.dir ∧ n.name = m.name) : Unique db' := by
  intro i j n m hi hj hd hn
  obtain ⟨n', e1, e2, e3⟩ := h i n hi
  obtain ⟨m', f1, f2, f3⟩ := h j m hj
  exact hu i j n' m' e1 f1 (by rw [e2, f2, hd]) (by rw [e3, f3, hn])

/-- One row has a name that no other row has. -/
theorem unique_new (hs : Sound db) (hu : Unique db) {i : Nat} {m : Node} (hi : db'.node i = some m) (ho : ∀ j, j ≠ i → db'.node j = db.node j)
    (hsel : db.select m.dir m.name = none) : Unique db' := by
  have key : ∀ j n, j ≠ i → db.node j = some n → ¬ (n.dir = m.dir ∧ n.name = m.name) := fun j n _ hj h =>
    select_none (sound_bounded hs) hsel hj h.1 h.2
  intro a b n n' ha hb hd hn
  by_cases h1 : a = i <;> by_cases h2 : b = i
  · rw [h1, h2]
  · subst h1
    rw [hi] at ha
    cases ha
    rw [ho b h2] at hb
    exact absurd ⟨hd.symm, hn.symm⟩ (key b n' h2 hb)
  · subst h2
    rw [hi] at hb
    cases hb
    rw [ho a h1] at ha
    exact absurd ⟨hd, hn⟩ (key a n h1 ha)
  · rw [ho a h1] at ha
    rw [ho b h2] at hb
    exact hu a b n n' ha hb hd hn

end Tup.DoRule
