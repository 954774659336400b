import Verif.DoRule.Change

/-! The node that a rule declares. -/

namespace Tup.DoRule

open Tup.Db Tup.Links

variable {db db' : Db} {excl : Nat}

/-- The node of that type in directory `d` is there now. -/
structure Made (db : Db) (excl d : Nat) (name : Str) (kind : Kind) (src : Option Nat) (db' : Db) (i : Nat) : Prop where
  sound : Sound db'
  tidy : Tidy db' excl
  node : ∃ n, db'.node i = some n ∧ n.kind = kind ∧ n.dir = d ∧ n.name = name ∧ (src ≠ none → n.src = src)
  other : ∀ j, j ≠ i → db'.node j = db.node j
  self : ∀ n, db.node i = some n → n.dir = d ∧ n.name = name ∧ (n.kind = .ghost ∨ n.kind = kind)
  normal : ∀ a b, db'.normal a b = true → db.normal a b = true
  links : ∀ a b, db.isKind .ghost a = false → db.isKind .ghost b = false → db'.normal a b = db.normal a b
  unique : Unique db → Unique db'
  top : db.top ≤ db'.top

/-- An output that was accepted does not have to be deleted first. -/
theorem createFile_eq {p : Parse} {d : Nat} {name : Str} {src : Option Nat} {trans : Bool} (h : validate p db d name = true) :
    createFile db d name src trans = create db d name .generated src trans := by
  unfold validate at h
  unfold createFile create createNode
  split at h
  · rename_i hs
    simp only [hs]
  · rename_i i hs
    split at h
    · cases h
    · rename_i n hn
      split at h
      · rename_i hk
        simp only [hs, hn]
        rcases hk with hk | hk
        · rw [if_pos hk, if_pos hk]
        · have hc : ¬ (n.kind ≠ .generated ∧ ¬ (n.kind = .generatedDir ∧ Kind.generated = .dir)) := fun hc => hc.1 hk
          rw [if_neg hc, if_neg hc]
      · cases h

theorem addFile_eq (p : Parse) (r : Spec) (s : Outs) (d : Nat) (path : Str) (src : Option Nat) :
    addFile p r s d path src =
      if inSource r s.db path src then none
      else if fullPath r.variant path ∈ reserved then none
      else if !validate p s.db d (base path) then none
      else
        match create s.db d (base path) .generated (some r.dir) r.transient with
        | none => none
        | some (db, i) =>
          if i ∈ s.outputs then none
          else some { s with db := db, outputs := s.outputs ++ [i], modified := s.modified || isNew s.db d (base path) } := by
  unfold addFile
  cases hv : validate p s.db d (base path) with
  | false => rfl
  | true => rw [createFile_eq hv]; rfl

theorem create_cases {d : Nat} {name : Str} {kind : Kind} {src : Option Nat} {trans : Bool} {i : Nat} (hk : kind ≠ .dir)
    (h : create db d name kind src trans = some (db', i)) :
    (db.select d name = none ∧
      db.insertNode { dir := d, kind := kind, name := name, src := src, transient := trans } = (db', i)) ∨
    (db.select d name = some i ∧ db.isKind .ghost i = true ∧ db' = upgradeGhost db i kind src) ∨
    (db.select d name = some i ∧ db.isKind kind i = true ∧ kind ≠ .ghost ∧
      db' = setTransient (match (generalizing := false) src with | some s => db.setSrc i (some s) | none => db) i trans) := by
  unfold create createNode at h
  cases hsel : db.select d name with
  | none =>
    simp only [hsel, hk, if_false] at h
    exact .inl ⟨rfl, by cases h; rfl⟩
  | some j =>
    simp only [hsel] at h
    cases hn : db.node j with
    | none => simp only [hn] at h; cases h
    | some n =>
      simp only [hn] at h
      split at h
      · rename_i hg
        cases h
        exact .inr (.inl ⟨rfl, isKind_iff.2 ⟨n, hn, hg⟩, rfl⟩)
      · rename_i hg
        split at h
        · simp [Scan.del] at h
        · rename_i hkk
          have : n.kind = kind := Classical.not_not.1 fun hc => hkk ⟨hc, fun h => hk h.2⟩
          cases h
          refine .inr (.inr ⟨rfl, isKind_iff.2 ⟨n, hn, this⟩, fun h => hg (this.trans h), rfl⟩)

theorem made_insert (hs : Sound db) (ht : Tidy db excl) (n : Node) (hsel : db.select n.dir n.name = none) :
    Made db excl n.dir n.name n.kind n.src (db.insertNode n).1 (db.insertNode n).2 := by
  refine ⟨sound_insert hs n, tidy_change (insert_change hs ht n) ht, ⟨n, by rw [insert_node, if_pos rfl], rfl, rfl, rfl, fun _ => rfl⟩,
    fun j hj => by rw [insert_node, if_neg hj], fun m hm => ?_, fun _ _ h => h, fun _ _ _ _ => rfl,
    fun hu => unique_new hs hu (i := (db.insertNode n).2) (by rw [insert_node, if_pos rfl]) (fun j hj => by rw [insert_node, if_neg hj]) hsel, ?_⟩
  · rw [insert_fresh hs n] at hm; cases hm
  · show db.top ≤ max db.top _
    omega

theorem setTransient_node (db : Db) (i : Nat) (t : Bool) (j : Nat) :
    (setTransient db i t).node j = if j = i then (db.node j).map fun n => { n with transient := t } else db.node j := rfl

/-- The rows keep type and directory, and the links stay. -/
theorem made_same {d : Nat} {name : Str} {kind : Kind} {src : Option Nat} {i : Nat} {n m : Node} (hs : Sound db) (ht : Tidy db excl)
    (hn : db.node i = some n) (hd : n.dir = d) (hna : n.name = name) (hk : n.kind = kind) (hm : db'.node i = some m) (hd' : m.dir = d) (hna' : m.name = name) (hk' : m.kind = kind)
    (hsrc : src ≠ none → m.src = src) (ho : ∀ j, j ≠ i → db'.node j = db.node j) (h1 : db'.normal = db.normal) (h2 : db'.sticky = db.sticky)
    (h3 : db'.group = db.group) (h4 : db'.top = db.top) : Made db excl d name kind src db' i := by
  refine ⟨sound_keep hs h4 (keep_isSome hn hm ho) (fun a b => by rw [h1]; exact id) (fun a b => by rw [h2]; exact id), ?_,
    ⟨m, hm, hk', hd', hna', hsrc⟩, ho, fun n' hn' => ?_, fun a b => by rw [h1]; exact id, fun a b _ _ => by rw [h1],
    fun hu => unique_sub hu fun j q hq => ?_, by omega⟩
  · refine tidy_nodes (fun j k => ?_) (fun j _ => ?_) h1 h2 h3 ht
    · by_cases hj : j = i
      · subst hj
        rw [isKind_some hn, isKind_some hm, hk, hk']
      · exact isKind_congr (ho j hj) k
    · by_cases hj : j = i
      · subst hj
        rw [inDir_some hn, inDir_some hm, hd, hd']
      · exact inDir_congr (ho j hj) _
  · rw [hn] at hn'
    cases hn'
    exact ⟨hd, hna, .inr hk⟩
  · by_cases hj : j = i
    · subst hj
      rw [hm] at hq
      cases hq
      exact ⟨n, hn, hd.trans hd'.symm, hna.trans hna'.symm⟩
    · rw [ho j hj] at hq
      exact ⟨q, hq, rfl, rfl⟩

theorem made_keep {d : Nat} {name : Str} {kind : Kind} {src : Option Nat} {trans : Bool} {i : Nat} {n : Node} (hs : Sound db) (ht : Tidy db excl)
    (hn : db.node i = some n) (hd : n.dir = d) (hna : n.name = name) (hk : n.kind = kind) :
    Made db excl d name kind src (setTransient (match (generalizing := false) src with | some s => db.setSrc i (some s) | none => db) i trans) i := by
  cases src with
  | none =>
    refine made_same (m := { n with transient := trans }) hs ht hn hd hna hk ?_ hd hna hk (fun h => absurd rfl h) (fun j hj => ?_) rfl rfl rfl rfl
    · rw [setTransient_node, if_pos rfl, hn]; rfl
    · rw [setTransient_node, if_neg hj]
  | some s =>
    refine made_same (m := { n with transient := trans, src := some s }) hs ht hn hd hna hk ?_ hd hna hk (fun _ => rfl) (fun j hj => ?_) rfl rfl rfl rfl
    · rw [setTransient_node, if_pos rfl, setSrc_node, if_pos rfl, hn]; rfl
    · rw [setTransient_node, if_neg hj, setSrc_node, if_neg hj]

theorem made_generated {src : Option Nat} {i : Nat} {n : Node} (hs : Sound db) (ht : Tidy db excl) (hn : db.node i = some n)
    (hg : n.kind = .ghost) : Made db excl n.dir n.name .generated src (upgradeGhost db i .generated src) i := by
  obtain ⟨h1, h2, h3, h4, h5, h6⟩ := upgrade_generated hn src
  refine ⟨sound_keep hs h6 (keep_isSome hn h5 h4) (fun a b h => ?_) (fun a b h => ?_), tidy_change (cut_change ht h4 (.inl ?_) h1 h2 h3) ht,
    ⟨_, h5, rfl, rfl, rfl, fun _ => rfl⟩, h4, fun m hm => ?_, fun a b h => ?_, fun a b ha hb => ?_,
    fun hu => unique_sub hu fun j q hq => ?_, by omega⟩
  · rw [h1] at h; simp at h; exact h.1.1
  · rw [h2] at h; simp at h; exact h.1.1
  · rw [isKind_some hn, hg]; rfl
  · rw [hn] at hm; cases hm
    exact ⟨rfl, rfl, .inl hg⟩
  · rw [h1] at h; simp at h; exact h.1.1
  · have hi : db.isKind .ghost i = true := isKind_iff.2 ⟨n, hn, hg⟩
    have hai : a ≠ i := by rintro rfl; rw [hi] at ha; cases ha
    have hbi : b ≠ i := by rintro rfl; rw [hi] at hb; cases hb
    rw [h1]
    simp [hai, hbi]
  · by_cases hj : j = i
    · subst hj
      rw [h5] at hq
      cases hq
      exact ⟨n, hn, rfl, rfl⟩
    · rw [h4 j hj] at hq
      exact ⟨q, hq, rfl, rfl⟩

/-- A ghost becomes a group, a file, or a directory. -/
theorem made_upgrade {kind : Kind} {src : Option Nat} {i : Nat} {n : Node} (hk : kind = .group ∨ kind = .file ∨ kind = .dir) (hs : Sound db) (ht : Tidy db excl) (hn : db.node i = some n)
    (hg : n.kind = .ghost) (hd : n.dir ≠ excl) : Made db excl n.dir n.name kind src (upgradeGhost db i kind src) i := by
  have hu : upgradeGhost db i kind src = ((db.addModify i).setKind i kind).setSrc i src := by rcases hk with rfl | rfl | rfl <;> rfl
  have hkc : kind ≠ .cmd := by rcases hk with rfl | rfl | rfl <;> decide
  rw [hu]
  have hno : ∀ j, j ≠ i → (((db.addModify i).setKind i kind).setSrc i src).node j = db.node j := fun j hj => by
    show (((db.addModify i).setKind i kind).setSrc i src).node j = _
    rw [setSrc_node, if_neg hj, setKind_node, if_neg hj]
    rfl
  have hni : (((db.addModify i).setKind i kind).setSrc i src).node i = some { n with kind := kind, src := src } := by
    show (((db.addModify i).setKind i kind).setSrc i src).node i = _
    rw [setSrc_node, if_pos rfl, setKind_node, if_pos rfl]
    show Option.map _ (Option.map _ (db.node i)) = _
    rw [hn]
    rfl
  have hgk : db.isKind .ghost i = true := isKind_iff.2 ⟨n, hn, hg⟩
  have hfree := ht.ghost i hgk (by rw [inDir_some hn]; exact decide_eq_false hd)
  have hng : db.isKind .group i = false := isKind_other hgk (by decide)
  refine ⟨sound_keep hs rfl (keep_isSome hn hni hno) (fun _ _ h => h) (fun _ _ h => h), tidy_change (X := fun j => j = i) ?_ ht,
    ⟨_, hni, rfl, rfl, rfl, fun _ => rfl⟩, hno, fun m hm => ?_, fun _ _ h => h, fun _ _ _ _ => rfl,
    fun hu => unique_sub hu fun j q hq => ?_, Nat.le_refl _⟩
  · refine ⟨fun j hj k => isKind_congr (hno j hj) k, fun j hj _ => inDir_congr (hno j hj) _, fun _ _ _ _ => rfl, fun _ _ h => h, fun a b hb => ?_,
      fun a b ha h => ?_, fun a b ha h => ?_, fun _ _ _ _ => rfl, fun a b ha _ => ?_, fun _ _ h => h, fun a b hb h => ?_, fun _ _ _ _ _ _ => rfl,
      fun x y z h => ?_⟩
    · subst hb; exact (hfree a).1
    · subst ha
      rw [isKind_some hni] at h
      exact absurd (of_decide_eq_true h) hkc
    · subst ha
      have h : db.normal a b = true := h
      rw [Bool.eq_false_iff]
      intro hgen
      by_cases hb : b = a
      · subst hb
        have := (hfree b).1
        rw [h] at this; cases this
      · rw [isKind_congr (hno b hb)] at hgen
        exact isKind_ne hgk (ht.source a b hgen h) (by decide)
    · subst ha; exact (hfree b).2
    · subst hb
      rw [isKind_some hni] at h
      exact absurd (of_decide_eq_true h) hkc
    · show db.group x y z = false
      rw [Bool.eq_false_iff]
      intro hq
      obtain ⟨k1, k2, k3⟩ := group_nodes ht hq
      rcases h with rfl | rfl | rfl
      · rw [hng] at k1; cases k1
      · rw [hng] at k2; cases k2
      · exact isKind_ne hgk k3 (by decide)
  · rw [hn] at hm; cases hm
    exact ⟨rfl, rfl, .inl hg⟩
  · by_cases hj : j = i
    · subst hj
      rw [hni] at hq
      cases hq
      exact ⟨n, hn, rfl, rfl⟩
    · rw [hno j hj] at hq
      exact ⟨q, hq, rfl, rfl⟩

/-- All of it. -/
theorem create_made {d : Nat} {name : Str} {kind : Kind} {src : Option Nat} {trans : Bool} {i : Nat}
    (hk : (kind = .generated ∨ kind = .group) ∧ d ≠ excl ∨ kind = .ghost ∧ src = none) (hs : Sound db) (ht : Tidy db excl)
    (h : create db d name kind src trans = some (db', i)) : Made db excl d name kind src db' i := by
  have hkd : kind ≠ .dir := by rintro rfl; rcases hk with ⟨h | h, _⟩ | ⟨h, _⟩ <;> cases h
  rcases create_cases hkd h with ⟨hsel, h⟩ | ⟨hsel, hg, rfl⟩ | ⟨hsel, hkk, hng, rfl⟩
  · have := made_insert (excl := excl) hs ht { dir := d, kind := kind, name := name, src := src, transient := trans } hsel
    rw [h] at this
    exact this
  · obtain ⟨n, hn, hnd, hnn⟩ := select_some hsel
    rw [isKind_some hn] at hg
    simp only [decide_eq_true_eq] at hg
    subst hnd hnn
    rcases hk with ⟨rfl | rfl, hde⟩ | ⟨rfl, rfl⟩
    · exact made_generated hs ht hn hg
    · exact made_upgrade (.inl rfl) hs ht hn hg hde
    · exact made_same hs ht hn rfl rfl hg hn rfl rfl hg (fun h => absurd rfl h) (fun _ _ => rfl) rfl rfl rfl rfl
  · obtain ⟨n, hn, hnd, hnn⟩ := select_some hsel
    rw [isKind_some hn] at hkk
    simp only [decide_eq_true_eq] at hkk
    exact made_keep hs ht hn hnd hnn hkk

end Tup.DoRule
