import Verif.DoRule.Steps

/-! The command of a rule, and the links that other commands have to its outputs. -/

namespace Tup.DoRule

open Tup.Db Tup.Links

variable {db db' : Db} {excl : Nat}

theorem incoming_none (hs : Sound db) {b : Nat} (h : incoming db b = some none) (x : Nat) : db.normal x b = false := by
  unfold incoming at h
  split at h
  · rename_i hl
    rw [Bool.eq_false_iff]
    intro hx
    have : x ∈ normalInputs db b := by
      unfold normalInputs
      rw [List.mem_filter, List.mem_range]
      obtain ⟨n, hn⟩ := Option.isSome_iff_exists.1 (hs.normal x b hx).1
      exact ⟨(hs.node x n hn).2, hx⟩
    rw [hl] at this
    cases this
  · cases h
  · cases h

theorem incoming_some (hs : Sound db) {b c : Nat} (h : incoming db b = some (some c)) (x : Nat) : db.normal x b = true ↔ x = c := by
  unfold incoming at h
  split at h
  · cases h
  · rename_i c' hl
    cases h
    have hm : x ∈ normalInputs db b ↔ db.normal x b = true := by
      unfold normalInputs
      rw [List.mem_filter, List.mem_range]
      refine ⟨fun h => h.2, fun hx => ⟨?_, hx⟩⟩
      obtain ⟨n, hn⟩ := Option.isSome_iff_exists.1 (hs.normal x b hx).1
      exact (hs.node x n hn).2
    rw [← hm, hl]
    simp
  · cases h

theorem outputGroup_spec (hs : Sound db) {c : Nat} {g : Option Nat} (h : outputGroup db c = some g) (x : Nat) :
    db.normal c x = true ∧ db.isKind .group x = true ↔ g = some x := by
  rw [← mem_oldGroups hs]
  unfold outputGroup at h
  split at h
  · rename_i hl; cases h; rw [hl]; simp
  · rename_i y hl; cases h; rw [hl]; simp; exact eq_comm
  · cases h

theorem leave_spec (db : Db) (b : Nat) (g : Option Nat) :
    (∀ x y, (leave db b g).normal x y = true ↔ db.normal x y = true ∧ ¬ (x = b ∧ g = some y)) ∧ (leave db b g).sticky = db.sticky ∧
    (leave db b g).group = db.group ∧ (leave db b g).node = db.node ∧ (leave db b g).top = db.top := by
  cases g with
  | none => refine ⟨fun x y => ?_, rfl, rfl, rfl, rfl⟩; simp [leave]
  | some g =>
    refine ⟨fun x y => ?_, rfl, rfl, rfl, rfl⟩
    show (db.normal x y && !(decide (x = b) && decide (y = g))) = true ↔ _
    have : (g = y) ↔ (y = g) := eq_comm
    simp only [Bool.and_eq_true, Bool.not_eq_true', Bool.and_eq_false_iff, decide_eq_false_iff_not, Option.some.injEq, this]
    by_cases h1 : x = b <;> by_cases h2 : y = g <;> simp [h1, h2]

/-- Nobody else writes the file, and if its command is new it is in no group. -/
def Taken (db : Db) (c b : Nat) : Prop :=
  (∀ x, db.normal x b = true → x = c) ∧ (db.normal c b = false → ∀ g, db.isKind .group g = true → db.normal b g = false)

/-- What is left when others' links to `b` are removed. -/
structure Cut (db : Db) (excl b : Nat) (db' : Db) : Prop where
  sound : Sound db'
  tidy : Tidy db' excl
  node : db'.node = db.node
  top : db'.top = db.top
  normal : ∀ x y, db'.normal x y = true → db.normal x y = true
  other : ∀ x y, x ≠ b → y ≠ b → db'.normal x y = db.normal x y

theorem cut_of (hs : Sound db) (ht : Tidy db excl) {b : Nat} (hb : db.isKind .generated b = true) (hno : db'.node = db.node) (hto : db'.top = db.top)
    (hst : db'.sticky = db.sticky) (hgr : db'.group = db.group) (hn : ∀ x y, db'.normal x y = true → db.normal x y = true)
    (hin : ∀ x, db'.normal x b = false) (ho : ∀ x y, x ≠ b → y ≠ b → db'.normal x y = db.normal x y) : Cut db excl b db' := by
  have hk : ∀ i k, db'.isKind k i = db.isKind k i := fun i k => isKind_congr (congrFun hno i) k
  refine ⟨sound_keep hs hto (fun j => by rw [hno]) hn (fun a c h => by rw [hst] at h; exact h), tidy_change (X := fun j => j = b) ?_ ht, hno, hto, hn, ho⟩
  refine ⟨fun i _ k => hk i k, fun i _ _ => inDir_congr (congrFun hno i) _, fun x y hx hy => ho x y hx hy, hn, fun x y hy => hy ▸ hin x,
    fun x y hx h => ?_, fun x y hx h => ?_, fun x y _ _ => by rw [hst], fun x y hx h => ?_, fun x y h => by rw [hst] at h; exact h, fun x y hy h => ?_,
    fun x y z _ _ _ => by rw [hgr], fun x y z h => ?_⟩
  · subst hx
    rw [hk] at h
    exact (isKind_ne hb h (by decide)).elim
  · subst hx
    rw [hk, Bool.eq_false_iff]
    intro hg
    exact isKind_ne hb (ht.source _ _ hg (hn _ _ h)) (by decide)
  · subst hx
    rw [hk, hk] at h
    rcases h with h | h
    · exact (isKind_ne hb h (by decide)).elim
    · exact (isKind_ne hb h (by decide)).elim
  · subst hy
    rw [hk] at h
    exact (isKind_ne hb h (by decide)).elim
  · rw [hgr, Bool.eq_false_iff]
    intro hq
    obtain ⟨k1, k2, k3⟩ := group_nodes ht hq
    rcases h with rfl | rfl | rfl
    · exact isKind_ne hb k1 (by decide)
    · exact isKind_ne hb k2 (by decide)
    · exact isKind_ne hb k3 (by decide)

theorem uniqueLink_spec (hs : Sound db) (ht : Tidy db excl) {c b : Nat} (hb : db.isKind .generated b = true) (hd : inDir db excl b = false)
    (h : uniqueLink db c b = some db') : Cut db excl b db' ∧ Taken db' c b := by
  have hnotg : db.isKind .group b = false := isKind_other hb (by decide)
  unfold uniqueLink at h
  split at h
  · cases h
  · rename_i hi
    have hi := incoming_none hs hi
    rw [Option.map_eq_some_iff] at h
    obtain ⟨g, hg, rfl⟩ := h
    have hg := outputGroup_spec hs hg
    obtain ⟨l1, l2, l3, l4, l5⟩ := leave_spec db b g
    have hin : ∀ x, (leave db b g).normal x b = false := by
      intro x
      rw [Bool.eq_false_iff]
      intro hx
      have := hi x
      rw [((l1 x b).1 hx).1] at this; cases this
    refine ⟨cut_of hs ht hb l4 l5 l2 l3 (fun x y h => ((l1 x y).1 h).1) hin (fun x y hx hy => ?_), fun x hx => ?_, fun _ g' hg' => ?_⟩
    · rw [Bool.eq_iff_iff, l1]
      exact ⟨fun h => h.1, fun h => ⟨h, fun h => hx h.1⟩⟩
    · rw [hin x] at hx; cases hx
    · rw [isKind_congr (congrFun l4 g')] at hg'
      rw [Bool.eq_false_iff]
      intro hx
      obtain ⟨h1, h2⟩ := (l1 b g').1 hx
      exact h2 ⟨rfl, (hg g').1 ⟨h1, hg'⟩⟩
  · rename_i c' hi
    have hi := incoming_some hs hi
    split at h
    · rename_i hcc
      subst hcc
      cases h
      refine ⟨⟨hs, ht, rfl, rfl, fun _ _ h => h, fun _ _ _ _ => rfl⟩, fun x hx => (hi x).1 hx, fun hf => ?_⟩
      have := (hi c').2 rfl
      rw [hf] at this; cases this
    · rename_i hcc
      rw [Option.map_eq_some_iff] at h
      obtain ⟨g, hg, rfl⟩ := h
      have hg := outputGroup_spec hs hg
      obtain ⟨l1, l2, l3, l4, l5⟩ := leave_spec db b g
      have hc' : db.isKind .cmd c' = true := ht.source c' b hb ((hi c').2 rfl)
      have hw : Writes db excl c' b := ⟨hc', (hi c').2 rfl, hnotg, hd⟩
      have hcb : c' ≠ b := by
        rintro rfl
        exact isKind_ne hb hc' (by decide)
      have e : ∀ x y, (removeLink (leave db b g) c' b).normal x y = true ↔ db.normal x y = true ∧ ¬ (x = b ∧ g = some y) ∧ ¬ (x = c' ∧ y = b) := by
        intro x y
        rw [removeLink_normal, l1, and_assoc]
      have hin : ∀ x, (removeLink (leave db b g) c' b).normal x b = false := by
        intro x
        rw [Bool.eq_false_iff]
        intro hx
        obtain ⟨h1, _, h3⟩ := (e x b).1 hx
        exact h3 ⟨(hi x).1 h1, rfl⟩
      refine ⟨cut_of hs ht hb l4 l5 l2 l3 (fun x y h => ((e x y).1 h).1) hin (fun x y hx hy => ?_), fun x hx => ?_, fun _ g' hg' => ?_⟩
      · rw [Bool.eq_iff_iff, e]
        exact ⟨fun h => h.1, fun h => ⟨h, fun h => hx h.1, fun h => hy h.2⟩⟩
      · rw [hin x] at hx; cases hx
      · rw [show (removeLink (leave db b g) c' b).isKind .group g' = db.isKind .group g' from isKind_congr (congrFun l4 g') _] at hg'
        rw [Bool.eq_false_iff]
        intro hx
        obtain ⟨h1, h2, _⟩ := (e b g').1 hx
        exact h2 ⟨rfl, (hg g').1 ⟨(ht.member c' b g' hw hg').1 h1, hg'⟩⟩

theorem Taken.cut (ht : Tidy db excl) {c b b' : Nat} (h : Taken db c b') (hb : db.isKind .generated b = true) (hc : db.isKind .cmd c = true)
    (hn : b' ≠ b) (k : Cut db excl b db') : Taken db' c b' := by
  refine ⟨fun x hx => h.1 x (k.normal _ _ hx), fun hf g hg => ?_⟩
  have hcb : c ≠ b := by
    rintro rfl
    exact isKind_ne hb hc (by decide)
  rw [k.other c b' hcb hn] at hf
  rw [isKind_congr (congrFun k.node g)] at hg
  rw [Bool.eq_false_iff]
  intro hx
  have := h.2 hf g hg
  rw [k.normal _ _ hx] at this; cases this

/-- The same for all outputs. -/
structure Cuts (db : Db) (excl c : Nat) (l : List Nat) (db' : Db) : Prop where
  sound : Sound db'
  tidy : Tidy db' excl
  node : db'.node = db.node
  top : db'.top = db.top
  normal : ∀ x y, db'.normal x y = true → db.normal x y = true
  other : ∀ x y, x ∉ l → y ∉ l → db'.normal x y = db.normal x y
  taken : ∀ b ∈ l, Taken db' c b

theorem uniqueLinks_spec {c : Nat} : ∀ {l : List Nat} {db : Db}, Sound db → Tidy db excl → db.isKind .cmd c = true → l.Nodup →
    (∀ b ∈ l, db.isKind .generated b = true ∧ inDir db excl b = false) → uniqueLinks c l db = some db' → Cuts db excl c l db'
  | [], db, hs, ht, _, _, _, h => by
    cases h
    exact ⟨hs, ht, rfl, rfl, fun _ _ h => h, fun _ _ _ _ => rfl, fun b hb => by cases hb⟩
  | b :: l, db, hs, ht, hc, hnd, hl, h => by
    unfold uniqueLinks at h
    split at h
    · cases h
    rename_i db1 h1
    obtain ⟨hb1, hb2⟩ := hl b List.mem_cons_self
    obtain ⟨k, t⟩ := uniqueLink_spec hs ht hb1 hb2 h1
    have hkk : ∀ i q, db1.isKind q i = db.isKind q i := fun i q => isKind_congr (congrFun k.node i) q
    have hnd' := List.nodup_cons.1 hnd
    have hl' : ∀ b' ∈ l, db1.isKind .generated b' = true ∧ inDir db1 excl b' = false := by
      intro b' hb'
      rw [hkk, inDir_congr (congrFun k.node b')]
      exact hl b' (List.mem_cons_of_mem _ hb')
    have ih := uniqueLinks_spec k.sound k.tidy (by rw [hkk]; exact hc) hnd'.2 hl' h
    refine ⟨ih.sound, ih.tidy, ih.node.trans k.node, ih.top.trans k.top, fun x y hx => k.normal _ _ (ih.normal _ _ hx), fun x y hx hy => ?_, fun b' hb' => ?_⟩
    · simp only [List.mem_cons, not_or] at hx hy
      rw [ih.other x y hx.2 hy.2, k.other x y hx.1 hy.1]
    · rcases List.mem_cons.1 hb' with rfl | hb'
      · -- nothing is removed of what is wanted, and more goes away
        have hck : db1.isKind .cmd c = true := by rw [hkk]; exact hc
        have hcl : c ∉ l := fun hcl => isKind_ne (hl' c hcl).1 hck (by decide)
        refine ⟨fun x hx => t.1 x (ih.normal _ _ hx), fun hf g hg => ?_⟩
        rw [ih.other c b' hcl hnd'.1] at hf
        rw [isKind_congr (congrFun ih.node g)] at hg
        rw [Bool.eq_false_iff]
        intro hx
        have := t.2 hf g hg
        rw [ih.normal _ _ hx] at this; cases this
      · exact ih.taken b' hb'

/-- The command of the rule. -/
structure Found (db : Db) (excl : Nat) (r : Spec) (main : List Nat) (db' : Db) (c : Nat) : Prop where
  sound : Sound db'
  tidy : Tidy db' excl
  node : ∃ n, db'.node c = some n ∧ n.kind = .cmd ∧ n.dir = r.dir
  other : ∀ j, j ≠ c → db'.node j = db.node j
  old : db.node c = none ∨ db.isKind .cmd c = true
  normal : db'.normal = db.normal
  sticky : db'.sticky = db.sticky
  top : db.top ≤ db'.top
  unique : Unique db → Unique db'
  origin : db.node c = none ∨ (∃ n, db.node c = some n ∧ n.dir = r.dir) ∨ ∃ b ∈ main, db.normal c b = true

theorem existing_some (hs : Sound db) : ∀ {l : List Nat} {c : Nat}, existing db l = some (some c) → ∃ b ∈ l, db.normal c b = true
  | [], c, h => by cases h
  | b :: l, c, h => by
    unfold existing at h
    split at h
    · cases h
    · rename_i c' hi
      cases h
      exact ⟨b, List.mem_cons_self, (incoming_some hs hi c).2 rfl⟩
    · obtain ⟨b', h1, h2⟩ := existing_some hs h
      exact ⟨b', List.mem_cons_of_mem _ h1, h2⟩

/-- A command whose row changes, but not its type. -/
theorem found_same {r : Spec} {main : List Nat} {c : Nat} {n m : Node} (hs : Sound db) (ht : Tidy db excl) (hn : db.node c = some n) (hk : n.kind = .cmd)
    (hm : db'.node c = some m) (hk' : m.kind = .cmd) (hd : m.dir = r.dir) (ho : ∀ j, j ≠ c → db'.node j = db.node j) (h1 : db'.normal = db.normal)
    (h2 : db'.sticky = db.sticky) (h3 : db'.group = db.group) (h4 : db'.top = db.top)
    (hu : Unique db → Unique db') (hor : n.dir = r.dir ∨ ∃ b ∈ main, db.normal c b = true) : Found db excl r main db' c := by
  have hc : db.isKind .cmd c = true := isKind_iff.2 ⟨n, hn, hk⟩
  refine ⟨sound_keep hs h4 (keep_isSome hn hm ho) (fun a b => by rw [h1]; exact id) (fun a b => by rw [h2]; exact id), ?_,
    ⟨m, hm, hk', hd⟩, ho, .inr hc, h1, h2, by omega, hu,
    .inr (hor.imp_left fun h => ⟨n, hn, h⟩)⟩
  refine tidy_nodes (fun j k => ?_) (fun j hj => ?_) h1 h2 h3 ht
  · by_cases hj : j = c
    · subst hj
      rw [isKind_some hn, isKind_some hm, hk, hk']
    · exact isKind_congr (ho j hj) k
  · by_cases hjc : j = c
    · subst hjc
      rw [hc] at hj; cases hj
    · exact inDir_congr (ho j hjc) _

theorem findCommand_spec {r : Spec} {main : List Nat} {modified modified' : Bool} {c : Nat} (hs : Sound db) (ht : Tidy db excl)
    (hm : ∀ b ∈ main, db.isKind .generated b = true) (h : findCommand r main db modified = some (db', c, modified')) : Found db excl r main db' c := by
  unfold findCommand at h
  split at h
  · rename_i c' hsel
    split at h
    · rename_i hk
      cases h
      obtain ⟨n, hn, hnd, hnn⟩ := select_some hsel
      rw [isKind_some hn] at hk
      simp only [decide_eq_true_eq] at hk
      refine found_same (n := n) (m := { n with transient := r.transient }) hs ht hn hk ?_ hk hnd (fun j hj => ?_) rfl rfl rfl rfl
        (fun hu => unique_sub hu fun j q hq => ?_) (.inl hnd)
      · rw [setTransient_node, if_pos rfl, hn]; rfl
      · rw [setTransient_node, if_neg hj]
      · rw [setTransient_node] at hq
        split at hq
        · obtain ⟨q', e, rfl⟩ := Option.map_eq_some_iff.1 hq
          exact ⟨q', e, rfl, rfl⟩
        · exact ⟨q, hq, rfl, rfl⟩
    · cases h
  · rename_i hsel
    split at h
    · cases h
    · rename_i c' he
      cases h
      obtain ⟨b, hb, hnb⟩ := existing_some hs he
      obtain ⟨n, hn, hk⟩ := isKind_iff.1 (ht.source c b (hm b hb) hnb)
      have e1 : (setTransient (setName db c r.dir r.cmd) c r.transient).node c = some { n with dir := r.dir, name := r.cmd, transient := r.transient } := by
        rw [setTransient_node, if_pos rfl]
        show Option.map _ (if c = c then Option.map _ (db.node c) else db.node c) = _
        rw [if_pos rfl, hn]; rfl
      have e2 : ∀ j, j ≠ c → (setTransient (setName db c r.dir r.cmd) c r.transient).node j = db.node j := fun j hj => by
        rw [setTransient_node, if_neg hj]
        show (if j = c then Option.map _ (db.node j) else db.node j) = _
        rw [if_neg hj]
      exact found_same hs ht hn hk e1 hk rfl e2 rfl rfl rfl rfl (fun hu => unique_new hs hu e1 e2 hsel) (.inr ⟨b, hb, hnb⟩)
    · rw [Option.map_eq_some_iff] at h
      obtain ⟨⟨db1, c1⟩, h1, h2⟩ := h
      cases h2
      rcases create_cases (by decide) h1 with ⟨_, h⟩ | ⟨h, _⟩ | ⟨h, _⟩
      · have hf := insert_fresh hs { dir := r.dir, kind := .cmd, name := r.cmd, src := none, transient := r.transient }
        have m := made_insert (excl := excl) hs ht { dir := r.dir, kind := .cmd, name := r.cmd, src := none, transient := r.transient } hsel
        have hno : db1.normal = db.normal ∧ db1.sticky = db.sticky := by
          have : db1 = (db.insertNode { dir := r.dir, kind := .cmd, name := r.cmd, src := none, transient := r.transient }).1 := by rw [h]
          rw [this]
          exact ⟨rfl, rfl⟩
        rw [h] at m hf
        obtain ⟨n, e1, e2, e3, _⟩ := m.node
        exact ⟨⟨m.sound.node, m.sound.normal, m.sound.sticky⟩, ⟨m.tidy.file, m.tidy.owner, m.tidy.oneGroup, m.tidy.member, m.tidy.groups, m.tidy.ghost, m.tidy.source⟩,
          ⟨n, e1, e2, e3⟩, m.other, .inl hf, hno.1, hno.2, m.top, m.unique, .inl hf⟩
      · rw [hsel] at h; cases h
      · rw [hsel] at h; cases h

end Tup.DoRule
