import Verif.ConfigVar.Spec
import Verif.DirInputs.Lemmas

namespace Tup.ConfigVar

open Tup.Db Tup.Links Tup.DirInputs Tup.VarStore Tup.Lookup

variable {k : Consts} {v : Nat} {db db' db0 : Db} {s s' t : St} {n x : Str} {i : Nat}

/-- The invariant: the variables are those of `db0`, and the copies are right. -/
structure Inv (k : Consts) (v : Nat) (db0 : Db) (s : St) : Prop where
  ready : Ready s.db v
  value : ∀ n x, Value s.db v n x ↔ Value db0 v n x
  copy : ∀ n x i, s.cache n = some (x, i) → Names s.db v n i ∧ Shown k db0 v n x

theorem value_unique (h : Unique db) (h1 : Value db v n x) {y : Str} (h2 : Value db v n y) : x = y := by
  obtain ⟨i, a, a1, a2, a3, a4⟩ := h1
  obtain ⟨j, b, b1, b2, b3, b4⟩ := h2
  have := h i j a b a1 b1 (a2.trans b2.symm) (a3.trans b3.symm)
  subst this
  rw [a4] at b4
  cases b4
  rfl

theorem shown_unique (h : Unique db) (h1 : Shown k db v n x) {y : Str} (h2 : Shown k db v n y) : x = y := by
  rcases h1 with h1 | ⟨h1, g1⟩
  · rcases h2 with h2 | ⟨h2, _⟩
    · exact value_unique h h1 h2
    · exact absurd ⟨x, h1⟩ h2
  · rcases h2 with h2 | ⟨_, g2⟩
    · exact absurd ⟨y, h2⟩ h1
    · have hd : "TUP_PLATFORM".toList ≠ "TUP_ARCH".toList := by decide
      rcases g1 with ⟨a, rfl⟩ | ⟨a, rfl⟩ | ⟨a, b, rfl⟩ <;> rcases g2 with ⟨c, rfl⟩ | ⟨c, rfl⟩ | ⟨c, d, rfl⟩
      · rfl
      · exact absurd (a.symm.trans c) hd
      · exact absurd a c
      · exact absurd (c.symm.trans a) hd
      · rfl
      · exact absurd a d
      · exact absurd c a
      · exact absurd c b
      · rfl

theorem shown_exists (k : Consts) (db : Db) (v : Nat) (n : Str) : ∃ x, Shown k db v n x := by
  by_cases h : Defined db v n
  · obtain ⟨x, h⟩ := h; exact ⟨x, .inl h⟩
  · by_cases h1 : n = "TUP_PLATFORM".toList
    · exact ⟨_, .inr ⟨h, .inl ⟨h1, rfl⟩⟩⟩
    · by_cases h2 : n = "TUP_ARCH".toList
      · exact ⟨_, .inr ⟨h, .inr (.inl ⟨h2, rfl⟩)⟩⟩
      · exact ⟨_, .inr ⟨h, .inr (.inr ⟨h1, h2, rfl⟩)⟩⟩

theorem shown_congr (h : ∀ y, Value db v n y ↔ Value db' v n y) : Shown k db v n x ↔ Shown k db' v n x := by
  unfold Shown Defined
  simp only [h]

theorem defined_congr (h : ∀ y, Value db v n y ↔ Value db' v n y) : Defined db v n ↔ Defined db' v n := by
  unfold Defined
  simp only [h]

/-- A row of the tup.config is a variable exactly if it has a value. -/
theorem kind_iff (hp : Proper db v) (hn : Names db v n i) : db.isKind .var i = true ↔ Defined db v n := by
  obtain ⟨m, h1, h2, h3⟩ := hn
  constructor
  · intro hk
    obtain ⟨m', g1, g2⟩ := isKind_iff.1 hk
    rw [h1] at g1
    cases g1
    rcases hp.kinds i m h1 h2 with ⟨_, x, hx⟩ | ⟨hk, _⟩
    · exact ⟨x, i, m, h1, h2, h3, hx⟩
    · rw [hk] at g2; cases g2
  · rintro ⟨x, j, m', g1, g2, g3, g4⟩
    have := hp.unique i j m m' h1 g1 (h2.trans g2.symm) (h3.trans g3.symm)
    subst this
    rcases hp.kinds i m h1 h2 with ⟨hk, _⟩ | ⟨_, hv⟩
    · exact isKind_iff.2 ⟨m, h1, hk⟩
    · rw [g4] at hv; cases hv

theorem valueOf_shown (hp : Proper db v) (hn : Names db v n i) : ∃ x, valueOf k db i n = some x ∧ Shown k db v n x := by
  unfold valueOf
  by_cases hk : db.isKind .var i = true
  · rw [if_pos hk]
    obtain ⟨x, j, m, g1, g2, g3, g4⟩ := (kind_iff hp hn).1 hk
    obtain ⟨m', h1, h2, h3⟩ := hn
    have := hp.unique i j m' m h1 g1 (h2.trans g2.symm) (h3.trans g3.symm)
    subst this
    rw [g4]
    exact ⟨x, rfl, .inl ⟨i, m, g1, g2, g3, g4⟩⟩
  · rw [if_neg hk]
    have hd : ¬ Defined db v n := fun h => hk ((kind_iff hp hn).2 h)
    split
    · next h => exact ⟨_, rfl, .inr ⟨hd, .inl ⟨h, rfl⟩⟩⟩
    · next h =>
      split
      · next h' => exact ⟨_, rfl, .inr ⟨hd, .inr (.inl ⟨h', rfl⟩)⟩⟩
      · next h' => exact ⟨_, rfl, .inr ⟨hd, .inr (.inr ⟨h, h', rfl⟩)⟩⟩

/-- What a question does to the database: nothing, or a ghost for a name that has no row. -/
structure Grown (v : Nat) (n : Str) (db db' : Db) (i : Nat) : Prop where
  ready : Ready db' v
  at_ : Names db' v n i
  ext : Ext db db'
  vars : db'.vars = db.vars
  same : (∃ j, Names db v n j) → db' = db
  new : ∀ j m, db'.node j = some m → db.node j = none → j = i

theorem entry_ok (h : Ready db v) (n : Str) : Grown v n db (entry v db n).1 (entry v db n).2 := by
  unfold entry
  cases hs : db.select v n with
  | some i =>
    obtain ⟨m, h1, h2, h3⟩ := select_some hs
    exact ⟨h, ⟨m, h1, h2, h3⟩, Ext.refl _, rfl, fun _ => rfl, fun j m hj hz => by rw [hz] at hj; cases hj⟩
  | none =>
    obtain ⟨g1, g2, g3⟩ := insert_ok h.good hs
    have hb := h.good.bounded
    obtain ⟨a1, a2, a3⟩ := adds_insert hb ({ dir := v, kind := .ghost, name := n } : Node)
    have hbd := insert_bounded hb ({ dir := v, kind := .ghost, name := n } : Node)
    have hnew : ∀ j m, (db.insertNode { dir := v, kind := .ghost, name := n }).1.node j = some m → db.node j = none →
        j = (db.insertNode { dir := v, kind := .ghost, name := n }).2 := by
      intro j m hj hz
      by_cases he : j = (db.insertNode { dir := v, kind := .ghost, name := n }).2
      · exact he
      · rw [a3 j he, hz] at hj; cases hj
    refine ⟨⟨g1, ⟨hbd, g1.unique, ?_⟩, ?_⟩, g3, g2, rfl, ?_, hnew⟩
    · intro i m hi hd
      by_cases he : i = (db.insertNode { dir := v, kind := .ghost, name := n }).2
      · subst he
        rw [a2] at hi
        cases hi
        exact .inr ⟨rfl, h.tidy _ a1⟩
      · rw [a3 i he] at hi
        exact h.proper.kinds i m hi hd
    · intro i hi
      by_cases he : i = (db.insertNode { dir := v, kind := .ghost, name := n }).2
      · subst he; rw [a2] at hi; cases hi
      · rw [a3 i he] at hi; exact h.tidy i hi
    · rintro ⟨j, m, h1, h2, h3⟩
      exact absurd h3 (select_none hb hs h1 h2)

theorem Grown.value (h : Grown v n db db' i) (hr : Ready db v) (w y : Str) : Value db' v w y ↔ Value db v w y := by
  constructor
  · rintro ⟨j, m, h1, h2, h3, h4⟩
    rw [h.vars] at h4
    cases hz : db.node j with
    | none => rw [hr.tidy j hz] at h4; cases h4
    | some m' =>
      have := h.ext.ghosts.kept j m' hz
      rw [h1] at this
      cases this
      exact ⟨j, m, hz, h2, h3, h4⟩
  · rintro ⟨j, m, h1, h2, h3, h4⟩
    exact ⟨j, m, h.ext.ghosts.kept j m h1, h2, h3, by rw [h.vars]; exact h4⟩

theorem names_kept (h : Ext db db') {w : Str} {j : Nat} (hn : Names db v w j) : Names db' v w j := by
  obtain ⟨m, h1, h2, h3⟩ := hn
  exact ⟨m, h.ghosts.kept j m h1, h2, h3⟩

/-- A question always has an answer, and it is the right one. -/
theorem get_ok (h : Inv k v db0 s) (n : Str) : ∃ t x i, getVar k v s n = some (t, x, i) ∧ Inv k v db0 t ∧ Shown k db0 v n x ∧
    Names t.db v n i ∧ Grown v n s.db t.db i := by
  unfold getVar
  cases hc : s.cache n with
  | some e =>
    obtain ⟨x, i⟩ := e
    obtain ⟨h1, h2⟩ := h.copy n x i hc
    exact ⟨s, x, i, rfl, h, h2, h1, h.ready, h1, Ext.refl _, rfl, fun _ => rfl, fun j m hj hz => by rw [hz] at hj; cases hj⟩
  | none =>
    have hg := entry_ok h.ready n
    obtain ⟨x, hx, hs⟩ := valueOf_shown (k := k) hg.ready.proper hg.at_
    have hval : ∀ w y, Value (entry v s.db n).1 v w y ↔ Value db0 v w y := fun w y =>
      (hg.value h.ready w y).trans (h.value w y)
    have hs' : Shown k db0 v n x := (shown_congr (fun y => hval n y)).1 hs
    dsimp only
    rw [hx]
    refine ⟨_, x, (entry v s.db n).2, rfl, ⟨hg.ready, hval, ?_⟩, hs', hg.at_, hg⟩
    intro w y j hw
    dsimp only at hw
    split at hw
    · next he =>
      subst he
      cases hw
      exact ⟨hg.at_, hs'⟩
    · obtain ⟨h1, h2⟩ := h.copy w y j hw
      exact ⟨names_kept hg.ext h1, h2⟩

theorem Keeps.names (h : Keeps v db db') {w : Str} {j : Nat} (hn : Names db v w j) : Names db' v w j := by
  obtain ⟨m, h1, h2, h3⟩ := hn
  exact ⟨m, (h.rows j m h2).1 h1, h2, h3⟩

theorem Keeps.value (h : Keeps v db db') (w y : Str) : Value db' v w y ↔ Value db v w y := by
  constructor
  · rintro ⟨j, m, h1, h2, h3, h4⟩
    have := (h.rows j m h2).2 h1
    exact ⟨j, m, this, h2, h3, by rw [← h.vars j m this h2]; exact h4⟩
  · rintro ⟨j, m, h1, h2, h3, h4⟩
    exact ⟨j, m, (h.rows j m h2).1 h1, h2, h3, by rw [h.vars j m h1 h2]; exact h4⟩

theorem Inv.between (h : Inv k v db0 s) (hb : Between k v s t) : Inv k v db0 t ∧ ∀ w j, Names s.db v w j → Names t.db v w j := by
  induction hb with
  | refl => exact ⟨h, fun _ _ hn => hn⟩
  | other _ hk ih =>
    obtain ⟨ih, in_⟩ := ih
    refine ⟨⟨hk.ready, fun w y => (hk.value w y).trans (ih.value w y), fun w y j hw => ?_⟩, fun w j hn => hk.names (in_ w j hn)⟩
    obtain ⟨h1, h2⟩ := ih.copy w y j hw
    exact ⟨hk.names h1, h2⟩
  | @get s' t n x i _ hg ih =>
    obtain ⟨ih, in_⟩ := ih
    obtain ⟨t', x', i', h1, h2, _, _, h3⟩ := get_ok ih n
    rw [hg] at h1
    cases h1
    exact ⟨h2, fun w j hn => names_kept h3.ext (in_ w j hn)⟩

theorem ifdefName_means (t : Str) : Means t (ifdefName t) := by
  unfold ifdefName
  split
  · next h =>
    obtain ⟨m, rfl⟩ := List.isPrefixOf_iff_prefix.1 h
    have : ("CONFIG_".toList ++ m).drop 7 = m := List.drop_left' rfl
    rw [this]
    exact .config m
  · next h => exact .plain fun ⟨m, e⟩ => h (List.isPrefixOf_iff_prefix.2 ⟨m, e.symm⟩)

theorem means_unique {t a b : Str} (h1 : Means t a) (h2 : Means t b) : a = b := by
  cases h1 with
  | config =>
    generalize e : "CONFIG_".toList ++ a = t at h2
    cases h2 with
    | config => exact List.append_cancel_left e
    | plain h => exact absurd ⟨a, e.symm⟩ h
  | plain h =>
    cases h2 with
    | config => exact absurd ⟨b, rfl⟩ h
    | plain _ => rfl

end Tup.ConfigVar
