import Verif.Links.WriteRun

/-! What is stored after the inputs of a rule have been written. -/

namespace Tup.Links

open Tup.Db

theorem SameNodes.rfl {db : Db} : SameNodes db db := by cases db; exact Eq.refl _

theorem addGroupLink_some {db db' : Db} {c i : Nat} {g : Option Nat} (h : addGroupLink db c i g = some db') :
    db' = { db with group := db'.group } ∧
    (∀ b, g = some b → db.isKind .group i = true → db.group i b c = false) ∧
    ∀ x y z, db'.group x y z = true ↔ db.group x y z = true ∨ (x = i ∧ g = some y ∧ z = c ∧ db.isKind .group i = true) := by
  cases g with
  | none =>
    rw [addGroupLink, Option.some.injEq] at h
    subst h
    exact ⟨Eq.refl _, by simp, fun x y z => by simp⟩
  | some g =>
    rw [addGroupLink] at h
    by_cases hk : db.isKind .group i = true
    · rw [if_pos hk] at h
      unfold insertGroup at h
      split at h
      · cases h
      · rename_i hn
        simp only [not_or] at hn
        cases h
        refine ⟨Eq.refl _, fun b hb _ => by cases hb; simpa using hn.2.2.2.2, fun x y z => ?_⟩
        simp only [Bool.or_eq_true, Bool.and_eq_true, decide_eq_true_eq, Option.some.injEq, hk, and_true]
        grind
    · rw [if_neg hk] at h
      cases h
      exact ⟨Eq.refl _, fun b _ h => absurd h hk, fun x y z => by simp [hk]⟩

theorem addEnvLink_some {db db' : Db} {c i : Nat} {env : List Nat} (h : addEnvLink db c env i = some db') :
    db' = { db with normal := db'.normal, modify := db'.modify } ∧ (i ∈ env → db.normal i c = false ∧ i ≠ c) ∧
    (∀ x y, db'.normal x y = true ↔ db.normal x y = true ∨ (x = i ∧ y = c ∧ i ∈ env)) ∧
    ∀ j, db'.modify j = true ↔ db.modify j = true ∨ (j = c ∧ i ∈ env) := by
  unfold addEnvLink at h
  by_cases hi : i ∈ env
  · rw [if_pos hi, Option.map_eq_some_iff] at h
    obtain ⟨db1, h1, h2⟩ := h
    subst h2
    obtain ⟨k1, k2, k3, k4, k5, k6⟩ := insertLink_some h1
    refine ⟨?_, fun _ => ⟨k2, k1⟩, fun x y => ?_, fun j => ?_⟩
    · show db1.addModify c = _
      unfold SameBut at k3
      rw [k3, k5]
      rfl
    · show db1.normal x y = true ↔ _
      rw [k6]; simp [hi]
    · show (db1.modify j || decide (j = c)) = true ↔ _
      rw [k4]; simp [hi]
  · rw [if_neg hi] at h
    cases h
    exact ⟨Eq.refl _, fun h => absurd h hi, fun x y => by simp [hi], fun j => by simp [hi]⟩

theorem insertSticky_some {db db' : Db} {a b : Nat} (h : insertSticky db a b = some db') :
    a ≠ b ∧ db.sticky a b = false ∧ db' = { db with sticky := db'.sticky } ∧
      ∀ x y, db'.sticky x y = true ↔ db.sticky x y = true ∨ (x = a ∧ y = b) := by
  unfold insertSticky at h
  split at h
  · cases h
  · rename_i hn
    simp only [not_or] at hn
    cases h
    exact ⟨hn.1, by simpa using hn.2.2.2, Eq.refl _, fun x y => by simp⟩

/-- What holds while the declared inputs are compared with those of before. -/
structure WidInv (as bs : List Nat) (c : Nat) (env : List Nat) (g : Option Nat) (db : Db) (D : Ev → Prop) (s : Wid) : Prop where
  sub : ∀ e, D e → e ∈ diff as bs
  same : SameNodes db s.db
  transient : s.db.transient = db.transient
  sticky : ∀ a b, s.db.sticky a b = true ↔ (db.sticky a b = true ∧ ¬ (b = c ∧ D (.right a))) ∨ (b = c ∧ D (.left a))
  normal : ∀ a b, s.db.normal a b = true ↔ (db.normal a b = true ∧ ¬ (b = c ∧ D (.right a))) ∨ (b = c ∧ D (.left a) ∧ a ∈ env)
  modify : ∀ j, s.db.modify j = true ↔ db.modify j = true ∨
    (j = c ∧ ((∃ a, D (.left a) ∧ a ∈ env) ∨ ∃ a, D (.right a) ∧ db.normal a c = true))
  ghosts : ∀ j, s.db.ghosts j = true ↔ db.ghosts j = true ∨ (D (.right j) ∧ db.isKind .group j = true)
  group : ∀ x y z, s.db.group x y z = true ↔
    (db.group x y z = true ∧ ¬ (z = c ∧ g = some y ∧ D (.right x) ∧ db.isKind .group x = true)) ∨
      (z = c ∧ g = some y ∧ D (.left x) ∧ db.isKind .group x = true)
  invalid : s.invalid = true ↔ ∃ a, D (.right a) ∧ db.isKind .group a = true
  failed : s.failed = false

theorem removeSticky_sticky (db : Db) (a b x y : Nat) :
    (removeSticky db a b).sticky x y = true ↔ db.sticky x y = true ∧ ¬ (x = a ∧ y = b) := by
  unfold removeSticky
  simp only [Bool.and_eq_true, Bool.not_eq_true', Bool.and_eq_false_iff, decide_eq_false_iff_not]
  grind

/-- The database after `rm_sticky` has removed the links. -/
theorem rm_links (db : Db) (i c : Nat) :
    let db1 := removeSticky db i c
    let db2 := if db1.normal i c then (removeLink db1 i c).addModify c else db1
    db2 = { db with sticky := db2.sticky, normal := db2.normal, modify := db2.modify } ∧
    (∀ x y, db2.sticky x y = true ↔ db.sticky x y = true ∧ ¬ (x = i ∧ y = c)) ∧
    (∀ x y, db2.normal x y = true ↔ db.normal x y = true ∧ ¬ (x = i ∧ y = c)) ∧
    (∀ j, db2.modify j = true ↔ db.modify j = true ∨ (j = c ∧ db.normal i c = true)) := by
  intro db1 db2
  cases hn : db.normal i c with
  | true =>
    have e : db2 = (removeLink db1 i c).addModify c := if_pos hn
    rw [e]
    refine ⟨Eq.refl _, fun x y => removeSticky_sticky db i c x y, fun x y => ?_, fun j => ?_⟩
    · show (removeLink db1 i c).normal x y = true ↔ _
      rw [removeLink_normal]
      exact Iff.rfl
    · show (db.modify j || decide (j = c)) = true ↔ _
      simp
  | false =>
    have e : db2 = db1 := if_neg (by show ¬ db.normal i c = true; rw [hn]; simp)
    rw [e]
    refine ⟨Eq.refl _, fun x y => removeSticky_sticky db i c x y, fun x y => ?_, fun j => ?_⟩
    · show db.normal x y = true ↔ _
      constructor
      · intro h
        refine ⟨h, ?_⟩
        rintro ⟨rfl, rfl⟩
        rw [hn] at h; cases h
      · exact fun h => h.1
    · show db.modify j = true ↔ _
      simp

theorem wid_start (as bs : List Nat) (c : Nat) (env : List Nat) (g : Option Nat) (db : Db) :
    WidInv as bs c env g db (fun _ => False) ⟨db, false, false⟩ :=
  ⟨fun _ h => h.elim, SameNodes.rfl, rfl, by simp, by simp, by simp, by simp, by simp, by simp, rfl⟩

theorem wid_step {as bs : List Nat} (ha : Asc as) (hb : Asc bs) {c : Nat} {env : List Nat} {g : Option Nat} {db : Db} :
    ∀ (D : Ev → Prop) e s s', ¬ D e → e ∈ diff as bs → WidInv as bs c env g db D s →
      step1 (addSticky false c env g) (rmSticky false c g) s e = some s' → WidInv as bs c env g db (fun x => x = e ∨ D x) s' := by
  obtain ⟨hleft, hright⟩ := mem_diff ha hb
  · intro D e s s' hnD hmem hinv hstep
    have hsub : ∀ x, (x = e ∨ D x) → x ∈ diff as bs := by
      rintro x (rfl | hx)
      · exact hmem
      · exact hinv.sub x hx
    cases e with
    | left i =>
      have hi := (hleft i).1 hmem
      have hnr : ¬ D (.right i) := fun hd => hi.2 ((hright i).1 (hinv.sub _ hd)).1
      have e1 : ∀ x, (Ev.left x = Ev.left i ∨ D (.left x)) ↔ (x = i ∨ D (.left x)) := by simp
      have e2 : ∀ x, (Ev.right x = Ev.left i ∨ D (.right x)) ↔ D (.right x) := by simp
      rw [step1, addSticky, if_neg (by decide)] at hstep
      simp only [Option.bind_eq_bind, Option.bind_eq_some_iff] at hstep
      obtain ⟨db1, h1, db2, h2, db3, h3, h4⟩ := hstep
      cases h4
      obtain ⟨k1, k2, k3⟩ := addGroupLink_some h1
      obtain ⟨l1, l2, l3, l4⟩ := addEnvLink_some h2
      obtain ⟨m1, m2, m3, m4⟩ := insertSticky_some h3
      have hk : ∀ k j, s.db.isKind k j = db.isKind k j := fun k j => hinv.same.kind k j
      have hns : SameNodes s.db db3 := by
        unfold SameNodes
        rw [m3, l1, k1]
      have ht : db3.transient = s.db.transient := by rw [m3, l1, k1]
      have hst : ∀ x y, db2.sticky x y = s.db.sticky x y := by intro x y; rw [l1, k1]
      have hno : ∀ x y, db3.normal x y = db2.normal x y := by intro x y; rw [m3]
      have hno1 : ∀ x y, db1.normal x y = s.db.normal x y := by intro x y; rw [k1]
      have hmo : ∀ x, db3.modify x = db2.modify x := by intro x; rw [m3]
      have hmo1 : ∀ x, db1.modify x = s.db.modify x := by intro x; rw [k1]
      have hgo : ∀ x, db3.ghosts x = s.db.ghosts x := by intro x; rw [m3, l1, k1]
      have hgr : ∀ x y z, db3.group x y z = db1.group x y z := by intro x y z; rw [m3, l1]
      refine ⟨hsub, hinv.same.trans hns, ht.trans hinv.transient, ?_, ?_, ?_, ?_, ?_, ?_, hinv.failed⟩
      · intro a b
        show db3.sticky a b = true ↔ _
        rw [m4, hst, hinv.sticky, e1, e2]
        grind
      · intro a b
        show db3.normal a b = true ↔ _
        rw [hno, l3, hno1, hinv.normal, e1, e2]
        grind
      · intro j
        show db3.modify j = true ↔ _
        rw [hmo, l4, hmo1, hinv.modify]
        simp only [e1, e2]
        grind
      · intro j
        show db3.ghosts j = true ↔ _
        rw [hgo, hinv.ghosts, e2]
      · intro x y z
        show db3.group x y z = true ↔ _
        rw [hgr, k3, hinv.group, e1, e2, hk]
        grind
      · show s.invalid = true ↔ _
        rw [hinv.invalid]
        simp only [e2]
    | right i =>
      have hi := (hright i).1 hmem
      have hnl : ¬ D (.left i) := fun hd => hi.2 ((hleft i).1 (hinv.sub _ hd)).1
      have e1 : ∀ x, (Ev.right x = Ev.right i ∨ D (.right x)) ↔ (x = i ∨ D (.right x)) := by simp
      have e2 : ∀ x, (Ev.left x = Ev.right i ∨ D (.left x)) ↔ D (.left x) := by simp
      have hk : ∀ k j, s.db.isKind k j = db.isKind k j := fun k j => hinv.same.kind k j
      rw [step1, rmSticky, if_neg (by decide)] at hstep
      obtain ⟨k1, k2, k3, k4⟩ := rm_links s.db i c
      generalize hdb2 : (if (removeSticky s.db i c).normal i c then (removeLink (removeSticky s.db i c) i c).addModify c else removeSticky s.db i c) = db2 at *
      simp only [hdb2] at hstep k1 k2 k3 k4
      have hn : s.db.normal i c = true ↔ db.normal i c = true := by
        rw [hinv.normal]
        constructor
        · rintro (h | h)
          · exact h.1
          · exact absurd h.2.1 hnl
        · exact fun h => .inl ⟨h, fun hc => hnD hc.2⟩
      have hk2 : ∀ k j, db2.isKind k j = db.isKind k j := by
        intro k j
        rw [← hk]
        rw [k1]; rfl
      have hns : SameNodes s.db db2 := by
        unfold SameNodes
        rw [k1]
      have hgr : db2.group = s.db.group := by rw [k1]
      have hgo : db2.ghosts = s.db.ghosts := by rw [k1]
      have ht : db2.transient = s.db.transient := by rw [k1]
      have hsticky : ∀ a b, db2.sticky a b = true ↔
          (db.sticky a b = true ∧ ¬ (b = c ∧ (Ev.right a = Ev.right i ∨ D (.right a)))) ∨ (b = c ∧ (Ev.left a = Ev.right i ∨ D (.left a))) := by
        intro a b
        rw [k2, hinv.sticky, e1, e2]
        grind
      have hnormal : ∀ a b, db2.normal a b = true ↔
          (db.normal a b = true ∧ ¬ (b = c ∧ (Ev.right a = Ev.right i ∨ D (.right a)))) ∨ (b = c ∧ (Ev.left a = Ev.right i ∨ D (.left a)) ∧ a ∈ env) := by
        intro a b
        rw [k3, hinv.normal, e1, e2]
        grind
      have hmodify : ∀ j, db2.modify j = true ↔ db.modify j = true ∨
          (j = c ∧ ((∃ a, (Ev.left a = Ev.right i ∨ D (.left a)) ∧ a ∈ env) ∨ ∃ a, (Ev.right a = Ev.right i ∨ D (.right a)) ∧ db.normal a c = true)) := by
        intro j
        rw [k4, hinv.modify, hn]
        simp only [e1, e2]
        grind
      by_cases hg : db2.isKind .group i = true
      · rw [if_pos hg] at hstep
        cases hstep
        have hg0 : db.isKind .group i = true := by rw [← hk2]; exact hg
        have hgy : db2.ghosty i = true := by unfold Db.ghosty; rw [hg]; simp
        have hgl : rmGroupLink (db2.addGhost i) c i g = { db2.addGhost i with group := (rmGroupLink (db2.addGhost i) c i g).group } := by
          cases g <;> rfl
        have hgg : ∀ x y z, (rmGroupLink (db2.addGhost i) c i g).group x y z = true ↔ db2.group x y z = true ∧ ¬ (x = i ∧ g = some y ∧ z = c) := by
          intro x y z
          cases g with
          | none => show db2.group x y z = true ↔ _; simp
          | some g =>
            show (db2.group x y z && !(decide (x = i) && decide (y = g) && decide (z = c))) = true ↔ _
            simp only [Bool.and_eq_true, Bool.not_eq_true', Bool.and_eq_false_iff, decide_eq_false_iff_not, Option.some.injEq]
            grind
        refine ⟨hsub, hinv.same.trans (hns.trans ?_), ?_, ?_, ?_, ?_, ?_, ?_, ?_, hinv.failed⟩
        · show SameNodes db2 (rmGroupLink (db2.addGhost i) c i g)
          unfold SameNodes
          rw [hgl]
          rfl
        · show (rmGroupLink (db2.addGhost i) c i g).transient = _
          rw [hgl]
          exact ht.trans hinv.transient
        · intro a b
          show (rmGroupLink (db2.addGhost i) c i g).sticky a b = true ↔ _
          rw [hgl]; exact hsticky a b
        · intro a b
          show (rmGroupLink (db2.addGhost i) c i g).normal a b = true ↔ _
          rw [hgl]; exact hnormal a b
        · intro j
          show (rmGroupLink (db2.addGhost i) c i g).modify j = true ↔ _
          rw [hgl]; exact hmodify j
        · intro j
          show (rmGroupLink (db2.addGhost i) c i g).ghosts j = true ↔ _
          rw [hgl]
          show (db2.ghosts j || (decide (j = i) && db2.ghosty i)) = true ↔ _
          rw [hgy, hgo, e1]
          simp only [Bool.or_eq_true, hinv.ghosts, Bool.and_true, decide_eq_true_eq]
          grind
        · intro x y z
          show (rmGroupLink (db2.addGhost i) c i g).group x y z = true ↔ _
          rw [hgg, hgr, hinv.group, e1, e2]
          grind
        · simp only [true_iff]
          exact ⟨i, .inl rfl, hg0⟩
      · rw [if_neg hg] at hstep
        cases hstep
        have hg0 : ¬ db.isKind .group i = true := by rw [← hk2]; exact hg
        refine ⟨hsub, hinv.same.trans hns, ht.trans hinv.transient, hsticky, hnormal, hmodify, ?_, ?_, ?_, hinv.failed⟩
        · intro j
          show db2.ghosts j = true ↔ _
          rw [hgo, hinv.ghosts, e1]
          grind
        · intro x y z
          show db2.group x y z = true ↔ _
          rw [hgr, hinv.group, e1, e2]
          grind
        · show s.invalid = true ↔ _
          rw [hinv.invalid]
          simp only [e1]
          grind

theorem wid_compare {as bs : List Nat} (ha : Asc as) (hb : Asc bs) {c : Nat} {env : List Nat} {g : Option Nat} {db : Db} {s : Wid}
    (h : compare (addSticky false c env g) (rmSticky false c g) as bs ⟨db, false, false⟩ = some s) :
    WidInv as bs c env g db (fun e => e ∈ diff as bs) s :=
  compare_inv ha hb (WidInv as bs c env g db) (wid_start as bs c env g db) (wid_step ha hb) h

theorem wid_total {as bs : List Nat} (ha : Asc as) (hb : Asc bs) {c : Nat} {env : List Nat} {g : Option Nat} {db : Db} (hc : c ≠ 0)
    (has : ∀ i ∈ as, i ∉ bs → i ≠ 0 ∧ i ≠ c ∧ db.sticky i c = false ∧ (i ∈ env → db.normal i c = false) ∧
      ∀ b, g = some b → db.isKind .group i = true → b ≠ 0 ∧ b ≠ i ∧ db.group i b c = false) :
    ∃ s, compare (addSticky false c env g) (rmSticky false c g) as bs ⟨db, false, false⟩ = some s := by
  refine compare_progress ha hb (WidInv as bs c env g db) (wid_start as bs c env g db) (wid_step ha hb) ?_
  obtain ⟨hleft, hright⟩ := mem_diff ha hb
  intro D e s hnD hmem hinv
  cases e with
  | left i =>
    have hi := (hleft i).1 hmem
    obtain ⟨b1, b2, b3, b4, b5⟩ := has i hi.1 hi.2
    rw [step1, addSticky, if_neg (by decide)]
    obtain ⟨db1, h1⟩ : ∃ db1, addGroupLink s.db c i g = some db1 := by
      cases g with
      | none => exact ⟨_, rfl⟩
      | some b =>
        rw [addGroupLink]
        split
        · rename_i hk
          rw [hinv.same.kind] at hk
          obtain ⟨c1, c2, c3⟩ := b5 b rfl hk
          have hn : s.db.group i b c = false := by
            rw [Bool.eq_false_iff]
            intro h
            rcases (hinv.group i b c).1 h with h | h
            · rw [c3] at h; cases h.1
            · exact hnD h.2.2.1
          unfold insertGroup
          rw [if_neg (by rw [hn]; simp; exact ⟨fun h => c2 h.symm, b1, c1, hc⟩)]
          exact ⟨_, rfl⟩
        · exact ⟨_, rfl⟩
    obtain ⟨k1, k2, k3⟩ := addGroupLink_some h1
    obtain ⟨db2, h2⟩ : ∃ db2, addEnvLink db1 c env i = some db2 := by
      unfold addEnvLink
      split
      · rename_i he
        have hn : db1.normal i c = false := by
          have hs : db1.normal i c = s.db.normal i c := by rw [k1]
          rw [hs, Bool.eq_false_iff]
          intro h
          rcases (hinv.normal i c).1 h with h | h
          · rw [b4 he] at h; cases h.1
          · exact hnD h.2.1
        obtain ⟨db2, h2⟩ := insertLink_ok b2 b1 hc hn
        rw [h2]
        exact ⟨_, rfl⟩
      · exact ⟨_, rfl⟩
    obtain ⟨l1, _⟩ := addEnvLink_some h2
    have hn : db2.sticky i c = false := by
      have hs : db2.sticky i c = s.db.sticky i c := by rw [l1, k1]
      rw [hs, Bool.eq_false_iff]
      intro h
      rcases (hinv.sticky i c).1 h with h | h
      · rw [b3] at h; cases h.1
      · exact hnD h.2
    simp only [h1, h2, Option.bind_eq_bind, Option.bind_some]
    unfold insertSticky
    rw [if_neg (by rw [hn]; simp; exact ⟨b2, b1, hc⟩)]
    exact ⟨_, rfl⟩
  | right i =>
    rw [step1, rmSticky, if_neg (by decide)]
    simp only
    split <;> split <;> exact ⟨_, rfl⟩

theorem insertEnv_total {c : Nat} (hc : c ≠ 0) : ∀ {l : List Nat} {db : Db}, l.Nodup →
    (∀ i ∈ l, i ≠ 0 ∧ i ≠ c ∧ db.normal i c = false) → ∃ db', insertEnv c l db = some db' := by
  intro l
  induction l with
  | nil => exact fun _ _ => ⟨_, rfl⟩
  | cons i l ih =>
    intro db hn hl
    obtain ⟨b1, b2, b3⟩ := hl i List.mem_cons_self
    obtain ⟨n1, n2⟩ := List.nodup_cons.1 hn
    obtain ⟨db1, h1⟩ := insertLink_ok b2 b1 hc b3
    obtain ⟨_, _, _, _, _, k⟩ := insertLink_some h1
    rw [insertEnv, h1]
    refine ih n2 fun j hj => ?_
    obtain ⟨d1, d2, d3⟩ := hl j (List.mem_cons_of_mem _ hj)
    refine ⟨d1, d2, ?_⟩
    rw [Bool.eq_false_iff]
    intro h
    rcases (k j c).1 h with h | h
    · rw [d3] at h; cases h
    · exact n1 (h.1 ▸ hj)

theorem insertGroups_total {c g : Nat} (hc : c ≠ 0) (hg : g ≠ 0) : ∀ {l : List Nat} {db : Db}, l.Nodup →
    (∀ i ∈ l, i ≠ 0 ∧ i ≠ g ∧ db.group i g c = false) → ∃ db', insertGroups c g l db = some db' := by
  intro l
  induction l with
  | nil => exact fun _ _ => ⟨_, rfl⟩
  | cons i l ih =>
    intro db hn hl
    obtain ⟨b1, b2, b3⟩ := hl i List.mem_cons_self
    obtain ⟨n1, n2⟩ := List.nodup_cons.1 hn
    obtain ⟨db1, h1⟩ : ∃ db1, addGroupLink db c i (some g) = some db1 := by
      rw [addGroupLink]
      split
      · unfold insertGroup
        rw [if_neg (by rw [b3]; simp; exact ⟨b2, b1, hg, hc⟩)]
        exact ⟨_, rfl⟩
      · exact ⟨_, rfl⟩
    obtain ⟨_, _, k⟩ := addGroupLink_some h1
    rw [insertGroups, h1]
    refine ih n2 fun j hj => ?_
    obtain ⟨d1, d2, d3⟩ := hl j (List.mem_cons_of_mem _ hj)
    refine ⟨d1, d2, ?_⟩
    rw [Bool.eq_false_iff]
    intro h
    rcases (k j g c).1 h with h | h
    · rw [d3] at h; cases h
    · exact n1 (h.1 ▸ hj)

theorem insertEnv_some {c : Nat} : ∀ {l : List Nat} {db db' : Db}, insertEnv c l db = some db' →
    db' = { db with normal := db'.normal } ∧ ∀ x y, db'.normal x y = true ↔ db.normal x y = true ∨ (x ∈ l ∧ y = c) := by
  intro l
  induction l with
  | nil =>
    intro db db' h
    rw [insertEnv, Option.some.injEq] at h
    subst h
    exact ⟨rfl, fun x y => by simp⟩
  | cons i l ih =>
    intro db db' h
    rw [insertEnv] at h
    simp only [Option.bind_eq_bind, Option.bind_eq_some_iff] at h
    obtain ⟨db1, h1, h2⟩ := h
    obtain ⟨k1, k2, k3, k4, k5, k6⟩ := insertLink_some h1
    obtain ⟨l1, l2⟩ := ih h2
    refine ⟨?_, fun x y => ?_⟩
    · unfold SameBut at k3
      rw [l1, k3, k4, k5]
    · rw [l2, k6, List.mem_cons]
      grind

theorem insertGroups_some {c g : Nat} : ∀ {l : List Nat} {db db' : Db}, insertGroups c g l db = some db' →
    db' = { db with group := db'.group } ∧
    ∀ x y z, db'.group x y z = true ↔ db.group x y z = true ∨ (x ∈ l ∧ y = g ∧ z = c ∧ db.isKind .group x = true) := by
  intro l
  induction l with
  | nil =>
    intro db db' h
    rw [insertGroups, Option.some.injEq] at h
    subst h
    exact ⟨rfl, fun x y z => by simp⟩
  | cons i l ih =>
    intro db db' h
    rw [insertGroups] at h
    simp only [Option.bind_eq_bind, Option.bind_eq_some_iff] at h
    obtain ⟨db1, h1, h2⟩ := h
    obtain ⟨k1, k2, k3⟩ := addGroupLink_some h1
    obtain ⟨l1, l2⟩ := ih h2
    have hk : ∀ j, db1.isKind .group j = db.isKind .group j := by intro j; rw [k1]; rfl
    refine ⟨?_, fun x y z => ?_⟩
    · rw [l1, k1]
    · rw [l2, k3, List.mem_cons]
      simp only [hk, Option.some.injEq]
      grind

/-- The state after the inputs have been written. -/
structure InDone (db : Db) (r : Rule) (G : Option Nat) (db' : Db) : Prop where
  same : SameNodes db db'
  transient : db'.transient = db.transient
  sticky : ∀ a b, db'.sticky a b = true ↔ (b ≠ r.cmd ∧ db.sticky a b = true) ∨ (b = r.cmd ∧ a ∈ r.inputs)
  other : ∀ a b, b ≠ r.cmd → db'.normal a b = db.normal a b
  valid : (¬ ∃ a, db.sticky a r.cmd = true ∧ a ∉ r.inputs ∧ db.isKind .group a = true) →
    ∀ a, db'.normal a r.cmd = true ↔
      (db.normal a r.cmd = true ∧ ¬ (db.sticky a r.cmd = true ∧ a ∉ r.inputs)) ∨ (db.sticky a r.cmd = false ∧ a ∈ r.env)
  invalid : (∃ a, db.sticky a r.cmd = true ∧ a ∉ r.inputs ∧ db.isKind .group a = true) →
    ∀ a, db'.normal a r.cmd = true ↔ a ∈ r.env
  modify : ∀ j, db'.modify j = true ↔ db.modify j = true ∨ (j = r.cmd ∧ ((∃ a, InputTaken db r a) ∨ ∃ a, EnvAdded db r a))
  ghosts : ∀ j, db'.ghosts j = true ↔ db.ghosts j = true ∨ (db.sticky j r.cmd = true ∧ j ∉ r.inputs ∧ db.isKind .group j = true)
  group : ∀ x y z, db'.group x y z = true ↔
    (z ≠ r.cmd ∧ db.group x y z = true) ∨
    (z = r.cmd ∧ G = r.group ∧
      ((db.group x y z = true ∧ ¬ (r.group = some y ∧ db.sticky x z = true ∧ x ∉ r.inputs ∧ db.isKind .group x = true)) ∨
        (r.group = some y ∧ x ∈ r.inputs ∧ db.sticky x z = false ∧ db.isKind .group x = true))) ∨
    (z = r.cmd ∧ G ≠ r.group ∧ ((db.group x y z = true ∧ G = none) ∨ (r.group = some y ∧ x ∈ r.inputs ∧ db.isKind .group x = true)))

theorem writeInputs_some {db : Db} (hs : Sound db) {r : Rule} {G : Option Nat} {db' : Db} (hi : Asc r.inputs)
    (henv : ∀ a ∈ r.env, a ∈ r.inputs) (h : writeInputs false r G db = some db') : InDone db r G db' := by
  unfold writeInputs at h
  simp only [Option.bind_eq_bind, Option.bind_eq_some_iff] at h
  obtain ⟨s, h1, db2, h2, db3, h3, h4⟩ := h
  have hasc : Asc (stickyInputs db r.cmd) := asc_filter_range _ _
  have iv := wid_compare hi hasc h1
  rw [iv.failed, if_neg (by decide)] at h4
  cases h4
  obtain ⟨hl, hr⟩ := mem_diff hi hasc
  have mS : ∀ a, a ∈ stickyInputs db r.cmd ↔ db.sticky a r.cmd = true := by
    intro a
    unfold stickyInputs
    rw [List.mem_filter, List.mem_range]
    refine ⟨fun h => h.2, fun hn => ⟨?_, hn⟩⟩
    obtain ⟨n, hn⟩ := Option.isSome_iff_exists.1 (hs.sticky a r.cmd hn).1
    exact (hs.node a n hn).2
  have hinv : s.invalid = true ↔ ∃ a, db.sticky a r.cmd = true ∧ a ∉ r.inputs ∧ db.isKind .group a = true := by
    rw [iv.invalid]
    simp only [hr, mS, and_assoc]
  -- after the normal links
  obtain ⟨p1, p2, p3⟩ : db2 = { s.db with normal := db2.normal, modify := db2.modify } ∧
      (∀ x y, db2.normal x y = true ↔ (s.db.normal x y = true ∧ ¬ (s.invalid = true ∧ y = r.cmd)) ∨ (s.invalid = true ∧ y = r.cmd ∧ x ∈ r.env)) ∧
      (∀ j, db2.modify j = true ↔ s.db.modify j = true ∨ (s.invalid = true ∧ j = r.cmd)) := by
    unfold forgetInputs at h2
    by_cases hv : s.invalid = true
    · rw [if_pos hv] at h2
      obtain ⟨k1, k2⟩ := insertEnv_some h2
      refine ⟨?_, fun x y => ?_, fun j => ?_⟩
      · rw [k1]; rfl
      · rw [k2]
        show (s.db.normal x y && !decide (y = r.cmd)) = true ∨ _ ↔ _
        simp only [Bool.and_eq_true, Bool.not_eq_true', decide_eq_false_iff_not, hv, true_and]
        grind
      · rw [k1]
        show (s.db.modify j || decide (j = r.cmd)) = true ↔ _
        simp [hv]
    · rw [if_neg hv] at h2
      cases h2
      exact ⟨Eq.refl _, fun x y => by simp [hv], fun j => by simp [hv]⟩
  have hk2 : ∀ k j, db2.isKind k j = db.isKind k j := by
    intro k j
    rw [← iv.same.kind]
    rw [p1]; rfl
  have p4 : db2.group = s.db.group := by rw [p1]
  obtain ⟨q1, q2⟩ : db' = { db2 with group := db'.group } ∧
      ∀ x y z, db'.group x y z = true ↔ (G = r.group ∧ db2.group x y z = true) ∨
        (G ≠ r.group ∧ ((db2.group x y z = true ∧ ¬ (G.isSome ∧ z = r.cmd)) ∨ (x ∈ r.inputs ∧ r.group = some y ∧ z = r.cmd ∧ db.isKind .group x = true))) := by
    unfold changeGroupLinks at h3
    by_cases hg : G = r.group
    · rw [if_pos hg] at h3
      cases h3
      exact ⟨Eq.refl _, fun x y z => by simp [hg]⟩
    · rw [if_neg hg] at h3
      simp only at h3
      have hdel : ∀ x y z, (if G.isSome = true then deleteGroupLinks db2 r.cmd else db2).group x y z = true ↔
          db2.group x y z = true ∧ ¬ (G.isSome ∧ z = r.cmd) := by
        intro x y z
        split
        · rename_i hs
          show (db2.group x y z && !decide (z = r.cmd)) = true ↔ _
          simp [hs]
        · rename_i hs
          simp [hs]
      have hdk : (if G.isSome = true then deleteGroupLinks db2 r.cmd else db2) = { db2 with group := (if G.isSome = true then deleteGroupLinks db2 r.cmd else db2).group } := by
        split <;> rfl
      generalize hdd : (if G.isSome = true then deleteGroupLinks db2 r.cmd else db2) = dbd at h3 hdel hdk
      have hkd : ∀ j, dbd.isKind .group j = db.isKind .group j := by
        intro j; rw [← hk2]; rw [hdk]; rfl
      cases hrg : r.group with
      | none =>
        rw [hrg] at h3
        cases h3
        refine ⟨hdk, fun x y z => ?_⟩
        rw [hdel]
        rw [hrg] at hg
        simp [hg]
      | some g =>
        rw [hrg] at h3
        obtain ⟨k1, k2⟩ := insertGroups_some h3
        refine ⟨?_, fun x y z => ?_⟩
        · rw [k1, hdk]
        · rw [k2, hdel, hkd]
          rw [hrg] at hg
          simp only [hg, ne_eq, not_false_eq_true, true_and, false_and, false_or, Option.some.injEq]
          grind
  have r1 : SameNodes s.db db' := by
    unfold SameNodes
    rw [q1, p1]
  have r2 : db'.transient = s.db.transient := by rw [q1, p1]
  have r3 : db'.sticky = s.db.sticky := by rw [q1, p1]
  have r4 : db'.normal = db2.normal := by rw [q1]
  have r5 : db'.modify = db2.modify := by rw [q1]
  have r6 : db'.ghosts = s.db.ghosts := by rw [q1, p1]
  refine ⟨iv.same.trans r1, r2.trans iv.transient, ?_, ?_, ?_, ?_, ?_, ?_, ?_⟩
  · intro a b
    rw [r3, iv.sticky, hl, hr, mS]
    grind
  · intro a b hb
    rw [Bool.eq_iff_iff, r4, p2, iv.normal]
    grind
  · intro hno a
    have hni : ¬ s.invalid = true := fun h => hno (hinv.1 h)
    have := henv a
    rw [r4, p2, iv.normal, hl, hr, mS]
    grind
  · intro hex a
    rw [r4, p2, hinv]
    grind
  · intro j
    rw [r5, p3, iv.modify]
    simp only [hl, hr, mS]
    unfold InputTaken EnvAdded
    rw [hinv]
    constructor
    · rintro ((h | ⟨rfl, h | h⟩) | ⟨⟨a, k1, k2, k3⟩, rfl⟩)
      · exact .inl h
      · obtain ⟨a, k1, k2⟩ := h
        exact .inr ⟨rfl, .inr ⟨a, k2, by simpa using k1.2⟩⟩
      · obtain ⟨a, k1, k2⟩ := h
        exact .inr ⟨rfl, .inl ⟨a, k1.1, k1.2, .inl k2⟩⟩
      · exact .inr ⟨rfl, .inl ⟨a, k1, k2, .inr k3⟩⟩
    · rintro (h | ⟨rfl, ⟨a, k1, k2, k3 | k3⟩ | ⟨a, k1, k2⟩⟩)
      · exact .inl (.inl h)
      · exact .inl (.inr ⟨rfl, .inr ⟨a, ⟨k1, k2⟩, k3⟩⟩)
      · exact .inr ⟨⟨a, k1, k2, k3⟩, rfl⟩
      · exact .inl (.inr ⟨rfl, .inl ⟨a, ⟨henv a k1, by simp [k2]⟩, k1⟩⟩)
  · intro j
    rw [r6, iv.ghosts, hr, mS, and_assoc]
  · intro x y z
    rw [q2, p4, iv.group, hl, hr, mS]
    have hsg : sameGroup r G = if G = r.group then r.group else none := rfl
    rw [hsg]
    by_cases hg : G = r.group
    · rw [if_pos hg]
      simp only [hg, ne_eq, not_true_eq_false, true_and, false_and, or_false, and_false]
      grind
    · rw [if_neg hg]
      cases G with
      | none => simp only [hg, ne_eq, not_false_eq_true, true_and, false_and, false_or, and_false, Option.isSome_none, Bool.false_eq_true]; grind
      | some g => simp only [hg, ne_eq, not_false_eq_true, true_and, false_and, false_or, and_false, Option.isSome_some, reduceCtorEq]; grind

end Tup.Links
