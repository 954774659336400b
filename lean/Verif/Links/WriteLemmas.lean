import Verif.Links.Write
import Verif.Links.Spec

/-! Helper lemmas about the writing of links. -/

namespace Tup.Links

open Tup.Db

/-- The two databases differ in the normal links, the flags for running and the ghosts to check at most. -/
def SameBut (db db' : Db) : Prop :=
  db' = { db with normal := db'.normal, modify := db'.modify, ghosts := db'.ghosts }

theorem SameBut.rfl {db : Db} : SameBut db db := by cases db; exact Eq.refl _

theorem SameBut.trans {a b c : Db} (h : SameBut a b) (h' : SameBut b c) : SameBut a c := by
  unfold SameBut at *
  rw [h', h]

theorem SameBut.kind {a b : Db} (h : SameBut a b) (k : Kind) (i : Nat) : b.isKind k i = a.isKind k i := by
  rw [h]; rfl

theorem insertLink_some {db db' : Db} {a b : Nat} (h : insertLink db a b = some db') :
    a ≠ b ∧ db.normal a b = false ∧ SameBut db db' ∧ db'.modify = db.modify ∧ db'.ghosts = db.ghosts ∧
      ∀ x y, db'.normal x y = true ↔ db.normal x y = true ∨ (x = a ∧ y = b) := by
  unfold insertLink at h
  split at h
  · cases h
  · rename_i hn
    simp only [not_or] at hn
    cases h
    refine ⟨hn.1, by simpa using hn.2.2.2, ?_, rfl, rfl, fun x y => by simp⟩
    rfl

theorem insertLink_ok {db : Db} {a b : Nat} (h1 : a ≠ b) (h2 : a ≠ 0) (h3 : b ≠ 0) (h4 : db.normal a b = false) :
    ∃ db', insertLink db a b = some db' := by
  unfold insertLink
  rw [if_neg (by rw [h4]; simp; exact ⟨h1, h2, h3⟩)]
  exact ⟨_, rfl⟩

theorem removeLink_same (db : Db) (a b : Nat) : SameBut db (removeLink db a b) := Eq.refl _

theorem removeLink_normal (db : Db) (a b x y : Nat) :
    (removeLink db a b).normal x y = true ↔ db.normal x y = true ∧ ¬ (x = a ∧ y = b) := by
  unfold removeLink
  simp only [Bool.and_eq_true, Bool.not_eq_true', Bool.and_eq_false_iff, decide_eq_false_iff_not]
  grind

theorem insertOpt_some {db db' : Db} {a : Nat} {g : Option Nat} (h : insertOpt db a g = some db') :
    g ≠ some a ∧ (∀ b, g = some b → db.normal a b = false) ∧ SameBut db db' ∧ db'.modify = db.modify ∧ db'.ghosts = db.ghosts ∧
      ∀ x y, db'.normal x y = true ↔ db.normal x y = true ∨ (x = a ∧ g = some y) := by
  cases g with
  | none =>
    rw [insertOpt, Option.some.injEq] at h
    subst h
    exact ⟨by simp, by simp, SameBut.rfl, rfl, rfl, fun x y => by simp⟩
  | some g =>
    obtain ⟨h1, h2, h3, h4, h5, h6⟩ := insertLink_some h
    refine ⟨by simpa using fun h => h1 h.symm, fun b hb => by cases hb; exact h2, h3, h4, h5, fun x y => ?_⟩
    rw [h6, Option.some.injEq]
    grind

theorem removeOpt_same (db : Db) (a : Nat) (g : Option Nat) : SameBut db (removeOpt db a g) := by
  cases g with
  | none => exact SameBut.rfl
  | some g => exact removeLink_same db a g

theorem removeOpt_normal (db : Db) (a : Nat) (g : Option Nat) (x y : Nat) :
    (removeOpt db a g).normal x y = true ↔ db.normal x y = true ∧ ¬ (x = a ∧ g = some y) := by
  cases g with
  | none => simp [removeOpt]
  | some g => rw [removeOpt, removeLink_normal, Option.some.injEq]; grind

theorem removeOpt_modify (db : Db) (a : Nat) (g : Option Nat) : (removeOpt db a g).modify = db.modify := by cases g <;> rfl
theorem removeOpt_ghosts (db : Db) (a : Nat) (g : Option Nat) : (removeOpt db a g).ghosts = db.ghosts := by cases g <;> rfl

theorem addGhost_same (db : Db) (i : Nat) : SameBut db (db.addGhost i) := Eq.refl _

/-- What holds while the old outputs are compared with the new ones. -/
structure PodInv (as bs : List Nat) (c : Nat) (g : Option Nat) (s0 : Pod) (D : Ev → Prop) (s : Pod) : Prop where
  sub : ∀ e, D e → e ∈ diff as bs
  same : SameBut s0.db s.db
  modify : s.db.modify = s0.db.modify
  differ : s.differ = true ↔ s0.differ = true ∨ ∃ e, D e
  normal : ∀ a b, s.db.normal a b = true ↔
    (s0.db.normal a b = true ∧ ¬ (a = c ∧ D (.left b)) ∧ ¬ (g = some b ∧ D (.left a))) ∨
      (a = c ∧ D (.right b)) ∨ (g = some b ∧ D (.right a))
  self : ¬ D (.right c)
  new : ∀ i, D (.right i) → s0.db.normal c i = false ∧ ∀ b, g = some b → s0.db.normal i b = false
  ghosts : ∀ j, s.db.ghosts j = true ↔ s0.db.ghosts j = true ∨ (D (.left j) ∧ s0.db.isKind .ghost j = true)

theorem pod_start (as bs : List Nat) (c : Nat) (g : Option Nat) (s0 : Pod) : PodInv as bs c g s0 (fun _ => False) s0 :=
  ⟨fun _ h => h.elim, SameBut.rfl, rfl, by simp, by simp, id, fun _ h => h.elim, by simp⟩

theorem pod_step {as bs : List Nat} (ha : Asc as) (hb : Asc bs) {c : Nat} {g : Option Nat} (hc : c ∉ as) {s0 : Pod} :
    ∀ (D : Ev → Prop) e s s', ¬ D e → e ∈ diff as bs → PodInv as bs c g s0 D s →
      step1 (rmOutput false c g) (addOutput false c g) s e = some s' → PodInv as bs c g s0 (fun x => x = e ∨ D x) s' := by
  obtain ⟨hleft, hright⟩ := mem_diff ha hb
  · intro D e s s' hnD hmem hinv hstep
    have hlc : ¬ D (.left c) := fun hd => hc ((hleft c).1 (hinv.sub _ hd)).1
    cases e with
    | left i =>
      have hi := (hleft i).1 hmem
      have hic : i ≠ c := fun h => hc (h ▸ hi.1)
      have hnr : ¬ D (.right i) := fun hd => hi.2 ((hright i).1 (hinv.sub _ hd)).1
      rw [step1, rmOutput, if_neg (by decide)] at hstep
      simp only [Option.some.injEq] at hstep
      subst hstep
      have hk : (removeOpt (removeLink s.db c i) i g).isKind .ghost i = s0.db.isKind .ghost i := by
        rw [(removeOpt_same _ i g).kind, (removeLink_same _ c i).kind, hinv.same.kind]
      have hkg : s0.db.isKind .ghost i = true → (removeOpt (removeLink s.db c i) i g).ghosty i = true := by
        intro h
        unfold Db.ghosty
        rw [hk, h]; rfl
      refine ⟨?_, ?_, ?_, ?_, ?_, ?_, ?_, ?_⟩
      · rintro e (rfl | he)
        · exact hmem
        · exact hinv.sub e he
      · refine hinv.same.trans ((removeLink_same _ c i).trans ((removeOpt_same _ i g).trans ?_))
        split
        · exact addGhost_same _ _
        · exact SameBut.rfl
      · show (if _ then _ else _ : Db).modify = _
        split
        · show (removeOpt _ _ _).modify = _
          rw [removeOpt_modify]; exact hinv.modify
        · rw [removeOpt_modify]; exact hinv.modify
      · simp only [true_iff]
        exact .inr ⟨_, .inl rfl⟩
      · intro a b
        have hn : (if (removeOpt (removeLink s.db c i) i g).isKind .ghost i = true then (removeOpt (removeLink s.db c i) i g).addGhost i
            else removeOpt (removeLink s.db c i) i g).normal = (removeOpt (removeLink s.db c i) i g).normal := by
          split <;> rfl
        simp only [hn]
        rw [removeOpt_normal, removeLink_normal, hinv.normal]
        have e1 : ∀ x, (Ev.left x = Ev.left i ∨ D (.left x)) ↔ (x = i ∨ D (.left x)) := by simp
        have e2 : ∀ x, (Ev.right x = Ev.left i ∨ D (.right x)) ↔ D (.right x) := by simp
        rw [e1, e1, e2, e2]
        have := hinv.self
        grind
      · rintro (h | h)
        · cases h
        · exact hinv.self h
      · rintro j (h | h)
        · cases h
        · exact hinv.new j h
      · intro j
        have e1 : ∀ x, (Ev.left x = Ev.left i ∨ D (.left x)) ↔ (x = i ∨ D (.left x)) := by simp
        rw [e1]
        by_cases hg : s0.db.isKind .ghost i = true
        · rw [hk]
          simp only [hg, if_true]
          show ((removeOpt (removeLink s.db c i) i g).ghosts j || (decide (j = i) && (removeOpt (removeLink s.db c i) i g).ghosty i)) = true ↔ _
          rw [hkg hg, removeOpt_ghosts]
          show (s.db.ghosts j || _) = true ↔ _
          simp only [Bool.or_eq_true, hinv.ghosts, Bool.and_true, decide_eq_true_eq]
          grind
        · rw [hk]
          simp only [hg]
          show (removeOpt (removeLink s.db c i) i g).ghosts j = true ↔ _
          rw [removeOpt_ghosts]
          show s.db.ghosts j = true ↔ _
          rw [hinv.ghosts]
          grind
    | right i =>
      have hi := (hright i).1 hmem
      have hnl : ¬ D (.left i) := fun hd => hi.2 ((hleft i).1 (hinv.sub _ hd)).1
      rw [step1, addOutput, if_neg (by decide)] at hstep
      simp only [Option.bind_eq_bind, Option.bind_eq_some_iff] at hstep
      obtain ⟨db1, h1, db2, h2, h3⟩ := hstep
      cases h3
      obtain ⟨k1, k2, k3, k4, k5, k6⟩ := insertLink_some h1
      obtain ⟨l1, l2, l3, l4, l5, l6⟩ := insertOpt_some h2
      have hs0 : s0.db.normal c i = false := by
        cases hx : s0.db.normal c i with
        | false => rfl
        | true =>
          have := (hinv.normal c i).2 (.inl ⟨hx, fun h => hnl h.2, fun h => hlc h.2⟩)
          rw [k2] at this; cases this
      refine ⟨?_, hinv.same.trans (k3.trans l3), ?_, ?_, ?_, ?_, ?_, ?_⟩
      · rintro e (rfl | he)
        · exact hmem
        · exact hinv.sub e he
      · show db2.modify = _
        rw [l4, k4, hinv.modify]
      · simp only [true_iff]
        exact .inr ⟨_, .inl rfl⟩
      · intro a b
        show db2.normal a b = true ↔ _
        have e1 : ∀ x, (Ev.right x = Ev.right i ∨ D (.right x)) ↔ (x = i ∨ D (.right x)) := by simp
        have e2 : ∀ x, (Ev.left x = Ev.right i ∨ D (.left x)) ↔ D (.left x) := by simp
        rw [l6, k6, hinv.normal, e1, e1, e2, e2]
        grind
      · rintro (h | h)
        · cases h; exact k1 rfl
        · exact hinv.self h
      · rintro j (h | h)
        · cases h
          refine ⟨hs0, fun b hb => ?_⟩
          cases hx : s0.db.normal i b with
          | false => rfl
          | true =>
            have h4 := l2 b hb
            have : s.db.normal i b = true := (hinv.normal i b).2 (.inl ⟨hx, fun h => k1 h.1.symm, fun h => hnl h.2⟩)
            have := (k6 i b).2 (.inl this)
            rw [h4] at this; cases this
        · exact hinv.new j h
      · intro j
        show db2.ghosts j = true ↔ _
        have e2 : ∀ x, (Ev.left x = Ev.right i ∨ D (.left x)) ↔ D (.left x) := by simp
        rw [l5, k5, hinv.ghosts, e2]

theorem pod_compare {as bs : List Nat} (ha : Asc as) (hb : Asc bs) {c : Nat} {g : Option Nat} (hc : c ∉ as) {s0 s : Pod}
    (h : compare (rmOutput false c g) (addOutput false c g) as bs s0 = some s) :
    PodInv as bs c g s0 (fun e => e ∈ diff as bs) s :=
  compare_inv ha hb (PodInv as bs c g s0) (pod_start as bs c g s0) (pod_step ha hb hc) h

/-- No link is refused, if the new outputs are in no group. -/
theorem pod_total {as bs : List Nat} (ha : Asc as) (hb : Asc bs) {c : Nat} {g : Option Nat} (hc : c ∉ as) {s0 : Pod} (hc0 : c ≠ 0)
    (hbs : ∀ i ∈ bs, i ∉ as → i ≠ 0 ∧ i ≠ c ∧ s0.db.normal c i = false ∧ ∀ b, g = some b → b ≠ 0 ∧ b ≠ i ∧ s0.db.normal i b = false) :
    ∃ s, compare (rmOutput false c g) (addOutput false c g) as bs s0 = some s := by
  refine compare_progress ha hb (PodInv as bs c g s0) (pod_start as bs c g s0) (pod_step ha hb hc) ?_
  obtain ⟨hleft, hright⟩ := mem_diff ha hb
  intro D e s hnD hmem hinv
  cases e with
  | left i =>
    rw [step1, rmOutput, if_neg (by decide)]
    exact ⟨_, rfl⟩
  | right i =>
    have hi := (hright i).1 hmem
    obtain ⟨b1, b2, b3, b4⟩ := hbs i hi.1 hi.2
    rw [step1, addOutput, if_neg (by decide)]
    have hnl : ¬ D (.left i) := fun hd => hi.2 ((hleft i).1 (hinv.sub _ hd)).1
    have k1 : s.db.normal c i = false := by
      rw [Bool.eq_false_iff]
      intro h
      rcases (hinv.normal c i).1 h with h | h | h
      · rw [b3] at h; cases h.1
      · exact hnD h.2
      · exact hinv.self h.2
    obtain ⟨db1, e1⟩ := insertLink_ok (fun h => b2 h.symm) hc0 b1 k1
    rw [e1]
    cases g with
    | none => exact ⟨_, rfl⟩
    | some b =>
      obtain ⟨c1, c2, c3⟩ := b4 b rfl
      have k2 : s.db.normal i b = false := by
        rw [Bool.eq_false_iff]
        intro h
        rcases (hinv.normal i b).1 h with h | h | h
        · rw [c3] at h; cases h.1
        · exact b2 h.1
        · exact hnD h.2
      have k3 : db1.normal i b = false := by
        rw [Bool.eq_false_iff]
        intro h
        rcases ((insertLink_some e1).2.2.2.2.2 i b).1 h with h | h
        · rw [k2] at h; cases h
        · exact b2 h.1
      obtain ⟨db2, e2⟩ := insertLink_ok (fun h => c2 h.symm) b1 c1 k3
      simp only [Option.bind_eq_bind, Option.bind_some, insertOpt, e2]
      exact ⟨_, rfl⟩

/-- The same for the links of a new group. -/
theorem insertAll_total {g : Nat} (hg : g ≠ 0) : ∀ {l : List Nat} {db : Db}, l.Nodup →
    (∀ i ∈ l, i ≠ 0 ∧ i ≠ g ∧ db.normal i g = false) → ∃ db', insertAll g l db = some db' := by
  intro l
  induction l with
  | nil => exact fun _ _ => ⟨_, rfl⟩
  | cons i l ih =>
    intro db hn hl
    obtain ⟨b1, b2, b3⟩ := hl i List.mem_cons_self
    obtain ⟨n1, n2⟩ := List.nodup_cons.1 hn
    obtain ⟨db1, h1⟩ := insertLink_ok b2 b1 hg b3
    obtain ⟨_, _, _, _, _, k⟩ := insertLink_some h1
    rw [insertAll, h1]
    refine ih n2 fun j hj => ?_
    obtain ⟨d1, d2, d3⟩ := hl j (List.mem_cons_of_mem _ hj)
    refine ⟨d1, d2, ?_⟩
    rw [Bool.eq_false_iff]
    intro h
    rcases (k j g).1 h with h | h
    · rw [d3] at h; cases h
    · exact n1 (h.1 ▸ hj)

theorem insertAll_some {g : Nat} : ∀ {l : List Nat} {db db' : Db}, insertAll g l db = some db' →
    SameBut db db' ∧ db'.modify = db.modify ∧ db'.ghosts = db.ghosts ∧ (∀ i ∈ l, db.normal i g = false) ∧
      ∀ x y, db'.normal x y = true ↔ db.normal x y = true ∨ (x ∈ l ∧ y = g) := by
  intro l
  induction l with
  | nil =>
    intro db db' h
    rw [insertAll, Option.some.injEq] at h
    subst h
    exact ⟨SameBut.rfl, rfl, rfl, by simp, fun x y => by simp⟩
  | cons i l ih =>
    intro db db' h
    rw [insertAll] at h
    simp only [Option.bind_eq_bind, Option.bind_eq_some_iff] at h
    obtain ⟨db1, h1, h2⟩ := h
    obtain ⟨k1, k2, k3, k4, k5, k6⟩ := insertLink_some h1
    obtain ⟨l1, l2, l3, l4, l5⟩ := ih h2
    refine ⟨k3.trans l1, l2.trans k4, l3.trans k5, ?_, fun x y => ?_⟩
    · intro j hj
      rcases List.mem_cons.1 hj with rfl | hj
      · exact k2
      · cases hx : db.normal j g with
        | false => rfl
        | true =>
          have := (k6 j g).2 (.inl hx)
          rw [l4 j hj] at this; cases this
    · rw [l5, k6, List.mem_cons]
      grind

theorem leaveAll_spec (g : Nat) : ∀ (l : List Nat) (db : Db),
    SameBut db (leaveAll g l db) ∧ (leaveAll g l db).ghosts = db.ghosts ∧
    (∀ x y, (leaveAll g l db).normal x y = true ↔ db.normal x y = true ∧ ¬ (x ∈ l ∧ y = g)) ∧
    (∀ j, j ≠ g → ((leaveAll g l db).modify j = true ↔ db.modify j = true ∨
      ∃ i ∈ l, db.normal i j = true ∧ (db.isKind .cmd j = true ∨ db.isKind .group j = true))) ∧
    (db.modify g = true → (leaveAll g l db).modify g = true) := by
  intro l
  induction l with
  | nil => intro db; exact ⟨SameBut.rfl, rfl, by simp [leaveAll], by simp [leaveAll], by simp [leaveAll]⟩
  | cons i l ih =>
    intro db
    obtain ⟨h1, h2, h3, h4, h5⟩ := ih ((removeLink db i g).modifyByInput i)
    have hs : SameBut db ((removeLink db i g).modifyByInput i) := Eq.refl _
    rw [leaveAll]
    refine ⟨hs.trans h1, h2, fun x y => ?_, fun j hj => ?_, fun h => h5 ?_⟩
    · rw [h3]
      show (removeLink db i g).normal x y = true ∧ _ ↔ _
      rw [removeLink_normal, List.mem_cons]
      grind
    · rw [h4 j hj]
      have hn : ∀ x, ((removeLink db i g).modifyByInput i).normal x j = true ↔ db.normal x j = true := by
        intro x
        show (removeLink db i g).normal x j = true ↔ _
        rw [removeLink_normal]
        grind
      have hm : ((removeLink db i g).modifyByInput i).modify j = true ↔
          db.modify j = true ∨ (db.normal i j = true ∧ (db.isKind .cmd j = true ∨ db.isKind .group j = true)) := by
        show ((removeLink db i g).modify j || ((removeLink db i g).normal i j && ((removeLink db i g).isKind .cmd j || (removeLink db i g).isKind .group j))) = true ↔ _
        rw [Bool.or_eq_true, Bool.and_eq_true, Bool.or_eq_true, (removeLink_same db i g).kind, (removeLink_same db i g).kind]
        have : (removeLink db i g).normal i j = true ↔ db.normal i j = true := by rw [removeLink_normal]; grind
        rw [this]
        rfl
      rw [hm, hs.kind, hs.kind]
      simp only [hn, List.mem_cons, exists_eq_or_imp]
      grind
    · show (db.modify g || _) = true
      rw [h]; rfl

theorem joinGroup_some {r : Rule} {db db' : Db} (h : joinGroup r db = some db') :
    SameBut db db' ∧ db'.modify = db.modify ∧ db'.ghosts = db.ghosts ∧
      (∀ g, r.group = some g → r.cmd ≠ g ∧ db.normal r.cmd g = false) ∧
      ∀ x y, db'.normal x y = true ↔ db.normal x y = true ∨ ((x ∈ r.outputs ∨ x = r.cmd) ∧ r.group = some y) := by
  unfold joinGroup at h
  cases hg : r.group with
  | none =>
    rw [hg] at h
    cases h
    exact ⟨SameBut.rfl, rfl, rfl, by simp, fun x y => by simp⟩
  | some g =>
    rw [hg] at h
    simp only [Option.bind_eq_bind, Option.bind_eq_some_iff] at h
    obtain ⟨db1, h1, h2⟩ := h
    obtain ⟨k1, k2, k3, k4, k5⟩ := insertAll_some h1
    obtain ⟨l1, l2, l3, l4, l5, l6⟩ := insertLink_some h2
    refine ⟨k1.trans l3, l4.trans k2, l5.trans k3, ?_, fun x y => ?_⟩
    · intro g' hg'
      cases hg'
      refine ⟨l1, ?_⟩
      cases hx : db.normal r.cmd g with
      | false => rfl
      | true =>
        have := (k5 r.cmd g).2 (.inl hx)
        rw [l2] at this; cases this
    · rw [l6, k5, Option.some.injEq]
      grind

theorem leaveGroup_spec (r : Rule) (old : List Nat) (db : Db) (G : Option Nat) :
    SameBut db (leaveGroup r old db G) ∧
    (∀ j, (leaveGroup r old db G).ghosts j = true ↔ db.ghosts j = true ∨ (G = some j ∧ db.ghosty j = true)) ∧
    (∀ x y, (leaveGroup r old db G).normal x y = true ↔ db.normal x y = true ∧ ¬ ((x ∈ old ∨ x = r.cmd) ∧ G = some y)) ∧
    (∀ j, (leaveGroup r old db G).modify j = true ↔ db.modify j = true ∨ G = some j ∨
      (G.isSome ∧ ∃ i ∈ old, db.normal i j = true ∧ (db.isKind .cmd j = true ∨ db.isKind .group j = true) ∧ G ≠ some j)) := by
  cases G with
  | none => exact ⟨SameBut.rfl, by simp [leaveGroup], by simp [leaveGroup], by simp [leaveGroup]⟩
  | some g =>
    obtain ⟨h1, h2, h3, h4, h5⟩ := leaveAll_spec g old db
    have hs : SameBut db (removeLink (leaveAll g old db) r.cmd g) := h1.trans (removeLink_same _ _ _)
    refine ⟨hs.trans (Eq.refl _), fun j => ?_, fun x y => ?_, fun j => ?_⟩
    · show ((leaveAll g old db).ghosts j || (decide (j = g) && ((removeLink (leaveAll g old db) r.cmd g).addModify g).ghosty g)) = true ↔ _
      have hgy : ((removeLink (leaveAll g old db) r.cmd g).addModify g).ghosty g = db.ghosty g := by
        have hs' : SameBut db ((removeLink (leaveAll g old db) r.cmd g).addModify g) := hs.trans (Eq.refl _)
        unfold Db.ghosty
        rw [hs'.kind, hs'.kind, hs'.kind]
      rw [hgy, h2]
      simp only [Bool.or_eq_true, Bool.and_eq_true, decide_eq_true_eq, Option.some.injEq]
      grind
    · show (removeLink (leaveAll g old db) r.cmd g).normal x y = true ↔ _
      rw [removeLink_normal, h3, Option.some.injEq]
      grind
    · show ((leaveAll g old db).modify j || decide (j = g)) = true ↔ _
      simp only [Bool.or_eq_true, decide_eq_true_eq, Option.some.injEq]
      by_cases hj : j = g
      · subst hj; simp
      · rw [h4 j hj]
        have : ¬ g = j := fun h => hj h.symm
        simp [hj, this]

/-- Everything that the writing of a rule does not touch is the same. -/
def SameNodes (db db' : Db) : Prop :=
  db' = { db with normal := db'.normal, sticky := db'.sticky, group := db'.group, modify := db'.modify, transient := db'.transient, ghosts := db'.ghosts }

theorem SameNodes.trans {a b c : Db} (h : SameNodes a b) (h' : SameNodes b c) : SameNodes a c := by
  unfold SameNodes at *
  rw [h', h]

theorem SameBut.nodes {a b : Db} (h : SameBut a b) : SameNodes a b := by
  unfold SameBut at h
  unfold SameNodes
  rw [h]

theorem SameNodes.kind {a b : Db} (h : SameNodes a b) (k : Kind) (i : Nat) : b.isKind k i = a.isKind k i := by
  rw [h]; rfl

theorem scheduleRule_spec (r : Rule) (db : Db) :
    SameNodes db (scheduleRule r db) ∧ (scheduleRule r db).normal = db.normal ∧ (scheduleRule r db).sticky = db.sticky ∧
    (scheduleRule r db).group = db.group ∧ (scheduleRule r db).ghosts = db.ghosts ∧
    (∀ j, (scheduleRule r db).modify j = true ↔ db.modify j = true ∨ j = r.cmd ∨ r.group = some j) ∧
    (∀ j, (scheduleRule r db).transient j = true ↔ db.transient j = true ∨ (j = r.cmd ∧ ∃ n, db.node j = some n ∧ n.transient = true)) := by
  unfold scheduleRule
  have hnode : (db.addModify r.cmd).node r.cmd = db.node r.cmd := rfl
  cases hn : db.node r.cmd with
  | none =>
    simp only [hnode, hn]
    cases hg : r.group with
    | none => exact ⟨rfl, rfl, rfl, rfl, rfl, fun j => by simp [Db.addModify], fun j => by
        simp only [Bool.false_eq_true, if_false]
        show db.transient j = true ↔ _
        grind⟩
    | some g => exact ⟨rfl, rfl, rfl, rfl, rfl, fun j => by simp [Db.addModify]; grind, fun j => by
        simp only [Bool.false_eq_true, if_false]
        show db.transient j = true ↔ _
        grind⟩
  | some n =>
    simp only [hnode, hn]
    cases ht : n.transient with
    | false =>
      cases hg : r.group with
      | none => exact ⟨rfl, rfl, rfl, rfl, rfl, fun j => by simp [Db.addModify], fun j => by
          simp only [Bool.false_eq_true, if_false]
          show db.transient j = true ↔ _
          grind⟩
      | some g => exact ⟨rfl, rfl, rfl, rfl, rfl, fun j => by simp [Db.addModify]; grind, fun j => by
          simp only [Bool.false_eq_true, if_false]
          show db.transient j = true ↔ _
          grind⟩
    | true =>
      cases hg : r.group with
      | none => exact ⟨rfl, rfl, rfl, rfl, rfl, fun j => by simp [Db.addModify, Db.addTransient], fun j => by
          simp only [if_true]
          show (db.transient j || decide (j = r.cmd)) = true ↔ _
          simp only [Bool.or_eq_true, decide_eq_true_eq]
          grind⟩
      | some g => exact ⟨rfl, rfl, rfl, rfl, rfl, fun j => by simp [Db.addModify, Db.addTransient]; grind, fun j => by
          simp only [if_true]
          show (db.transient j || decide (j = r.cmd)) = true ↔ _
          simp only [Bool.or_eq_true, decide_eq_true_eq]
          grind⟩

end Tup.Links
