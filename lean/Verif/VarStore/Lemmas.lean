import Verif.VarStore.Spec
import Verif.Tree.Props

/-! The comparison of the variables, step by step. -/

namespace Tup.VarStore

open Db Tree

section
variable (db0 : Db) (d : Nat) (F : Str → Option Str)

/-- `i` was a variable whose name is among `P` and which is gone. -/
def Rem (P : Str → Prop) (i : Nat) : Prop :=
  ∃ nd, db0.node i = some nd ∧ nd.dir = d ∧ P nd.name ∧ (db0.vars i).isSome = true ∧ F nd.name = none

/-- `i` was a variable or ghost whose name is among `P` and which has a new value. -/
def Tou (P : Str → Prop) (i : Nat) : Prop :=
  ∃ nd v, db0.node i = some nd ∧ nd.dir = d ∧ P nd.name ∧ F nd.name = some v ∧ db0.vars i ≠ some (some v)

/-- The state after the names in `P` have been dealt with. -/
structure Inv (P : Str → Prop) (s : St) : Prop where
  proper : Proper s.db d
  outer : ∀ j nd, nd.dir ≠ d → (s.db.node j = some nd ↔ db0.node j = some nd)
  todo : ∀ i nd, nd.dir = d → ¬ P nd.name → (s.db.node i = some nd ↔ db0.node i = some nd)
  todoVars : ∀ i nd, nd.dir = d → ¬ P nd.name → s.db.node i = some nd → s.db.vars i = db0.vars i
  done : ∀ n, P n → ∀ v, Value s.db d n v ↔ F n = some v
  create : ∀ j, s.db.create j = true ↔ (db0.create j = true ∧ ¬ Rem db0 d F P j) ∨ Tou db0 d F P j ∨
    ∃ i, Rem db0 d F P i ∧ db0.normal i j = true ∧ db0.isKind .dir j = true
  modify : ∀ j, s.db.modify j = true ↔ (db0.modify j = true ∧ ¬ Rem db0 d F P j) ∨ Tou db0 d F P j ∨
    ∃ i, Rem db0 d F P i ∧ db0.normal i j = true ∧ (db0.isKind .cmd j = true ∨ db0.isKind .group j = true)
  normal : ∀ a b, s.db.normal a b = true ↔ db0.normal a b = true ∧ ¬ Rem db0 d F P a ∧ ¬ Rem db0 d F P b
  ids : ∀ i nd, db0.node i = some nd → nd.dir = d → P nd.name → ¬ Rem db0 d F P i →
    ∃ nd', s.db.node i = some nd' ∧ nd'.dir = d ∧ nd'.name = nd.name

end

variable {db0 : Db} {d : Nat} {F : Str → Option Str} {P : Str → Prop} {s : St}

theorem Rem.kind (hp : Proper db0 d) {j : Nat} (h : Rem db0 d F P j) : db0.isKind .var j = true := by
  obtain ⟨nd, h1, h2, _, h3, _⟩ := h
  rcases hp.kinds j nd h1 h2 with h | h
  · exact isKind_iff.2 ⟨nd, h1, h.1⟩
  · rw [h.2] at h3; cases h3

theorem isKind_unique {db : Db} {k k' : Kind} {j : Nat} (h : db.isKind k j = true) (h' : db.isKind k' j = true) :
    k = k' := by
  obtain ⟨n, h1, h2⟩ := isKind_iff.1 h
  obtain ⟨m, h3, h4⟩ := isKind_iff.1 h'
  rw [h1] at h3
  cases h3
  exact h2.symm.trans h4

/-- The kinds of things that are not in the directory have not changed. -/
theorem Inv.kind (hp : Proper db0 d) (h : Inv db0 d F P s) {k : Kind} (hk : k ≠ .var) (hk' : k ≠ .ghost) (j : Nat) :
    s.db.isKind k j = db0.isKind k j := by
  rw [Bool.eq_iff_iff, isKind_iff, isKind_iff]
  constructor
  · rintro ⟨n, h1, h2⟩
    by_cases hd : n.dir = d
    · rcases h.proper.kinds j n h1 hd with h3 | h3
      · exact absurd (h2.symm.trans h3.1) hk
      · exact absurd (h2.symm.trans h3.1) hk'
    · exact ⟨n, (h.outer j n hd).1 h1, h2⟩
  · rintro ⟨n, h1, h2⟩
    by_cases hd : n.dir = d
    · rcases hp.kinds j n h1 hd with h3 | h3
      · exact absurd (h2.symm.trans h3.1) hk
      · exact absurd (h2.symm.trans h3.1) hk'
    · exact ⟨n, (h.outer j n hd).2 h1, h2⟩

theorem removeVar_spec {i : Nat} {n : Node} (hn : s.db.node i = some n) (hk : n.kind = .var) :
    let t := (removeVar s i).db
    (∀ j, t.create j = ((s.db.create j || (s.db.normal i j && s.db.isKind .dir j)) && !decide (j = i))) ∧
    (∀ j, t.modify j = ((s.db.modify j || (s.db.normal i j && (s.db.isKind .cmd j || s.db.isKind .group j))) &&
      !decide (j = i))) ∧
    (∀ a b, t.normal a b = (s.db.normal a b && !decide (a = i) && !decide (b = i))) ∧
    (∀ j, t.vars j = if j = i then none else s.db.vars j) ∧ t.top = s.db.top ∧
    (∀ j, j ≠ i → t.node j = s.db.node j) ∧
    (t.node i = none ∨ t.node i = some { n with kind := .ghost, src := none }) := by
  have hn' : (delVar ((s.db.createByInput i).modifyByInput i) i).node i = some n := hn
  obtain ⟨h1, h2, _, h3, _, h4, h5, h6, h7⟩ := deleteNameFile_spec hn' (by rw [hk]; decide) (by rw [hk]; decide)
  exact ⟨h1, h2, h3, fun j => by rw [show (removeVar s i).db.vars = _ from h4]; rfl, h5, h6, h7⟩

section
variable {m : Str}

theorem rem_or {i : Nat} : Rem db0 d F (fun n => P n ∨ n = m) i ↔ Rem db0 d F P i ∨ Rem db0 d F (· = m) i := by
  constructor
  · rintro ⟨nd, h1, h2, h3 | h3, h4, h5⟩
    · exact .inl ⟨nd, h1, h2, h3, h4, h5⟩
    · exact .inr ⟨nd, h1, h2, h3, h4, h5⟩
  · rintro (⟨nd, h1, h2, h3, h4, h5⟩ | ⟨nd, h1, h2, h3, h4, h5⟩)
    · exact ⟨nd, h1, h2, .inl h3, h4, h5⟩
    · exact ⟨nd, h1, h2, .inr h3, h4, h5⟩

theorem tou_or {i : Nat} : Tou db0 d F (fun n => P n ∨ n = m) i ↔ Tou db0 d F P i ∨ Tou db0 d F (· = m) i := by
  constructor
  · rintro ⟨nd, v, h1, h2, h3 | h3, h4, h5⟩
    · exact .inl ⟨nd, v, h1, h2, h3, h4, h5⟩
    · exact .inr ⟨nd, v, h1, h2, h3, h4, h5⟩
  · rintro (⟨nd, v, h1, h2, h3, h4, h5⟩ | ⟨nd, v, h1, h2, h3, h4, h5⟩)
    · exact ⟨nd, v, h1, h2, .inl h3, h4, h5⟩
    · exact ⟨nd, v, h1, h2, .inr h3, h4, h5⟩

/-- The variable `m` was stored and is not in the file. -/
theorem inv_remove (hp : Proper db0 d) (h : Inv db0 d F P s) (hm : ¬ P m) {i : Nat} {nd : Node}
    (hn : db0.node i = some nd) (hd : nd.dir = d) (hname : nd.name = m) (hv : (db0.vars i).isSome = true)
    (hF : F m = none) : Inv db0 d F (fun n => P n ∨ n = m) (removeVar s i) := by
  have hn' : s.db.node i = some nd := (h.todo i nd hd (by rw [hname]; exact hm)).2 hn
  have hk : nd.kind = .var := by
    rcases hp.kinds i nd hn hd with h | h
    · exact h.1
    · rw [h.2] at hv; cases hv
  obtain ⟨h1, h2, h3, h4, h5, h6, h7⟩ := removeVar_spec hn' hk
  have hrem : ∀ j, Rem db0 d F (· = m) j ↔ j = i := by
    intro j
    constructor
    · rintro ⟨n, g1, g2, g3, _, _⟩
      exact hp.unique j i n nd g1 hn (g2.trans hd.symm) (g3.trans hname.symm)
    · rintro rfl
      exact ⟨nd, hn, hd, hname, hv, by rw [hname]; exact hF⟩
  have htou : ∀ j, ¬ Tou db0 d F (· = m) j := by
    rintro j ⟨n, v, _, _, g3, g4, _⟩
    rw [g3, hF] at g4
    cases g4
  have hi : ¬ Rem db0 d F P i := by
    rintro ⟨n, g1, _, g3, _⟩
    rw [hn] at g1
    cases g1
    rw [hname] at g3
    exact hm g3
  have hti : ¬ Tou db0 d F P i := by
    rintro ⟨n, _, g1, _, g3, _⟩
    rw [hn] at g1
    cases g1
    rw [hname] at g3
    exact hm g3
  have hvk : ∀ {k}, k ≠ .var → db0.isKind k i = false := by
    intro k hk'
    cases hx : db0.isKind k i with
    | false => rfl
    | true => exact absurd (isKind_unique hx (isKind_iff.2 ⟨nd, hn, hk⟩)) hk'
  have hrk : ∀ {k j}, k ≠ .var → db0.isKind k j = true → ¬ Rem db0 d F P j := by
    intro k j hk' hj hr
    exact hk' (isKind_unique hj (hr.kind hp))
  refine ⟨⟨?_, ?_, ?_⟩, ?_, ?_, ?_, ?_, ?_, ?_, ?_, ?_⟩
  · intro j hj
    rw [h5] at hj
    have := h.proper.bounded j hj
    by_cases hji : j = i
    · subst hji; rw [hn'] at this; cases this
    · rw [h6 j hji]; exact this
  · intro a b n m' ha hb hdir hnm
    have back : ∀ {a n}, (removeVar s i).db.node a = some n → ∃ n', s.db.node a = some n' ∧ n'.dir = n.dir ∧ n'.name = n.name := by
      intro a n ha
      by_cases hai : a = i
      · subst hai
        rcases h7 with h7 | h7
        · rw [h7] at ha; cases ha
        · rw [h7] at ha; cases ha; exact ⟨nd, hn', rfl, rfl⟩
      · rw [h6 a hai] at ha; exact ⟨n, ha, rfl, rfl⟩
    obtain ⟨n', g1, g2, g3⟩ := back ha
    obtain ⟨m'', g4, g5, g6⟩ := back hb
    exact h.proper.unique a b n' m'' g1 g4 (by rw [g2, g5, hdir]) (by rw [g3, g6, hnm])
  · intro j n hj hjd
    by_cases hji : j = i
    · subst hji
      rcases h7 with h7 | h7
      · rw [h7] at hj; cases hj
      · rw [h7] at hj; cases hj
        right
        exact ⟨rfl, by rw [h4, if_pos rfl]⟩
    · rw [h6 j hji] at hj
      rw [h4, if_neg hji]
      exact h.proper.kinds j n hj hjd
  · intro j n hjd
    by_cases hji : j = i
    · subst hji
      constructor
      · intro hj
        rcases h7 with h7 | h7
        · rw [h7] at hj; cases hj
        · rw [h7] at hj; cases hj; exact absurd hd hjd
      · intro hj
        rw [hn] at hj
        cases hj
        exact absurd hd hjd
    · rw [h6 j hji]
      exact h.outer j n hjd
  · intro j n hjd hP
    have hP1 : ¬ P n.name := fun hx => hP (.inl hx)
    have hP2 : n.name ≠ m := fun hx => hP (.inr hx)
    by_cases hji : j = i
    · subst hji
      constructor
      · intro hj
        rcases h7 with h7 | h7
        · rw [h7] at hj; cases hj
        · rw [h7] at hj; cases hj; exact absurd hname hP2
      · intro hj
        rw [hn] at hj
        cases hj
        exact absurd hname hP2
    · rw [h6 j hji]
      exact h.todo j n hjd hP1
  · intro j n hjd hP hj
    have hP1 : ¬ P n.name := fun hx => hP (.inl hx)
    have hP2 : n.name ≠ m := fun hx => hP (.inr hx)
    by_cases hji : j = i
    · subst hji
      rcases h7 with h7 | h7
      · rw [h7] at hj; cases hj
      · rw [h7] at hj; cases hj; exact absurd hname hP2
    · rw [h6 j hji] at hj
      rw [h4, if_neg hji]
      exact h.todoVars j n hjd hP1 hj
  · intro n hP v
    by_cases hnm : n = m
    · subst hnm
      rw [hF]
      constructor
      · rintro ⟨j, x, g1, g2, g3, g4⟩
        by_cases hji : j = i
        · subst hji; rw [h4, if_pos rfl] at g4; cases g4
        · rw [h6 j hji] at g1
          exact absurd (h.proper.unique j i x nd g1 hn' (g2.trans hd.symm) (g3.trans hname.symm)) hji
      · intro hx; cases hx
    · have hP : P n := hP.resolve_right hnm
      rw [← h.done n hP v]
      constructor
      · rintro ⟨j, x, g1, g2, g3, g4⟩
        have hji : j ≠ i := by
          rintro rfl
          rcases h7 with h7 | h7
          · rw [h7] at g1; cases g1
          · rw [h7] at g1; cases g1; exact hnm (g3.symm.trans hname)
        rw [h6 j hji] at g1
        rw [h4, if_neg hji] at g4
        exact ⟨j, x, g1, g2, g3, g4⟩
      · rintro ⟨j, x, g1, g2, g3, g4⟩
        have hji : j ≠ i := by
          rintro rfl
          rw [hn'] at g1
          cases g1
          exact hnm (g3.symm.trans hname)
        exact ⟨j, x, by rw [h6 j hji]; exact g1, g2, g3, by rw [h4, if_neg hji]; exact g4⟩
  · intro j
    rw [h1, Bool.and_eq_true, Bool.or_eq_true, h.create, Bool.and_eq_true, h.normal, h.kind hp (by decide) (by decide)]
    simp only [rem_or, tou_or, hrem, htou, or_false, Bool.not_eq_true', decide_eq_false_iff_not]
    constructor
    · rintro ⟨(⟨g1, g2⟩ | g1 | ⟨a, g1, g2, g3⟩) | ⟨⟨g1, g2, g3⟩, g4⟩, g5⟩
      · exact .inl ⟨g1, fun hx => hx.elim g2 g5⟩
      · exact .inr (.inl g1)
      · exact .inr (.inr ⟨a, .inl g1, g2, g3⟩)
      · exact .inr (.inr ⟨i, .inr rfl, g1, g4⟩)
    · rintro (⟨g1, g2⟩ | g1 | ⟨a, g1 | rfl, g2, g3⟩)
      · exact ⟨.inl (.inl ⟨g1, fun hx => g2 (.inl hx)⟩), fun hx => g2 (.inr hx)⟩
      · exact ⟨.inl (.inr (.inl g1)), by rintro rfl; exact hti g1⟩
      · refine ⟨.inl (.inr (.inr ⟨a, g1, g2, g3⟩)), ?_⟩
        rintro rfl
        rw [hvk (by decide)] at g3
        cases g3
      · refine ⟨.inr ⟨⟨g2, hi, hrk (by decide) g3⟩, g3⟩, ?_⟩
        rintro rfl
        rw [hvk (by decide)] at g3
        cases g3
  · intro j
    rw [h2, Bool.and_eq_true, Bool.or_eq_true, h.modify, Bool.and_eq_true, h.normal, h.kind hp (by decide) (by decide),
      h.kind hp (by decide) (by decide), Bool.or_eq_true]
    simp only [rem_or, tou_or, hrem, htou, or_false, Bool.not_eq_true', decide_eq_false_iff_not]
    have hki : ¬ (db0.isKind .cmd i = true ∨ db0.isKind .group i = true) := by
      rw [hvk (by decide), hvk (by decide)]; simp
    constructor
    · rintro ⟨(⟨g1, g2⟩ | g1 | ⟨a, g1, g2, g3⟩) | ⟨⟨g1, g2, g3⟩, g4⟩, g5⟩
      · exact .inl ⟨g1, fun hx => hx.elim g2 g5⟩
      · exact .inr (.inl g1)
      · exact .inr (.inr ⟨a, .inl g1, g2, g3⟩)
      · exact .inr (.inr ⟨i, .inr rfl, g1, g4⟩)
    · rintro (⟨g1, g2⟩ | g1 | ⟨a, g1 | rfl, g2, g3⟩)
      · exact ⟨.inl (.inl ⟨g1, fun hx => g2 (.inl hx)⟩), fun hx => g2 (.inr hx)⟩
      · exact ⟨.inl (.inr (.inl g1)), by rintro rfl; exact hti g1⟩
      · refine ⟨.inl (.inr (.inr ⟨a, g1, g2, g3⟩)), ?_⟩
        rintro rfl
        exact hki g3
      · refine ⟨.inr ⟨⟨g2, hi, ?_⟩, g3⟩, ?_⟩
        · rcases g3 with g3 | g3 <;> exact hrk (by decide) g3
        · rintro rfl
          exact hki g3
  · intro a b
    rw [h3, Bool.and_eq_true, Bool.and_eq_true, h.normal]
    simp only [rem_or, hrem, Bool.not_eq_true', decide_eq_false_iff_not, not_or]
    constructor
    · rintro ⟨⟨⟨g1, g2, g3⟩, g4⟩, g5⟩
      exact ⟨g1, ⟨g2, g4⟩, g3, g5⟩
    · rintro ⟨g1, ⟨g2, g4⟩, g3, g5⟩
      exact ⟨⟨⟨g1, g2, g3⟩, g4⟩, g5⟩
  · intro j n hj hjd hP hr
    rw [rem_or, hrem, not_or] at hr
    rcases hP with hP | hP
    · obtain ⟨n', g1, g2, g3⟩ := h.ids j n hj hjd hP hr.1
      exact ⟨n', by rw [h6 j hr.2]; exact g1, g2, g3⟩
    · exact absurd (hp.unique j i n nd hj hn (hjd.trans hd.symm) (hP.trans hname.symm)) hr.2

/-- The variable `m` had a node, and gets a value that it did not have. -/
theorem inv_touch (hp : Proper db0 d) (h : Inv db0 d F P s) (hm : ¬ P m) {i : Nat} {nd nd' : Node} {w : Str} {t : St}
    (hn : db0.node i = some nd) (hd : nd.dir = d) (hname : nd.name = m) (hv : db0.vars i ≠ some (some w))
    (hF : F m = some w) (h1 : ∀ j, t.db.create j = (s.db.create j || decide (j = i)))
    (h2 : ∀ j, t.db.modify j = (s.db.modify j || decide (j = i))) (h3 : t.db.normal = s.db.normal)
    (h4 : ∀ j, t.db.vars j = if j = i then some (some w) else s.db.vars j) (h5 : t.db.top = s.db.top)
    (h6 : ∀ j, j ≠ i → t.db.node j = s.db.node j) (h7 : t.db.node i = some nd') (hd' : nd'.dir = d)
    (hname' : nd'.name = m) (hk' : nd'.kind = .var) : Inv db0 d F (fun n => P n ∨ n = m) t := by
  have hn' : s.db.node i = some nd := (h.todo i nd hd (by rw [hname]; exact hm)).2 hn
  have htou : ∀ j, Tou db0 d F (· = m) j ↔ j = i := by
    intro j
    constructor
    · rintro ⟨n, v, g1, g2, g3, _, _⟩
      exact hp.unique j i n nd g1 hn (g2.trans hd.symm) (g3.trans hname.symm)
    · rintro rfl
      exact ⟨nd, w, hn, hd, hname, by rw [hname]; exact hF, hv⟩
  have hrem : ∀ j, ¬ Rem db0 d F (· = m) j := by
    rintro j ⟨n, _, _, g3, _, g4⟩
    rw [g3, hF] at g4
    cases g4
  refine ⟨⟨?_, ?_, ?_⟩, ?_, ?_, ?_, ?_, ?_, ?_, ?_, ?_⟩
  · intro j hj
    rw [h5] at hj
    have := h.proper.bounded j hj
    by_cases hji : j = i
    · subst hji; rw [hn'] at this; cases this
    · rw [h6 j hji]; exact this
  · intro a b n m' ha hb hdir hnm
    have back : ∀ {a n}, t.db.node a = some n → ∃ n', s.db.node a = some n' ∧ n'.dir = n.dir ∧ n'.name = n.name := by
      intro a n ha
      by_cases hai : a = i
      · subst hai
        rw [h7] at ha; cases ha; exact ⟨nd, hn', hd.trans hd'.symm, hname.trans hname'.symm⟩
      · rw [h6 a hai] at ha; exact ⟨n, ha, rfl, rfl⟩
    obtain ⟨n', g1, g2, g3⟩ := back ha
    obtain ⟨m'', g4, g5, g6⟩ := back hb
    exact h.proper.unique a b n' m'' g1 g4 (by rw [g2, g5, hdir]) (by rw [g3, g6, hnm])
  · intro j n hj hjd
    by_cases hji : j = i
    · subst hji
      rw [h7] at hj; cases hj
      left
      exact ⟨hk', w, by rw [h4, if_pos rfl]⟩
    · rw [h6 j hji] at hj
      rw [h4, if_neg hji]
      exact h.proper.kinds j n hj hjd
  · intro j n hjd
    by_cases hji : j = i
    · subst hji
      constructor
      · intro hj
        rw [h7] at hj; cases hj; exact absurd hd' hjd
      · intro hj
        rw [hn] at hj
        cases hj
        exact absurd hd hjd
    · rw [h6 j hji]
      exact h.outer j n hjd
  · intro j n hjd hP
    have hP1 : ¬ P n.name := fun hx => hP (.inl hx)
    have hP2 : n.name ≠ m := fun hx => hP (.inr hx)
    by_cases hji : j = i
    · subst hji
      constructor
      · intro hj
        rw [h7] at hj; cases hj; exact absurd hname' hP2
      · intro hj
        rw [hn] at hj
        cases hj
        exact absurd hname hP2
    · rw [h6 j hji]
      exact h.todo j n hjd hP1
  · intro j n hjd hP hj
    have hP1 : ¬ P n.name := fun hx => hP (.inl hx)
    have hP2 : n.name ≠ m := fun hx => hP (.inr hx)
    by_cases hji : j = i
    · subst hji
      rw [h7] at hj; cases hj; exact absurd hname' hP2
    · rw [h6 j hji] at hj
      rw [h4, if_neg hji]
      exact h.todoVars j n hjd hP1 hj
  · intro n hP v
    by_cases hnm : n = m
    · subst hnm
      rw [hF]
      constructor
      · rintro ⟨j, x, g1, g2, g3, g4⟩
        by_cases hji : j = i
        · subst hji; rw [h4, if_pos rfl] at g4; exact Option.some.inj g4
        · rw [h6 j hji] at g1
          exact absurd (h.proper.unique j i x nd g1 hn' (g2.trans hd.symm) (g3.trans hname.symm)) hji
      · intro hx
        cases hx
        exact ⟨i, nd', h7, hd', hname', by rw [h4, if_pos rfl]⟩
    · have hP : P n := hP.resolve_right hnm
      rw [← h.done n hP v]
      constructor
      · rintro ⟨j, x, g1, g2, g3, g4⟩
        have hji : j ≠ i := by
          rintro rfl
          rw [h7] at g1; cases g1; exact hnm (g3.symm.trans hname')
        rw [h6 j hji] at g1
        rw [h4, if_neg hji] at g4
        exact ⟨j, x, g1, g2, g3, g4⟩
      · rintro ⟨j, x, g1, g2, g3, g4⟩
        have hji : j ≠ i := by
          rintro rfl
          rw [hn'] at g1
          cases g1
          exact hnm (g3.symm.trans hname)
        exact ⟨j, x, by rw [h6 j hji]; exact g1, g2, g3, by rw [h4, if_neg hji]; exact g4⟩
  · intro j
    rw [h1, Bool.or_eq_true, h.create, decide_eq_true_eq]
    simp only [rem_or, tou_or, hrem, htou, or_false]
    rw [← or_assoc, ← or_assoc]
    exact ⟨fun hx => by rcases hx with ((a | a) | a) | a <;> simp [a], fun hx => by
      rcases hx with (a | a | a) | a <;> simp [a]⟩
  · intro j
    rw [h2, Bool.or_eq_true, h.modify, decide_eq_true_eq]
    simp only [rem_or, tou_or, hrem, htou, or_false]
    rw [← or_assoc, ← or_assoc]
    exact ⟨fun hx => by rcases hx with ((a | a) | a) | a <;> simp [a], fun hx => by
      rcases hx with (a | a | a) | a <;> simp [a]⟩
  · intro a b
    rw [h3, h.normal]
    simp only [rem_or, hrem, or_false]
  · intro j n hj hjd hP hr
    rw [rem_or, not_or] at hr
    rcases hP with hP | hP
    · obtain ⟨n', g1, g2, g3⟩ := h.ids j n hj hjd hP hr.1
      have hji : j ≠ i := by
        rintro rfl
        rw [hn] at hj
        cases hj
        rw [hname] at hP
        exact hm hP
      exact ⟨n', by rw [h6 j hji]; exact g1, g2, g3⟩
    · have := hp.unique j i n nd hj hn (hjd.trans hd.symm) (hP.trans hname.symm)
      subst this
      exact ⟨nd', h7, hd', hname'.trans hP.symm⟩

/-- Nothing is done about `m`, which had its value already. -/
theorem inv_same (hp : Proper db0 d) (h : Inv db0 d F P s) (hm : ¬ P m)
    (hF : ∀ v, Value db0 d m v ↔ F m = some v) : Inv db0 d F (fun n => P n ∨ n = m) s := by
  have htou : ∀ j, ¬ Tou db0 d F (· = m) j := by
    rintro j ⟨n, v, g1, g2, rfl, g3, g4⟩
    obtain ⟨k, x, g5, g6, g7, g8⟩ := (hF v).2 g3
    rw [hp.unique j k n x g1 g5 (g2.trans g6.symm) g7.symm] at g4
    exact g4 g8
  have hrem : ∀ j, ¬ Rem db0 d F (· = m) j := by
    rintro j ⟨n, g1, g2, rfl, g3, g4⟩
    obtain ⟨v, hv⟩ : ∃ v, db0.vars j = some (some v) := by
      rcases hp.kinds j n g1 g2 with hx | hx
      · exact hx.2
      · rw [hx.2] at g3; cases g3
    have := (hF v).1 ⟨j, n, g1, g2, rfl, hv⟩
    rw [g4] at this
    cases this
  have hval : ∀ v, Value s.db d m v ↔ Value db0 d m v := by
    intro v
    constructor
    · rintro ⟨j, x, g1, g2, rfl, g4⟩
      rw [h.todoVars j x g2 hm g1] at g4
      exact ⟨j, x, (h.todo j x g2 hm).1 g1, g2, rfl, g4⟩
    · rintro ⟨j, x, g1, g2, rfl, g4⟩
      have := (h.todo j x g2 hm).2 g1
      rw [← h.todoVars j x g2 hm this] at g4
      exact ⟨j, x, this, g2, rfl, g4⟩
  refine ⟨h.proper, h.outer, fun j n hd hP => h.todo j n hd fun hx => hP (.inl hx),
    fun j n hd hP => h.todoVars j n hd fun hx => hP (.inl hx), ?_, ?_, ?_, ?_, ?_⟩
  · intro n hP v
    by_cases hnm : n = m
    · subst hnm
      rw [hval, hF]
    · exact h.done n (hP.resolve_right hnm) v
  · intro j
    rw [h.create]
    simp only [rem_or, tou_or, hrem, htou, or_false]
  · intro j
    rw [h.modify]
    simp only [rem_or, tou_or, hrem, htou, or_false]
  · intro a b
    rw [h.normal]
    simp only [rem_or, hrem, or_false]
  · intro j n hj hjd hP hr
    rw [rem_or, not_or] at hr
    rcases hP with hP | hP
    · exact h.ids j n hj hjd hP hr.1
    · subst hP
      exact ⟨n, (h.todo j n hjd hm).2 hj, hjd, rfl⟩

/-- The variable `m` is new. -/
theorem inv_new (h : Inv db0 d F P s) (hm : ¬ P m) {w : Str}
    (hno : s.db.select d m = none) (hF : F m = some w) {b : Bool} :
    Inv db0 d F (fun n => P n ∨ n = m)
      ⟨setVar (s.db.insertNode { dir := d, kind := .var, name := m }).1
        (s.db.insertNode { dir := d, kind := .var, name := m }).2 (some w), b⟩ := by
  have hs0 : ∀ j n, s.db.node j = some n → n.dir = d → n.name ≠ m := fun j n h1 h2 =>
    select_none h.proper.bounded hno h1 h2
  have h00 : ∀ j n, db0.node j = some n → n.dir = d → n.name ≠ m := by
    rintro j n h1 h2 rfl
    exact hs0 j n ((h.todo j n h2 hm).2 h1) h2 rfl
  have hk0 : s.db.node (fresh s.db.node s.db.top) = none := fresh_node h.proper.bounded
  generalize hk : fresh s.db.node s.db.top = k at hk0
  generalize hnn : ({ dir := d, kind := .var, name := m } : Node) = nn
  have hnd : nn.dir = d := by rw [← hnn]
  have hnname : nn.name = m := by rw [← hnn]
  have hnk : nn.kind = .var := by rw [← hnn]
  generalize ht : (⟨setVar (s.db.insertNode nn).1 (s.db.insertNode nn).2 (some w), b⟩ : St) = t
  have h1 : t.db.create = s.db.create := by rw [← ht]; rfl
  have h2 : t.db.modify = s.db.modify := by rw [← ht]; rfl
  have h3 : t.db.normal = s.db.normal := by rw [← ht]; rfl
  have h4 : ∀ j, t.db.vars j = if j = k then some (some w) else s.db.vars j := by rw [← ht, ← hk]; intro j; rfl
  have h5 : t.db.top = max s.db.top (k + 1) := by rw [← ht, ← hk]; rfl
  have h6 : ∀ j, t.db.node j = if j = k then some nn else s.db.node j := by rw [← ht, ← hk]; intro j; rfl
  have htou : ∀ j, ¬ Tou db0 d F (· = m) j := by
    rintro j ⟨n, v, g1, g2, g3, _⟩
    exact h00 j n g1 g2 g3
  have hrem : ∀ j, ¬ Rem db0 d F (· = m) j := by
    rintro j ⟨n, g1, g2, g3, _⟩
    exact h00 j n g1 g2 g3
  have hne : ∀ {j n}, s.db.node j = some n → j ≠ k := by
    rintro j n g rfl
    rw [hk0] at g
    cases g
  refine ⟨⟨?_, ?_, ?_⟩, ?_, ?_, ?_, ?_, ?_, ?_, ?_, ?_⟩
  · intro j hj
    rw [h5] at hj
    rw [h6, if_neg (by omega)]
    exact h.proper.bounded j (by omega)
  · intro a b n n' ha hb hdir hnm
    rw [h6] at ha hb
    by_cases hak : a = k
    · rw [if_pos hak] at ha
      cases ha
      by_cases hbk : b = k
      · rw [hak, hbk]
      · rw [if_neg hbk] at hb
        exact absurd (hnm.symm.trans hnname) (hs0 b n' hb (hdir.symm.trans hnd))
    · rw [if_neg hak] at ha
      by_cases hbk : b = k
      · rw [if_pos hbk] at hb
        cases hb
        exact absurd (hnm.trans hnname) (hs0 a n ha (hdir.trans hnd))
      · rw [if_neg hbk] at hb
        exact h.proper.unique a b n n' ha hb hdir hnm
  · intro j n hj hjd
    rw [h6] at hj
    rw [h4]
    by_cases hjk : j = k
    · rw [if_pos hjk] at hj
      cases hj
      rw [if_pos hjk]
      exact .inl ⟨hnk, w, rfl⟩
    · rw [if_neg hjk] at hj
      rw [if_neg hjk]
      exact h.proper.kinds j n hj hjd
  · intro j n hjd
    rw [h6]
    by_cases hjk : j = k
    · rw [if_pos hjk]
      constructor
      · intro g; cases g; exact absurd hnd hjd
      · intro g; exact absurd hjk (hne ((h.outer j n hjd).2 g))
    · rw [if_neg hjk]
      exact h.outer j n hjd
  · intro j n hjd hP
    rw [h6]
    by_cases hjk : j = k
    · rw [if_pos hjk]
      constructor
      · intro g; cases g; exact absurd (.inr hnname) hP
      · intro g; exact absurd hjk (hne ((h.todo j n hjd fun hx => hP (.inl hx)).2 g))
    · rw [if_neg hjk]
      exact h.todo j n hjd fun hx => hP (.inl hx)
  · intro j n hjd hP hj
    rw [h6] at hj
    rw [h4]
    by_cases hjk : j = k
    · rw [if_pos hjk] at hj
      cases hj
      exact absurd (.inr hnname) hP
    · rw [if_neg hjk] at hj ⊢
      exact h.todoVars j n hjd (fun hx => hP (.inl hx)) hj
  · intro n hP v
    by_cases hnm : n = m
    · subst hnm
      rw [hF]
      constructor
      · rintro ⟨j, x, g1, g2, g3, g4⟩
        rw [h6] at g1
        rw [h4] at g4
        by_cases hjk : j = k
        · rw [if_pos hjk] at g4; exact Option.some.inj g4
        · rw [if_neg hjk] at g1
          exact absurd g3 (hs0 j x g1 g2)
      · intro hx
        cases hx
        exact ⟨k, nn, by rw [h6, if_pos rfl], hnd, hnname, by rw [h4, if_pos rfl]⟩
    · rw [← h.done n (hP.resolve_right hnm) v]
      constructor
      · rintro ⟨j, x, g1, g2, g3, g4⟩
        rw [h6] at g1
        rw [h4] at g4
        by_cases hjk : j = k
        · rw [if_pos hjk] at g1
          cases g1
          exact absurd (g3.symm.trans hnname) hnm
        · rw [if_neg hjk] at g1 g4
          exact ⟨j, x, g1, g2, g3, g4⟩
      · rintro ⟨j, x, g1, g2, g3, g4⟩
        exact ⟨j, x, by rw [h6, if_neg (hne g1)]; exact g1, g2, g3, by rw [h4, if_neg (hne g1)]; exact g4⟩
  · intro j
    rw [h1, h.create]
    simp only [rem_or, tou_or, hrem, htou, or_false]
  · intro j
    rw [h2, h.modify]
    simp only [rem_or, tou_or, hrem, htou, or_false]
  · intro a b
    rw [h3, h.normal]
    simp only [rem_or, hrem, or_false]
  · intro j n hj hjd hP hr
    rw [rem_or, not_or] at hr
    rcases hP with hP | hP
    · obtain ⟨n', g1, g2, g3⟩ := h.ids j n hj hjd hP hr.1
      exact ⟨n', by rw [h6, if_neg (hne g1)]; exact g1, g2, g3⟩
    · exact absurd hP (h00 j n hj hjd)

end

/-- What is true of the elements of the walk. -/
def Good (db0 : Db) (d : Nat) (F : Str → Option Str) (tent : Str → Option Nat) : Diff Var → Prop
  | .onlyA x => ∃ i nd, tent x.name = some i ∧ db0.node i = some nd ∧ nd.dir = d ∧ nd.name = x.name ∧
      (db0.vars i).isSome = true ∧ F x.name = none
  | .onlyB y => ∃ w, y.value = some w ∧ F y.name = some w ∧ ∀ v, ¬ Value db0 d y.name v
  | .both x y => ∃ i nd w, tent x.name = some i ∧ db0.node i = some nd ∧ nd.dir = d ∧ nd.name = x.name ∧
      db0.vars i = some x.value ∧ x.value.isSome = true ∧ y.value = some w ∧ F x.name = some w

/-- Is this element a change? -/
def isChange : Diff Var → Prop
  | .both x y => x.value ≠ y.value
  | _ => True

theorem inv_step (hp : Proper db0 d) (h : Inv db0 d F P s) {tent : Str → Option Nat} {e : Diff Var}
    (hP : ¬ P e.elem.name) (hg : Good db0 d F tent e) :
    ∃ t, step d tent s e = some t ∧ Inv db0 d F (fun n => P n ∨ n = e.elem.name) t ∧
      (t.changed = true ↔ s.changed = true ∨ isChange e) := by
  cases e with
  | onlyA x =>
    obtain ⟨i, nd, h1, h2, h3, h4, h5, h6⟩ := hg
    refine ⟨removeVar s i, by simp only [step, h1, Option.map_some], inv_remove hp h hP h2 h3 h4 h5 h6, ?_⟩
    simp [removeVar, isChange]
  | onlyB y =>
    obtain ⟨w, h1, h2, h3⟩ := hg
    simp only [Diff.elem] at hP ⊢
    simp only [step, addVar]
    cases hs : s.db.select d y.name with
    | none =>
      simp only
      rw [h1]
      exact ⟨_, rfl, inv_new h hP hs h2, by simp [isChange]⟩
    | some i =>
      simp only
      obtain ⟨nd, g1, g2, g3⟩ := select_some hs
      have g4 := (h.todo i nd g2 (by rw [g3]; exact hP)).1 g1
      have hgh : nd.kind = .ghost ∧ s.db.vars i = none := by
        rcases h.proper.kinds i nd g1 g2 with hx | hx
        · exfalso
          obtain ⟨v, hv⟩ := hx.2
          rw [h.todoVars i nd g2 (by rw [g3]; exact hP) g1] at hv
          exact h3 v ⟨i, nd, g4, g2, g3, hv⟩
        · exact hx
      rw [if_pos (isKind_iff.2 ⟨nd, g1, hgh.1⟩)]
      refine ⟨_, rfl, ?_, by simp [isChange]⟩
      refine inv_touch hp h hP (nd := nd) (nd' := { nd with kind := .var, src := none }) (w := w) g4 g2 g3 ?_ h2
        (fun j => rfl) (fun j => rfl) rfl ?_ rfl ?_ ?_ g2 g3 rfl
      · intro hx
        exact h3 w ⟨i, nd, g4, g2, g3, hx⟩
      · intro j
        rw [h1]
        rfl
      · intro j hj
        show (if j = i then _ else if j = i then _ else s.db.node j) = _
        rw [if_neg hj, if_neg hj]
      · show (if i = i then (if i = i then (s.db.node i).map _ else _).map _ else _) = _
        rw [if_pos rfl, if_pos rfl, g1]
        rfl
  | both x y =>
    obtain ⟨i, nd, w, h1, h2, h3, h4, h5, h6, h7, h8⟩ := hg
    simp only [Diff.elem] at hP ⊢
    refine ⟨compareVars s i x.value y.value, by simp only [step, h1, Option.map_some], ?_, ?_⟩
    · have hn' : s.db.node i = some nd := (h.todo i nd h3 (by rw [h4]; exact hP)).2 h2
      unfold compareVars
      split
      · next hc =>
        simp only [Bool.and_eq_true, decide_eq_true_eq] at hc
        refine inv_same hp h hP ?_
        intro v
        rw [h8, ← h7, ← hc.2]
        constructor
        · rintro ⟨j, n, g1, g2, g3, g4⟩
          rw [hp.unique j i n nd g1 h2 (g2.trans h3.symm) (g3.trans h4.symm), h5] at g4
          exact Option.some.inj g4
        · intro hv
          exact ⟨i, nd, h2, h3, h4, by rw [h5, hv]⟩
      · next hc =>
        have hk : nd.kind = .var := by
          rcases hp.kinds i nd h2 h3 with hx | hx
          · exact hx.1
          · rw [hx.2] at h5; cases h5
        refine inv_touch hp h hP (nd := nd) (nd' := nd) (w := w) h2 h3 h4 ?_ h8
          (fun j => rfl) (fun j => rfl) rfl ?_ rfl ?_ hn' h3 h4 hk
        · intro hx
          apply hc
          rw [Bool.and_eq_true, decide_eq_true_eq]
          exact ⟨isKind_iff.2 ⟨nd, hn', hk⟩, by rw [h7]; exact Option.some.inj (h5.symm.trans hx)⟩
        · intro j
          rw [h7]
          rfl
        · intro j hj
          rfl
    · have hn' : s.db.node i = some nd := (h.todo i nd h3 (by rw [h4]; exact hP)).2 h2
      have hk : nd.kind = .var := by
        rcases hp.kinds i nd h2 h3 with hx | hx
        · exact hx.1
        · rw [hx.2] at h5; cases h5
      have hik : s.db.isKind .var i = true := isKind_iff.2 ⟨nd, hn', hk⟩
      unfold compareVars
      rw [hik, Bool.true_and]
      by_cases hc : x.value = y.value
      · rw [if_pos (decide_eq_true hc)]
        simp [isChange, hc]
      · rw [if_neg (by simpa using hc)]
        simp [isChange, hc]

theorem inv_congr {P' : Str → Prop} (h : Inv db0 d F P s) (hP : ∀ n, P n ↔ P' n) : Inv db0 d F P' s := by
  have : P = P' := funext fun n => propext (hP n)
  rw [← this]
  exact h

theorem inv_steps (hp : Proper db0 d) {tent : Str → Option Nat} (l : List (Diff Var)) :
    ∀ {P : Str → Prop} {s : St}, Inv db0 d F P s → (∀ e ∈ l, ¬ P e.elem.name) →
    l.Pairwise (fun e f => e.elem.name ≠ f.elem.name) → (∀ e ∈ l, Good db0 d F tent e) →
    ∃ t, steps d tent s l = some t ∧ Inv db0 d F (fun n => P n ∨ ∃ e ∈ l, n = e.elem.name) t ∧
      (t.changed = true ↔ s.changed = true ∨ ∃ e ∈ l, isChange e) := by
  induction l with
  | nil =>
    intro P s h _ _ _
    exact ⟨s, rfl, inv_congr h (by simp), by simp⟩
  | cons e l ih =>
    intro P s h hP hl hg
    obtain ⟨t, h1, h2, h3⟩ := inv_step hp h (hP e List.mem_cons_self) (hg e List.mem_cons_self)
    obtain ⟨hl1, hl2⟩ := List.pairwise_cons.1 hl
    obtain ⟨u, h4, h5, h6⟩ := ih h2 (by
      intro f hf hx
      rcases hx with hx | hx
      · exact hP f (List.mem_cons_of_mem _ hf) hx
      · exact hl1 f hf hx.symm) hl2 fun f hf => hg f (List.mem_cons_of_mem _ hf)
    refine ⟨u, by rw [steps, h1]; exact h4, inv_congr h5 ?_, ?_⟩
    · intro n
      simp only [List.mem_cons, exists_eq_or_imp, or_assoc]
    · rw [h6, h3]
      simp only [List.mem_cons, exists_eq_or_imp, or_assoc]

theorem inv_init (hp : Proper db0 d) (b : Bool) : Inv db0 d F (fun _ => False) ⟨db0, b⟩ := by
  have hr : ∀ i, ¬ Rem db0 d F (fun _ => False) i := fun i ⟨_, _, _, h, _⟩ => h
  have ht : ∀ i, ¬ Tou db0 d F (fun _ => False) i := fun i ⟨_, _, _, _, h, _⟩ => h
  refine ⟨hp, fun _ _ _ => Iff.rfl, fun _ _ _ _ => Iff.rfl, fun _ _ _ _ _ => rfl, fun _ h => h.elim, ?_, ?_, ?_,
    fun _ _ _ _ h => h.elim⟩
  · intro j; simp [hr, ht]
  · intro j; simp [hr, ht]
  · intro a b; simp [hr]

end Tup.VarStore
