import Verif.Cache.Steps

/-! Helpers about the inputs that are kept with a command, and about two states with the same table. -/

namespace Tup.Cache

open Tup.Db (Kind)

/-- A copy that is up to date is the same as the table. -/
structure Fresh (s : Sticky) : Prop where
  pos : 0 < s.count
  le : ∀ b, s.got b ≤ s.count
  kept : ∀ b, s.got b = s.count → s.kept b = s.link b ∧ s.keptGroups b = (s.link b).filter s.group

theorem treeAdd_some {l l' : List Nat} {a : Nat} (h : treeAdd l a = some l') : l' = a :: l := by
  unfold treeAdd at h
  split at h
  · cases h
  · cases h; rfl

theorem put_same {α : Type} (f : Nat → α) (i : Nat) (x : α) : put f i x i = x := if_pos rfl

theorem put_ne {α : Type} (f : Nat → α) {i j : Nat} (x : α) (h : j ≠ i) : put f i x j = f j := if_neg h

theorem sstep_fresh {s s' : Sticky} {o : SOp} {out : List (List Nat × List Nat)} (h : Fresh s) (hs : sstep s o = some (s', out)) :
    Fresh s' ∧ s'.group = s.group ∧ (∀ os, out ++ inputs s.group s'.link os = inputs s.group s.link (o :: os)) := by
  cases o with
  | insert a b =>
    simp only [sstep] at hs
    split at hs
    · cases hs
    split at hs
    · cases hs
    split at hs
    · rename_i hg
      cases hs
      refine ⟨⟨h.pos, h.le, ?_⟩, rfl, fun os => ?_⟩
      · intro x hx
        simp only at hx ⊢
        have hxb : x ≠ b := by
          rintro rfl
          have := h.pos
          omega
        rw [put_ne _ _ hxb]
        exact h.kept x hx
      · rfl
    · split at hs
      · cases hs
      rename_i l hl
      have hl := treeAdd_some hl
      subst hl
      split at hs
      · rename_i hga
        split at hs
        · cases hs
        rename_i l hl
        have hl := treeAdd_some hl
        subst hl
        cases hs
        refine ⟨⟨h.pos, h.le, ?_⟩, rfl, fun os => ?_⟩
        · intro x hx
          simp only at hx ⊢
          obtain ⟨h1, h2⟩ := h.kept x hx
          by_cases hxb : x = b
          · subst hxb
            rw [put_same, put_same, put_same, h1, h2, List.filter_cons, if_pos hga]
            exact ⟨rfl, rfl⟩
          · rw [put_ne _ _ hxb, put_ne _ _ hxb, put_ne _ _ hxb]
            exact ⟨h1, h2⟩
        · rfl
      · rename_i hga
        cases hs
        refine ⟨⟨h.pos, h.le, ?_⟩, rfl, fun os => ?_⟩
        · intro x hx
          simp only at hx ⊢
          obtain ⟨h1, h2⟩ := h.kept x hx
          by_cases hxb : x = b
          · subst hxb
            rw [put_same, put_same, h1, h2, List.filter_cons, if_neg hga]
            exact ⟨rfl, rfl⟩
          · rw [put_ne _ _ hxb, put_ne _ _ hxb]
            exact ⟨h1, h2⟩
        · rfl
  | remove a b =>
    simp only [sstep] at hs
    have hcomm : ∀ l : List Nat, (l.filter s.group).filter (fun x => decide (x ≠ a)) = (l.filter fun x => decide (x ≠ a)).filter s.group := by
      intro l
      rw [List.filter_filter, List.filter_filter]
      congr 1
      funext x
      rw [Bool.and_comm]
    have hnop : s.group a = false → ∀ l : List Nat, l.filter s.group = (l.filter fun x => decide (x ≠ a)).filter s.group := by
      intro ha l
      rw [List.filter_filter]
      congr 1
      funext x
      by_cases hx : x = a
      · subst hx
        rw [ha]
        rfl
      · rw [decide_eq_true hx, Bool.and_true]
    split at hs
    · rename_i hg
      cases hs
      refine ⟨⟨h.pos, h.le, ?_⟩, rfl, fun os => ?_⟩
      · intro x hx
        simp only at hx ⊢
        have hxb : x ≠ b := by
          rintro rfl
          have := h.pos
          omega
        rw [put_ne _ _ hxb]
        exact h.kept x hx
      · rfl
    · split at hs
      · cases hs
        refine ⟨⟨h.pos, h.le, ?_⟩, rfl, fun os => ?_⟩
        · intro x hx
          simp only at hx ⊢
          obtain ⟨h1, h2⟩ := h.kept x hx
          by_cases hxb : x = b
          · subst hxb
            rw [put_same, put_same, put_same, h1, h2]
            exact ⟨rfl, hcomm _⟩
          · rw [put_ne _ _ hxb, put_ne _ _ hxb, put_ne _ _ hxb]
            exact ⟨h1, h2⟩
        · rfl
      · rename_i hga
        cases hs
        refine ⟨⟨h.pos, h.le, ?_⟩, rfl, fun os => ?_⟩
        · intro x hx
          simp only at hx ⊢
          obtain ⟨h1, h2⟩ := h.kept x hx
          by_cases hxb : x = b
          · subst hxb
            rw [put_same, put_same, h1, h2]
            exact ⟨rfl, hnop (by simpa using hga) _⟩
          · rw [put_ne _ _ hxb, put_ne _ _ hxb]
            exact ⟨h1, h2⟩
        · rfl
  | clear x =>
    simp only [sstep] at hs
    cases hs
    refine ⟨⟨Nat.succ_pos _, fun b => Nat.le_succ_of_le (h.le b), ?_⟩, rfl, fun os => ?_⟩
    · intro b hb
      simp only at hb
      have := h.le b
      omega
    · simp only [List.nil_append, inputs]
  | get b =>
    simp only [sstep] at hs
    split at hs
    · rename_i hg
      cases hs
      obtain ⟨h1, h2⟩ := h.kept b hg
      refine ⟨h, rfl, fun os => ?_⟩
      simp only [inputs, h1, h2, List.singleton_append]
    · cases hs
      refine ⟨⟨h.pos, ?_, ?_⟩, rfl, fun os => ?_⟩
      · intro x
        simp only [put]
        have := h.le x
        split
        · exact Nat.le_refl _
        · exact this
      · intro x hx
        simp only [put] at hx ⊢
        split
        · rename_i hxb
          subst hxb
          exact ⟨rfl, rfl⟩
        · rename_i hxb
          rw [if_neg hxb, if_neg hxb] at hx
          exact h.kept x hx
      · simp only [inputs, put_same, List.singleton_append]
  | forget b =>
    simp only [sstep] at hs
    cases hs
    refine ⟨⟨h.pos, ?_, ?_⟩, rfl, fun os => ?_⟩
    · intro x
      simp only [put]
      have := h.le x
      split
      · exact Nat.zero_le _
      · exact this
    · intro x hx
      simp only [put] at hx ⊢
      split
      · rename_i hxb
        rw [if_pos hxb] at hx
        have := h.pos
        omega
      · rename_i hxb
        rw [if_neg hxb] at hx
        exact h.kept x hx
    · simp only [List.nil_append, inputs]

theorem srun_fresh (os : List SOp) {s s' : Sticky} {out : List (List Nat × List Nat)} (h : Fresh s) (hs : srun s os = some (s', out)) : Fresh s' ∧ out = inputs s.group s.link os := by
  induction os generalizing s out with
  | nil =>
    simp only [srun] at hs
    cases hs
    exact ⟨h, rfl⟩
  | cons o os ih =>
    simp only [srun] at hs
    split at hs
    · cases hs
    rename_i s1 x hst
    split at hs
    · cases hs
    rename_i s2 xs hru
    cases hs
    obtain ⟨h1, h2, h3⟩ := sstep_fresh h hst
    obtain ⟨h4, h5⟩ := ih h1 hru
    refine ⟨h4, ?_⟩
    rw [h5, h2]
    exact h3 os

/-! Two states with the same table. -/

theorem sorted_ext : ∀ {l m : List (Nat × Row)}, Sorted l → Sorted m → (∀ i r, (i, r) ∈ l ↔ (i, r) ∈ m) → l = m
  | [], [], _, _, _ => rfl
  | [], (i, r) :: _, _, _, h => by
    have := (h i r).2 List.mem_cons_self
    cases this
  | (i, r) :: _, [], _, _, h => by
    have := (h i r).1 List.mem_cons_self
    cases this
  | (i, r) :: l, (j, q) :: m, hl, hm, h => by
    have hij : (i, r) = (j, q) := by
      rcases List.mem_cons.1 ((h i r).1 List.mem_cons_self) with g | g
      · exact g
      rcases List.mem_cons.1 ((h j q).2 List.mem_cons_self) with g' | g'
      · exact g'.symm
      have h1 := hm.1 _ g
      have h2 := hl.1 _ g'
      simp only at h1 h2
      omega
    cases hij
    congr 1
    refine sorted_ext hl.2 hm.2 fun k x => ?_
    constructor
    · intro hk
      rcases List.mem_cons.1 ((h k x).1 (List.mem_cons_of_mem _ hk)) with g | g
      · cases g
        have := hl.1 _ hk
        simp only at this
        omega
      · exact g
    · intro hk
      rcases List.mem_cons.1 ((h k x).2 (List.mem_cons_of_mem _ hk)) with g | g
      · cases g
        have := hm.1 _ hk
        simp only at this
        omega
      · exact g

theorem changes_fun {t t1 t2 : Table} {i : Nat} {f : Row → Row} (h1 : Changes t t1 i f) (h2 : Changes t t2 i f) : t1.row = t2.row := by
  obtain ⟨r, a1, a2, a3⟩ := h1
  obtain ⟨q, b1, b2, b3⟩ := h2
  rw [a1] at b1
  cases b1
  funext j
  by_cases hj : j = i
  · rw [hj, a2, b2]
  · rw [a3 j hj, b3 j hj]

/-- Which call adds a row. -/
def Op.adds : Op → Bool
  | .insert _ => true
  | _ => false

/-- Except for the id of a new row, what a call does is determined by the table. -/
theorem does_fun {t : Table} (ht : Sound t) {o : Op} (ho : o.adds = false) {t1 t2 : Table} {out1 out2 : List (Nat × Row)} (h1 : Does t o t1 out1) (h2 : Does t o t2 out2) :
    t1.row = t2.row ∧ out1 = out2 := by
  cases o with
  | get i =>
    obtain ⟨rfl, r, a, rfl⟩ := h1
    obtain ⟨rfl, q, b, rfl⟩ := h2
    rw [a] at b
    cases b
    exact ⟨rfl, rfl⟩
  | select d n =>
    obtain ⟨rfl, _, h1⟩ := h1
    obtain ⟨rfl, _, h2⟩ := h2
    refine ⟨rfl, ?_⟩
    rcases h1 with ⟨rfl, h1⟩ | ⟨i, r, a1, a2, a3, rfl⟩
    · rcases h2 with ⟨rfl, _⟩ | ⟨i, r, a1, a2, a3, rfl⟩
      · rfl
      · exact absurd a3 (h1 i r a1 a2)
    · rcases h2 with ⟨rfl, h2⟩ | ⟨j, q, b1, b2, b3, rfl⟩
      · exact absurd a3 (h2 i r a1 a2)
      · cases ht.unique i j r q a1 b1 (by rw [a2, b2]) (by rw [a3, b3])
        rw [a1] at b1
        cases b1
        rfl
  | insert r => cases ho
  | setName i n d => exact ⟨changes_fun h1.2.2.1 h2.2.2.1, h1.2.2.2.trans h2.2.2.2.symm⟩
  | setKind i k => exact ⟨changes_fun h1.1 h2.1, h1.2.trans h2.2.symm⟩
  | setMtime i k => exact ⟨changes_fun h1.1 h2.1, h1.2.trans h2.2.symm⟩
  | setSrc i k => exact ⟨changes_fun h1.1 h2.1, h1.2.trans h2.2.symm⟩
  | setDisplay i k => exact ⟨changes_fun h1.1 h2.1, h1.2.trans h2.2.symm⟩
  | setFlags i k => exact ⟨changes_fun h1.1 h2.1, h1.2.trans h2.2.symm⟩
  | delete i =>
    refine ⟨?_, h1.2.2.trans h2.2.2.symm⟩
    funext j
    by_cases hj : j = i
    · rw [hj, h1.1, h2.1]
    · rw [h1.2.1 j hj, h2.2.1 j hj]
  | glob d kinds p skip =>
    obtain ⟨rfl, _, a1, a2⟩ := h1
    obtain ⟨rfl, _, b1, b2⟩ := h2
    exact ⟨rfl, sorted_ext a1 b1 fun i r => (a2 i r).trans (b2 i r).symm⟩
  | vars d isVar =>
    obtain ⟨rfl, _, a1, a2⟩ := h1
    obtain ⟨rfl, _, b1, b2⟩ := h2
    exact ⟨rfl, sorted_ext a1 b1 fun i r => (a2 i r).trans (b2 i r).symm⟩
  | load =>
    obtain ⟨rfl, _, a1⟩ := h1
    obtain ⟨rfl, _, b1⟩ := h2
    exact ⟨rfl, a1.trans b1.symm⟩
  | restart =>
    obtain ⟨rfl, a1⟩ := h1
    obtain ⟨rfl, b1⟩ := h2
    exact ⟨rfl, a1.trans b1.symm⟩

theorem rename_top {t t' : Table} {i : Nat} {n : Str} {d : Nat} (h : t.rename i n d = some t') : t'.top = t.top := by
  unfold Table.rename at h
  split at h
  · split at h
    · cases h; rfl
    · cases h
  · cases h; rfl

theorem setField_top {s s' : St} {i : Nat} {f : Row → Row} {out : List (Nat × Row)} (h : setField s i f = some (s', out)) : s'.tab.top = s.tab.top := by
  unfold setField at h
  split at h
  · cases h
  · cases h; rfl

theorem step_top {s s' : St} {o : Op} {out : List (Nat × Row)} (ho : o.adds = false) (h : step s o = some (s', out)) : s'.tab.top = s.tab.top := by
  have hmap : ∀ {c : Cache} {i : Nat} {t : Table}, (show1 c i).map (fun x => (({ tab := t, cache := c } : St), [x])) = some (s', out) → s'.tab = t := by
    intro c i t h
    cases hx : show1 c i with
    | none => rw [hx] at h; cases h
    | some x => rw [hx] at h; cases h; rfl
  cases o with
  | get i =>
    simp only [step] at h
    split at h
    · cases h
    · rw [hmap h]
  | select d n =>
    simp only [step] at h
    split at h
    · cases h
    split at h
    · cases h
    · rw [hmap h]
    split at h
    · cases h; rfl
    split at h
    · cases h
    split at h
    · cases h
    · rw [hmap h]
  | insert r => cases ho
  | setName i n d =>
    simp only [step] at h
    split at h
    · cases h
    split at h
    · cases h
    split at h
    · cases h
    split at h
    · cases h; rfl
    split at h
    · cases h
    rename_i t ht
    split at h
    · cases h
    · cases h
      exact rename_top ht
  | setKind i k => exact setField_top h
  | setMtime i k => exact setField_top h
  | setSrc i k => exact setField_top h
  | setDisplay i k => exact setField_top h
  | setFlags i k => exact setField_top h
  | delete i =>
    simp only [step] at h
    split at h
    · cases h
    · cases h; rfl
  | glob d kinds p skip =>
    simp only [step] at h
    split at h
    · cases h
    split at h
    · cases h
    · cases h; rfl
  | vars d isVar =>
    simp only [step] at h
    split at h
    · cases h
    split at h
    · cases h
    · cases h; rfl
  | load =>
    simp only [step] at h
    split at h
    · cases h
    split at h
    · cases h
    · cases h; rfl
  | restart =>
    simp only [step] at h
    cases h; rfl

theorem insert_tab {s s' : St} {r : Row} {out : List (Nat × Row)} (h : step s (.insert r) = some (s', out)) : ∃ i, s.tab.insert r = some (s'.tab, i) ∧ ∃ q, out = [(i, q)] := by
  simp only [step] at h
  split at h
  · cases h
  split at h
  · cases h
  rename_i t i hi
  split at h
  · cases h
  rename_i c hc
  unfold show1 at h
  cases hx : c.ent i with
  | none => rw [hx] at h; cases h
  | some x =>
    rw [hx] at h
    cases h
    exact ⟨i, hi, _, rfl⟩

/-- Two states with the same table: the same happens. -/
theorem same_step {s1 s2 : St} (h1 : Sound s1.tab ∧ Agree s1.tab s1.cache) (h2 : Sound s2.tab ∧ Agree s2.tab s2.cache) (ht : s1.tab = s2.tab) {o : Op} (ho : Ok s1.tab o) :
    (step s1 o).map (fun x => (x.1.tab, x.2)) = (step s2 o).map (fun x => (x.1.tab, x.2)) := by
  have g1 := good h1.1 h1.2 ho
  have g2 := good h2.1 h2.2 (by rw [← ht]; exact ho)
  unfold Good at g1 g2
  cases e1 : step s1 o with
  | none =>
    rw [e1] at g1
    cases e2 : step s2 o with
    | none => rfl
    | some x2 =>
      rw [e2] at g2
      exact absurd (ht ▸ g2.1) (g1 _ _)
  | some x1 =>
    rw [e1] at g1
    cases e2 : step s2 o with
    | none =>
      rw [e2] at g2
      exact absurd (ht ▸ g1.1) (g2 _ _)
    | some x2 =>
      rw [e2] at g2
      obtain ⟨t1, out1⟩ := x1
      obtain ⟨t2, out2⟩ := x2
      simp only at g1 g2
      show some (t1.tab, out1) = some (t2.tab, out2)
      cases hadd : o.adds with
      | false =>
        obtain ⟨k1, k2⟩ := does_fun h1.1 hadd g1.1 (ht ▸ g2.1)
        have k3 := step_top hadd e1
        have k4 := step_top hadd e2
        rw [ht, ← k4] at k3
        have : t1.tab = t2.tab := by
          cases t1 with | mk a _ => cases t2 with | mk b _ => cases a; cases b; simp only at k1 k3 ⊢; rw [k1, k3]
        rw [this, k2]
      | true =>
        cases o with
        | insert r =>
          obtain ⟨i, a1, q, a2⟩ := insert_tab e1
          obtain ⟨j, b1, q', b2⟩ := insert_tab e2
          rw [ht, b1] at a1
          obtain ⟨hh1, hh2⟩ := Prod.mk.inj (Option.some.inj a1)
          obtain ⟨_, _, k, _, _, _, _, k1⟩ := g1.1
          obtain ⟨_, _, l, _, _, _, _, l1⟩ := g2.1
          rw [a2] at k1
          rw [b2] at l1
          cases k1
          cases l1
          rw [a2, b2, hh1, hh2]
        | _ => cases hadd

end Tup.Cache
