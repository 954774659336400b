import Verif.Basic

/-! The comparison of two sets of entries that all the link updates use. -/

namespace Tup.Links

/-- `compare_tent_trees`, src/tup/db.c:5747-5784.  The two trees are given by the ids in their order (ascending).  The
callbacks are called in that order for the ids that are in only one of them; `none` is their error.  A callback that
is NULL in the code is `some` here. -/
def compare {σ : Type} (extraA extraB : σ → Nat → Option σ) : List Nat → List Nat → σ → Option σ
  | [], [], s => some s
  | [], b :: bs, s =>
    match extraB s b with
    | some s => compare extraA extraB [] bs s
    | none => none
  | a :: as, [], s =>
    match extraA s a with
    | some s => compare extraA extraB as [] s
    | none => none
  | a :: as, b :: bs, s =>
    if a = b then compare extraA extraB as bs s
    else if a < b then
      match extraA s a with
      | some s => compare extraA extraB as (b :: bs) s
      | none => none
    else
      match extraB s b with
      | some s => compare extraA extraB (a :: as) bs s
      | none => none
  termination_by as bs => as.length + bs.length

/-- An id that is only in the first set, or only in the second. -/
inductive Ev where
  | left (i : Nat)
  | right (i : Nat)
deriving DecidableEq

/-- The ids that are in one set only, ascending. -/
def diff : List Nat → List Nat → List Ev
  | [], [] => []
  | [], b :: bs => .right b :: diff [] bs
  | a :: as, [] => .left a :: diff as []
  | a :: as, b :: bs =>
    if a = b then diff as bs
    else if a < b then .left a :: diff as (b :: bs)
    else .right b :: diff (a :: as) bs
  termination_by as bs => as.length + bs.length

/-- The callbacks for a list of ids. -/
def steps {σ : Type} (extraA extraB : σ → Nat → Option σ) : List Ev → σ → Option σ
  | [], s => some s
  | .left a :: l, s =>
    match extraA s a with
    | some s => steps extraA extraB l s
    | none => none
  | .right b :: l, s =>
    match extraB s b with
    | some s => steps extraA extraB l s
    | none => none

theorem compare_eq {σ : Type} (fa fb : σ → Nat → Option σ) (as bs : List Nat) (s : σ) :
    compare fa fb as bs s = steps fa fb (diff as bs) s := by
  fun_induction compare fa fb as bs s with
  | case1 => simp [diff, steps]
  | case2 s b bs s' h ih => rw [diff, steps, h]; exact ih
  | case3 s b bs h => rw [diff, steps, h]
  | case4 s a as s' h ih => rw [diff, steps, h]; exact ih
  | case5 s a as h => rw [diff, steps, h]
  | case6 s as b bs ih => rw [diff, if_pos rfl]; exact ih
  | case7 s a as b bs h1 h2 s' h ih => rw [diff, if_neg h1, if_pos h2, steps, h]; exact ih
  | case8 s a as b bs h1 h2 h => rw [diff, if_neg h1, if_pos h2, steps, h]
  | case9 s a as b bs h1 h2 s' h ih => rw [diff, if_neg h1, if_neg h2, steps, h]; exact ih
  | case10 s a as b bs h1 h2 h => rw [diff, if_neg h1, if_neg h2, steps, h]

/-- Ascending. -/
abbrev Asc (l : List Nat) : Prop := l.Pairwise (· < ·)

theorem mem_diff {as bs : List Nat} (ha : Asc as) (hb : Asc bs) :
    (∀ x, .left x ∈ diff as bs ↔ x ∈ as ∧ x ∉ bs) ∧ (∀ x, .right x ∈ diff as bs ↔ x ∈ bs ∧ x ∉ as) := by
  fun_induction diff as bs with
  | case1 => simp
  | case2 b bs ih =>
    obtain ⟨i1, i2⟩ := ih ha (List.pairwise_cons.1 hb).2
    simp [i1, i2]
  | case3 a as ih =>
    obtain ⟨i1, i2⟩ := ih (List.pairwise_cons.1 ha).2 hb
    simp [i1, i2]
  | case4 as b bs ih =>
    obtain ⟨ha1, ha2⟩ := List.pairwise_cons.1 ha
    obtain ⟨hb1, hb2⟩ := List.pairwise_cons.1 hb
    obtain ⟨i1, i2⟩ := ih ha2 hb2
    constructor
    · intro x
      rw [i1]
      simp only [List.mem_cons]
      constructor
      · rintro ⟨h1, h2⟩
        have := ha1 x h1
        refine ⟨.inr h1, ?_⟩
        rintro (h | h)
        · omega
        · exact h2 h
      · rintro ⟨h1 | h1, h2⟩
        · exact absurd (.inl h1) h2
        · exact ⟨h1, fun h => h2 (.inr h)⟩
    · intro x
      rw [i2]
      simp only [List.mem_cons]
      constructor
      · rintro ⟨h1, h2⟩
        have := hb1 x h1
        refine ⟨.inr h1, ?_⟩
        rintro (h | h)
        · omega
        · exact h2 h
      · rintro ⟨h1 | h1, h2⟩
        · exact absurd (.inl h1) h2
        · exact ⟨h1, fun h => h2 (.inr h)⟩
  | case5 a as b bs h1 h2 ih =>
    obtain ⟨ha1, ha2⟩ := List.pairwise_cons.1 ha
    obtain ⟨hb1, hb2⟩ := List.pairwise_cons.1 hb
    obtain ⟨i1, i2⟩ := ih ha2 hb
    have hab : a ∉ b :: bs := by
      intro h
      rcases List.mem_cons.1 h with h | h
      · omega
      · have := hb1 a h; omega
    constructor
    · intro x
      rw [List.mem_cons, i1, List.mem_cons (a := x) (b := a)]
      constructor
      · rintro (h | h)
        · cases h; exact ⟨.inl rfl, hab⟩
        · exact ⟨.inr h.1, h.2⟩
      · rintro ⟨h | h, h3⟩
        · left; rw [h]
        · exact .inr ⟨h, h3⟩
    · intro x
      rw [List.mem_cons, i2, List.mem_cons (a := x) (b := a)]
      constructor
      · rintro (h | h)
        · cases h
        · refine ⟨h.1, ?_⟩
          rintro (h4 | h4)
          · exact hab (h4 ▸ h.1)
          · exact h.2 h4
      · rintro ⟨h, h3⟩
        exact .inr ⟨h, fun h4 => h3 (.inr h4)⟩
  | case6 a as b bs h1 h2 ih =>
    obtain ⟨ha1, ha2⟩ := List.pairwise_cons.1 ha
    obtain ⟨hb1, hb2⟩ := List.pairwise_cons.1 hb
    obtain ⟨i1, i2⟩ := ih ha hb2
    have hab : b ∉ a :: as := by
      intro h
      rcases List.mem_cons.1 h with h | h
      · omega
      · have := ha1 b h; omega
    constructor
    · intro x
      rw [List.mem_cons, i1, List.mem_cons (a := x) (b := b)]
      constructor
      · rintro (h | h)
        · cases h
        · refine ⟨h.1, ?_⟩
          rintro (h4 | h4)
          · exact hab (h4 ▸ h.1)
          · exact h.2 h4
      · rintro ⟨h, h3⟩
        exact .inr ⟨h, fun h4 => h3 (.inr h4)⟩
    · intro x
      rw [List.mem_cons, i2, List.mem_cons (a := x) (b := b)]
      constructor
      · rintro (h | h)
        · cases h; exact ⟨.inl rfl, hab⟩
        · exact ⟨.inr h.1, h.2⟩
      · rintro ⟨h | h, h3⟩
        · left; rw [h]
        · exact .inr ⟨h, h3⟩

theorem diff_nodup {as bs : List Nat} (ha : Asc as) (hb : Asc bs) : (diff as bs).Nodup := by
  fun_induction diff as bs with
  | case1 => exact List.nodup_nil
  | case2 b bs ih =>
    obtain ⟨h1, h2⟩ := List.pairwise_cons.1 hb
    refine List.nodup_cons.2 ⟨fun h => ?_, ih ha h2⟩
    have := h1 b (((mem_diff ha h2).2 b).1 h).1
    omega
  | case3 a as ih =>
    obtain ⟨h1, h2⟩ := List.pairwise_cons.1 ha
    refine List.nodup_cons.2 ⟨fun h => ?_, ih h2 hb⟩
    have := h1 a (((mem_diff h2 hb).1 a).1 h).1
    omega
  | case4 as b bs ih => exact ih (List.pairwise_cons.1 ha).2 (List.pairwise_cons.1 hb).2
  | case5 a as b bs h1 h2 ih =>
    obtain ⟨g1, g2⟩ := List.pairwise_cons.1 ha
    refine List.nodup_cons.2 ⟨fun h => ?_, ih g2 hb⟩
    have := g1 a (((mem_diff g2 hb).1 a).1 h).1
    omega
  | case6 a as b bs h1 h2 ih =>
    obtain ⟨g1, g2⟩ := List.pairwise_cons.1 hb
    refine List.nodup_cons.2 ⟨fun h => ?_, ih ha g2⟩
    have := g1 b (((mem_diff ha g2).2 b).1 h).1
    omega

/-- One callback. -/
def step1 {σ : Type} (fa fb : σ → Nat → Option σ) (s : σ) : Ev → Option σ
  | .left a => fa s a
  | .right b => fb s b

theorem steps_cons {σ : Type} (fa fb : σ → Nat → Option σ) (e : Ev) (l : List Ev) (s : σ) :
    steps fa fb (e :: l) s = (step1 fa fb s e).bind (steps fa fb l) := by
  cases e with
  | left a => rw [steps, step1]; cases fa s a <;> rfl
  | right b => rw [steps, step1]; cases fb s b <;> rfl

/-- What holds at the start and is kept by each callback holds at the end.  `D e` says that the id of `e` has been dealt
with. -/
theorem compare_inv {σ : Type} {fa fb : σ → Nat → Option σ} {as bs : List Nat} (ha : Asc as) (hb : Asc bs)
    (P : (Ev → Prop) → σ → Prop) {s s' : σ} (h0 : P (fun _ => False) s)
    (hstep : ∀ (D : Ev → Prop) e s s', ¬ D e → e ∈ diff as bs → P D s → step1 fa fb s e = some s' → P (fun x => x = e ∨ D x) s')
    (h : compare fa fb as bs s = some s') :
    P (fun x => x ∈ diff as bs) s' := by
  rw [compare_eq] at h
  have key : ∀ (l : List Ev) (D : Ev → Prop) (s : σ), l.Nodup → (∀ e ∈ l, ¬ D e ∧ e ∈ diff as bs) → P D s →
      steps fa fb l s = some s' → P (fun x => x ∈ l ∨ D x) s' := by
    intro l
    induction l with
    | nil =>
      intro D s _ _ hp hs
      cases hs
      have : (fun x => x ∈ ([] : List Ev) ∨ D x) = D := by funext x; simp
      rw [this]
      exact hp
    | cons e l ih =>
      intro D s hn hd hp hs
      rw [steps_cons] at hs
      cases he : step1 fa fb s e with
      | none => rw [he] at hs; cases hs
      | some s1 =>
        rw [he] at hs
        obtain ⟨n1, n2⟩ := List.nodup_cons.1 hn
        have hp1 := hstep D e s s1 (hd e List.mem_cons_self).1 (hd e List.mem_cons_self).2 hp he
        have := ih (fun x => x = e ∨ D x) s1 n2 (fun x hx => ⟨fun hc => by
          rcases hc with hc | hc
          · exact n1 (hc ▸ hx)
          · exact (hd x (List.mem_cons_of_mem _ hx)).1 hc, (hd x (List.mem_cons_of_mem _ hx)).2⟩) hp1 hs
        have he : (fun x => x ∈ e :: l ∨ D x) = (fun x => x ∈ l ∨ x = e ∨ D x) := by
          funext x
          simp only [List.mem_cons, eq_iff_iff]
          grind
        rw [he]
        exact this
  have := key (diff as bs) (fun _ => False) s (diff_nodup ha hb) (fun e he => ⟨id, he⟩) h0 h
  simpa using this

/-- The comparison does not fail if no callback does. -/
theorem compare_total {σ : Type} {fa fb : σ → Nat → Option σ} {as bs : List Nat} (ha : Asc as) (hb : Asc bs)
    (P : (Ev → Prop) → σ → Prop) {s : σ} (h0 : P (fun _ => False) s)
    (hstep : ∀ (D : Ev → Prop) e s, ¬ D e → e ∈ diff as bs → P D s → ∃ s', step1 fa fb s e = some s' ∧ P (fun x => x = e ∨ D x) s') :
    ∃ s', compare fa fb as bs s = some s' ∧ P (fun x => x ∈ diff as bs) s' := by
  have key : ∀ (l : List Ev) (D : Ev → Prop) (s : σ), l.Nodup → (∀ e ∈ l, ¬ D e ∧ e ∈ diff as bs) → P D s →
      ∃ s', steps fa fb l s = some s' ∧ P (fun x => x ∈ l ∨ D x) s' := by
    intro l
    induction l with
    | nil =>
      intro D s _ _ hp
      have : (fun x => x ∈ ([] : List Ev) ∨ D x) = D := by funext x; simp
      refine ⟨s, rfl, ?_⟩
      rw [this]
      exact hp
    | cons e l ih =>
      intro D s hn hd hp
      obtain ⟨s1, he, hp1⟩ := hstep D e s (hd e List.mem_cons_self).1 (hd e List.mem_cons_self).2 hp
      obtain ⟨n1, n2⟩ := List.nodup_cons.1 hn
      obtain ⟨s', h1, h2⟩ := ih (fun x => x = e ∨ D x) s1 n2 (fun x hx => ⟨fun hc => by
        rcases hc with hc | hc
        · exact n1 (hc ▸ hx)
        · exact (hd x (List.mem_cons_of_mem _ hx)).1 hc, (hd x (List.mem_cons_of_mem _ hx)).2⟩) hp1
      refine ⟨s', by rw [steps_cons, he]; exact h1, ?_⟩
      have he : (fun x => x ∈ e :: l ∨ D x) = (fun x => x ∈ l ∨ x = e ∨ D x) := by
        funext x
        simp only [List.mem_cons, eq_iff_iff]
        grind
      rw [he]
      exact h2
  obtain ⟨s', h1, h2⟩ := key (diff as bs) (fun _ => False) s (diff_nodup ha hb) (fun e he => ⟨id, he⟩) h0
  refine ⟨s', by rw [compare_eq]; exact h1, ?_⟩
  simpa using h2

/-- The same, where the kept property and the absence of failures are given apart. -/
theorem compare_progress {σ : Type} {fa fb : σ → Nat → Option σ} {as bs : List Nat} (ha : Asc as) (hb : Asc bs)
    (P : (Ev → Prop) → σ → Prop) {s : σ} (h0 : P (fun _ => False) s)
    (hstep : ∀ (D : Ev → Prop) e s s', ¬ D e → e ∈ diff as bs → P D s → step1 fa fb s e = some s' → P (fun x => x = e ∨ D x) s')
    (hprog : ∀ (D : Ev → Prop) e s, ¬ D e → e ∈ diff as bs → P D s → ∃ s', step1 fa fb s e = some s') :
    ∃ s', compare fa fb as bs s = some s' := by
  obtain ⟨s', h, _⟩ := compare_total ha hb P h0 (fun D e s h1 h2 h3 => by
    obtain ⟨s', h⟩ := hprog D e s h1 h2 h3
    exact ⟨s', h, hstep D e s s' h1 h2 h3 h⟩)
  exact ⟨s', h⟩

/-- Equal sets: no callback. -/
theorem compare_same {σ : Type} (fa fb : σ → Nat → Option σ) (as : List Nat) (s : σ) : compare fa fb as as s = some s := by
  induction as with
  | nil => rw [compare]
  | cons a as ih => rw [compare, if_pos rfl]; exact ih

end Tup.Links
