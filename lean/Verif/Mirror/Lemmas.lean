import Verif.Mirror.Spec

/-! The parts of the table for C73. -/

namespace Tup.Mirror

theorem rowAt_some {s : St} {p : Path} {r : Row} (h : rowAt s p = some r) : r ∈ s.rows ∧ r.path = p :=
  ⟨List.mem_of_find?_eq_some h, by simpa using List.find?_some h⟩

theorem rowAt_none {s : St} {p : Path} (h : rowAt s p = none) : ∀ r ∈ s.rows, r.path ≠ p := by
  intro r hr he
  exact (List.find?_eq_none.1 h r hr) (by simp [he])

theorem row?_some {s : St} {i : Nat} {r : Row} (h : row? s i = some r) : r ∈ s.rows ∧ r.id = i :=
  ⟨List.mem_of_find?_eq_some h, by simpa using List.find?_some h⟩

theorem row?_none {s : St} {i : Nat} (h : row? s i = none) : ∀ r ∈ s.rows, r.id ≠ i := by
  intro r hr he
  exact (List.find?_eq_none.1 h r hr) (by simp [he])

theorem variantOf_none {s : St} {p : Path} : variantOf s p = none ↔ Source s p := by
  unfold variantOf Source
  rw [List.find?_eq_none]
  simp

theorem variantOf_some {s : St} {p t : Path} (h : variantOf s p = some t) : t ∈ s.tops ∧ t <+: p :=
  ⟨List.mem_of_find?_eq_some h, by simpa using List.find?_some h⟩

theorem mem_idsOf {s : St} {P : Path → Bool} {i : Nat} : i ∈ idsOf s P ↔ ∃ r ∈ s.rows, P r.path = true ∧ r.id = i := by
  unfold idsOf
  simp only [List.mem_map, List.mem_filter]
  constructor
  · rintro ⟨r, ⟨h1, h2⟩, h3⟩
    exact ⟨r, h1, h2, h3⟩
  · rintro ⟨r, h1, h2, h3⟩
    exact ⟨r, ⟨h1, h2⟩, h3⟩

theorem mem_remove {s : St} {P : Path → Bool} {r : Row} : r ∈ (remove s P).rows ↔ r ∈ s.rows ∧ P r.path = false := by
  simp [remove]

theorem mem_remove_flags {s : St} {P : Path → Bool} {i : Nat} : i ∈ (remove s P).flags ↔ i ∈ s.flags ∧ i ∉ idsOf s P := by
  simp [remove]

theorem mem_remove_links {s : St} {P : Path → Bool} {l : Nat × Nat} : l ∈ (remove s P).links ↔ l ∈ s.links ∧ l.1 ∉ idsOf s P ∧ l.2 ∉ idsOf s P := by
  simp [remove]

theorem mem_setSrc {s : St} {p : Path} {x : Src} {r : Row} : r ∈ (setSrc s p x).rows ↔ ∃ r0 ∈ s.rows, (r0.path = p ∧ r = { r0 with src := x }) ∨ (r0.path ≠ p ∧ r = r0) := by
  simp only [setSrc, List.mem_map]
  constructor
  · rintro ⟨r0, h0, he⟩
    refine ⟨r0, h0, ?_⟩
    by_cases hp : r0.path = p
    · rw [if_pos hp] at he
      exact .inl ⟨hp, he.symm⟩
    · rw [if_neg hp] at he
      exact .inr ⟨hp, he.symm⟩
  · rintro ⟨r0, h0, (⟨hp, he⟩ | ⟨hp, he⟩)⟩
    · exact ⟨r0, h0, by rw [if_pos hp, he]⟩
    · exact ⟨r0, h0, by rw [if_neg hp, he]⟩

theorem lt_fresh {s : St} {r : Row} (h : r ∈ s.rows) : r.id < fresh s := by
  unfold fresh
  generalize s.rows = l at h
  induction l with
  | nil => cases h
  | cons a l ih =>
    simp only [List.foldr_cons]
    rcases List.mem_cons.1 h with rfl | h
    · omega
    · have := ih h
      omega

theorem pre_pre {a b c : Path} (h1 : a <+: c) (h2 : b <+: c) : a <+: b ∨ b <+: a := List.prefix_or_prefix_of_prefix h1 h2

def IdI (l : List Row) : Prop := ∀ r ∈ l, ∀ r' ∈ l, r.id = r'.id → r = r'

def PathI (l : List Row) : Prop := ∀ r ∈ l, ∀ r' ∈ l, r.path = r'.path → r = r'

def Up (l : List Row) : Prop := ∀ r ∈ l, ∀ p n, r.path = p ++ [n] → ∃ q ∈ l, q.path = p

theorem Up.pre {l : List Row} (h : Up l) {r : Row} (hr : r ∈ l) {p : Path} (hp : p <+: r.path) : ∃ q ∈ l, q.path = p := by
  obtain ⟨x, hx⟩ := hp
  suffices H : ∀ (k : Nat) (x : Path) (r : Row), x.length = k → r ∈ l → p ++ x = r.path → ∃ q ∈ l, q.path = p from H _ x r rfl hr hx
  intro k
  induction k with
  | zero =>
    intro x r hl hr hx
    rw [List.length_eq_zero_iff.1 hl, List.append_nil] at hx
    exact ⟨r, hr, hx.symm⟩
  | succ k ih =>
    intro x r hl hr hx
    have hne : x ≠ [] := by
      rintro rfl
      simp at hl
    obtain ⟨q, hq, hqp⟩ := h r hr (p ++ x.dropLast) (x.getLast hne) (by rw [← hx, List.append_assoc, List.dropLast_concat_getLast])
    exact ih x.dropLast q (by rw [List.length_dropLast]; omega) hq hqp.symm

/-! ## `ensure` -/

theorem ensure_tops (s : St) (p : Path) (i : Nat) : (ensure s p i).tops = s.tops := by
  unfold ensure
  split <;> rfl

theorem ensure_links (s : St) (p : Path) (i : Nat) : (ensure s p i).links = s.links := by
  unfold ensure
  split <;> rfl

theorem ensure_flags {s : St} {p : Path} {i : Nat} : s.flags ⊆ (ensure s p i).flags := by
  unfold ensure
  split
  · exact fun x hx => hx
  · exact fun x hx => List.mem_cons_of_mem _ hx

theorem ensure_flags_new {s : St} {p : Path} {i j : Nat} (h : j ∈ (ensure s p i).flags) : j ∈ s.flags ∨ j = fresh s := by
  unfold ensure at h
  split at h
  · exact .inl h
  · rcases List.mem_cons.1 h with h | h
    · exact .inr h
    · exact .inl h

/-- The rows after `ensure`. -/
theorem mem_ensure {s : St} {p : Path} {i : Nat} {r : Row} : r ∈ (ensure s p i).rows ↔
    (r ∈ s.rows ∧ r.path ≠ p) ∨ (∃ r0 ∈ s.rows, r0.path = p ∧ r = { r0 with src := .of i }) ∨ ((∀ r0 ∈ s.rows, r0.path ≠ p) ∧ r = ⟨fresh s, p, .of i⟩) := by
  unfold ensure
  split
  · next r1 h1 =>
    have h1 := rowAt_some h1
    rw [mem_setSrc]
    constructor
    · rintro ⟨r0, h0, (⟨hp, he⟩ | ⟨hp, he⟩)⟩
      · exact .inr (.inl ⟨r0, h0, hp, he⟩)
      · exact .inl (he ▸ ⟨h0, hp⟩)
    · rintro (⟨hr, hp⟩ | ⟨r0, h0, hp, he⟩ | ⟨hn, _⟩)
      · exact ⟨r, hr, .inr ⟨hp, rfl⟩⟩
      · exact ⟨r0, h0, .inl ⟨hp, he⟩⟩
      · exact absurd h1.2 (hn _ h1.1)
  · next h1 =>
    have h1 := rowAt_none h1
    simp only [flag, List.mem_append, List.mem_singleton]
    constructor
    · rintro (hr | hr)
      · exact .inl ⟨hr, h1 r hr⟩
      · exact .inr (.inr ⟨h1, hr⟩)
    · rintro (⟨hr, _⟩ | ⟨r0, h0, hp, _⟩ | ⟨_, he⟩)
      · exact .inl hr
      · exact absurd hp (h1 r0 h0)
      · exact .inr he

theorem ensure_new_flag {s : St} {p : Path} {i : Nat} (h : ∀ r ∈ s.rows, r.path ≠ p) : fresh s ∈ (ensure s p i).flags := by
  unfold ensure
  split
  · next r1 h1 => exact absurd (rowAt_some h1).2 (h _ (rowAt_some h1).1)
  · exact List.mem_cons_self

theorem ensure_has {s : St} {p : Path} {i : Nat} : ∃ r ∈ (ensure s p i).rows, r.path = p ∧ r.src = .of i := by
  by_cases h : ∃ r ∈ s.rows, r.path = p
  · obtain ⟨r, hr, hp⟩ := h
    exact ⟨{ r with src := .of i }, mem_ensure.2 (.inr (.inl ⟨r, hr, hp, rfl⟩)), hp, rfl⟩
  · exact ⟨⟨fresh s, p, .of i⟩, mem_ensure.2 (.inr (.inr ⟨fun r hr hp => h ⟨r, hr, hp⟩, rfl⟩)), rfl, rfl⟩

theorem ensure_idI {s : St} {p : Path} {i : Nat} (h : IdI s.rows) : IdI (ensure s p i).rows := by
  intro r hr r' hr' he
  rcases mem_ensure.1 hr with ⟨h1, hp1⟩ | ⟨r1, h1, hp1, rfl⟩ | ⟨hn1, rfl⟩ <;>
    rcases mem_ensure.1 hr' with ⟨h2, hp2⟩ | ⟨r2, h2, hp2, rfl⟩ | ⟨hn2, rfl⟩
  · exact h r h1 r' h2 he
  · exact absurd (h r h1 r2 h2 he ▸ hp2) hp1
  · exact absurd he (Nat.ne_of_lt (lt_fresh h1))
  · exact absurd ((h r1 h1 r' h2 he).symm ▸ hp1) hp2
  · rw [h r1 h1 r2 h2 he]
  · exact absurd hp1 (hn2 r1 h1)
  · exact absurd he.symm (Nat.ne_of_lt (lt_fresh h2))
  · exact absurd hp2 (hn1 r2 h2)
  · rfl

theorem ensure_pathI {s : St} {p : Path} {i : Nat} (h : PathI s.rows) : PathI (ensure s p i).rows := by
  intro r hr r' hr' he
  rcases mem_ensure.1 hr with ⟨h1, hp1⟩ | ⟨r1, h1, hp1, rfl⟩ | ⟨hn1, rfl⟩ <;>
    rcases mem_ensure.1 hr' with ⟨h2, hp2⟩ | ⟨r2, h2, hp2, rfl⟩ | ⟨hn2, rfl⟩
  · exact h r h1 r' h2 he
  · exact absurd (he.trans hp2) hp1
  · exact absurd he hp1
  · exact absurd (he.symm.trans hp1) hp2
  · rw [h r1 h1 r2 h2 he]
  · exact absurd hp1 (hn2 r1 h1)
  · exact absurd he.symm hp2
  · exact absurd hp2 (hn1 r2 h2)
  · rfl

/-- A path stays there. -/
theorem ensure_path {s : St} {p : Path} {i : Nat} {r : Row} (h : r ∈ s.rows) : ∃ r' ∈ (ensure s p i).rows, r'.id = r.id ∧ r'.path = r.path := by
  by_cases hp : r.path = p
  · exact ⟨{ r with src := .of i }, mem_ensure.2 (.inr (.inl ⟨r, h, hp, rfl⟩)), rfl, rfl⟩
  · exact ⟨r, mem_ensure.2 (.inl ⟨h, hp⟩), rfl, rfl⟩

theorem ensure_up {s : St} {p : Path} {i : Nat} (h : Up s.rows) (hp : ∀ x n, p = x ++ [n] → ∃ r ∈ s.rows, r.path = x) : Up (ensure s p i).rows := by
  intro r hr x n hx
  have : ∃ q ∈ s.rows, q.path = x := by
    rcases mem_ensure.1 hr with ⟨h1, hp1⟩ | ⟨r1, h1, hp1, rfl⟩ | ⟨hn1, rfl⟩
    · exact h r h1 x n hx
    · exact h r1 h1 x n hx
    · exact hp x n hx
  obtain ⟨q, hq, hqx⟩ := this
  obtain ⟨q', h1, _, h2⟩ := ensure_path (p := p) (i := i) hq
  exact ⟨q', h1, h2.trans hqx⟩

end Tup.Mirror
