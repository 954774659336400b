import Verif.TmpNames.Model

/-! Lemmas for C114. -/

namespace Tup.TmpNames

theorem digitChar_inj : ∀ a, a < 16 → ∀ b, b < 16 → Nat.digitChar a = Nat.digitChar b → a = b := by decide +kernel

theorem digitChar_dash : ∀ a, a < 16 → Nat.digitChar a ≠ '-' := by decide +kernel

theorem digits_ne (b n : Nat) : digits b n ≠ [] := by
  rw [digits]
  split <;> simp

theorem digits_inj {b : Nat} (hb : 2 ≤ b) (hb' : b ≤ 16) : ∀ n m, digits b n = digits b m → n = m := by
  intro n
  induction n using Nat.strongRecOn with
  | ind n ih =>
    intro m h
    rw [digits, digits.eq_1 b m] at h
    have hne := digits_ne b (n / b)
    have hne' := digits_ne b (m / b)
    by_cases h1 : n < b <;> by_cases h2 : m < b
    · rw [dif_pos (Or.inl h1), dif_pos (Or.inl h2)] at h
      exact digitChar_inj n (by omega) m (by omega) (List.cons.inj h).1
    · rw [dif_pos (Or.inl h1), dif_neg (by omega)] at h
      have := congrArg List.length h
      cases hd : digits b (m / b)
      · exact absurd hd hne'
      · rw [hd] at this; simp at this
    · rw [dif_neg (by omega), dif_pos (Or.inl h2)] at h
      have := congrArg List.length h
      cases hd : digits b (n / b)
      · exact absurd hd hne
      · rw [hd] at this; simp at this
    · rw [dif_neg (by omega), dif_neg (by omega)] at h
      obtain ⟨e1, e2⟩ := List.append_inj' h rfl
      have hq := ih (n / b) (Nat.div_lt_self (by omega) (by omega)) _ e1
      have hn := Nat.mod_lt n (y := b) (by omega)
      have hm := Nat.mod_lt m (y := b) (by omega)
      have hr := digitChar_inj (n % b) (by omega) (m % b) (by omega) (List.cons.inj e2).1
      rw [← Nat.div_add_mod n b, ← Nat.div_add_mod m b, hq, hr]

theorem digits_dash {b : Nat} (hb : 2 ≤ b) (hb' : b ≤ 16) : ∀ n, '-' ∉ digits b n := by
  intro n
  induction n using Nat.strongRecOn with
  | ind n ih =>
    rw [digits]
    by_cases h1 : n < b
    · rw [dif_pos (Or.inl h1)]
      intro h
      exact digitChar_dash n (by omega) (List.mem_singleton.1 h).symm
    · rw [dif_neg (by omega)]
      intro h
      rcases List.mem_append.1 h with h | h
      · exact ih _ (Nat.div_lt_self (by omega) (by omega)) h
      · have hn := Nat.mod_lt n (y := b) (by omega)
        exact digitChar_dash (n % b) (by omega) (List.mem_singleton.1 h).symm

theorem digits_length {b : Nat} (hb : 2 ≤ b) : ∀ k n, n < b ^ (k + 1) → (digits b n).length ≤ k + 1 := by
  intro k
  induction k with
  | zero =>
    intro n h
    rw [digits, dif_pos (Or.inl (by simpa using h))]
    simp
  | succ k ih =>
    intro n h
    rw [digits]
    by_cases h1 : n < b
    · rw [dif_pos (Or.inl h1)]; simp
    · rw [dif_neg (by omega), List.length_append]
      have : n / b < b ^ (k + 1) := by
        rw [Nat.div_lt_iff_lt_mul (by omega)]
        rw [Nat.pow_succ] at h
        exact h
      have := ih _ this
      simp only [List.length_cons, List.length_nil]
      omega

theorem decimal_inj {a b : Int} (h : decimal a = decimal b) : a = b := by
  unfold decimal at h
  have hd : ∀ n m, '-' :: digits 10 n = digits 10 m → False := fun n m e => digits_dash (by omega) (by omega) m (e ▸ List.mem_cons_self)
  split at h <;> split at h
  · have := digits_inj (by omega) (by omega) _ _ (List.cons.inj h).2
    omega
  · exact (hd _ _ h).elim
  · exact (hd _ _ h.symm).elim
  · have := digits_inj (by omega) (by omega) _ _ h
    omega

end Tup.TmpNames
