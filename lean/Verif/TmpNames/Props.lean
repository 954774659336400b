import Verif.TmpNames.Lemmas

/-!
C114: the files in .tup/tmp.
-/

namespace Tup.TmpNames

/-- The numbers that these files can have: a number of 32 bits, of `int`, or of `tupid_t` (64 bits). The number of the session is an `int`. -/
def InRange : Tmp → Prop
  | .written n => n < 2 ^ 32
  | .output z | .errors z | .res z | .deps z => -2 ^ 31 ≤ z ∧ z < 2 ^ 31
  | .backup z => -2 ^ 63 ≤ z ∧ z < 2 ^ 63

theorem decimal_length {z : Int} {k : Nat} (h : z.natAbs < 10 ^ (k + 1)) : (decimal z).length ≤ k + 2 := by
  have := digits_length (b := 10) (by omega) k _ h
  unfold decimal
  split
  · rw [List.length_cons]; omega
  · omega

/-- No two of the files have the same name: neither two of the same kind with different numbers, nor two of different kinds. -/
theorem c114_distinct {a b : Tmp} (h : text a = text b) : a = b := by
  have h := List.append_cancel_left h
  have key : ∀ n (p q : Str), '-' ∈ p → digits 16 n ≠ p ++ q :=
    fun n p q hp e => digits_dash (by omega) (by omega) n (e ▸ List.mem_append_left _ hp)
  cases a <;> cases b
  all_goals first
    | exact congrArg _ (digits_inj (by omega) (by omega) _ _ h)
    | exact congrArg _ (decimal_inj (List.append_cancel_left h))
    | exact absurd h (key _ _ _ (by decide))
    | exact absurd h.symm (key _ _ _ (by decide))
    | exact absurd (List.cons.inj h).1 (by decide)

/-- A file of each of three kinds, one with a number of only letters. -/
example : text (.output (-7)) = ".tup/tmp/output--7".toList ∧ text (.errors 7) = ".tup/tmp/errors-7".toList ∧ text (.written 3822) = ".tup/tmp/eee".toList := by
  have h1 : digits 10 7 = ['7'] := by rw [digits]; rfl
  have h2 : digits 16 3822 = ['e', 'e', 'e'] := by
    rw [digits, dif_neg (by decide), digits, dif_neg (by decide), digits, dif_pos (by decide)]; rfl
  refine ⟨?_, ?_, ?_⟩
  · show dir ++ (_ ++ ('-' :: digits 10 7)) = _
    rw [h1]; decide +kernel
  · show dir ++ (_ ++ digits 10 7) = _
    rw [h1]; decide +kernel
  · show dir ++ digits 16 3822 = _
    rw [h2]; decide +kernel

/-- Every name fits its buffer, so no name is cut off; for the dependencies the top directory must have less than 4070 bytes. -/
theorem c114_fits {top : Nat} {t : Tmp} (h : InRange t) (ht : top < 4070) : stored top t = text t := by
  unfold stored
  apply List.take_of_length_le
  have l0 : dir.length = 9 := rfl
  have k9 : ∀ z : Int, -2 ^ 31 ≤ z ∧ z < 2 ^ 31 → (decimal z).length ≤ 11 := fun z h => decimal_length (k := 9) (by omega)
  cases t with
  | written n =>
    have := digits_length (b := 16) (by omega) 7 n h
    rw [text, List.length_append, base, size, l0]
    omega
  | output z =>
    have := k9 z h
    rw [text, List.length_append, base, size, l0, List.length_append]
    simp only [List.length_cons, List.length_nil]
    omega
  | errors z =>
    have := k9 z h
    rw [text, List.length_append, base, size, l0, List.length_append]
    simp only [List.length_cons, List.length_nil]
    omega
  | backup z =>
    have h : -2 ^ 63 ≤ z ∧ z < 2 ^ 63 := h
    have := decimal_length (z := z) (k := 18) (by omega)
    rw [text, List.length_append, base, size, l0, List.length_append]
    simp only [List.length_cons, List.length_nil]
    omega
  | res z =>
    have := k9 z h
    rw [text, List.length_append, base, size, l0, List.length_append]
    simp only [List.length_cons, List.length_nil]
    omega
  | deps z =>
    have := k9 z h
    rw [text, List.length_append, base, size, l0, List.length_append]
    simp only [List.length_cons, List.length_nil]
    omega

/-- So the files that are made are different ones. -/
theorem c114_stored {top : Nat} {a b : Tmp} (ha : InRange a) (hb : InRange b) (ht : top < 4070) (h : stored top a = stored top b) : a = b := by
  rw [c114_fits ha ht, c114_fits hb ht] at h
  exact c114_distinct h

/-- The greatest and the least numbers. -/
example : InRange (.written 4294967295) ∧ InRange (.backup (-9223372036854775808)) ∧ InRange (.res (-2147483648)) :=
  ⟨by show 4294967295 < 2 ^ 32; omega, by constructor <;> omega, by constructor <;> omega⟩

/-- The buffer of `written` is as small as can be: with the greatest number it is full. -/
theorem c114_tight (top : Nat) : ∃ n, InRange (.written n) ∧ (text (.written n)).length + 1 = size top (.written n) := by
  refine ⟨4294967295, by show 4294967295 < 2 ^ 32; omega, ?_⟩
  have h : (digits 16 4294967295).length = 8 := by
    rw [digits, dif_neg (by decide), digits, dif_neg (by decide), digits, dif_neg (by decide), digits, dif_neg (by decide), digits, dif_neg (by decide),
      digits, dif_neg (by decide), digits, dif_neg (by decide), digits, dif_pos (by decide)]
    rfl
  rw [text, List.length_append, base, size, h]
  omega

/-- Where the top directory has 4080 bytes or more, all commands have the same file for their dependencies. -/
theorem c114_long {top : Nat} (h : 4080 ≤ top) (a b : Int) : stored top (.deps a) = stored top (.deps b) := by
  have key : ∀ z, stored top (.deps z) = (dir ++ ['d', 'e', 'p', 's', '-']).take (4096 - (top + 1) - 1) := by
    intro z
    rw [stored, text, base, size, ← List.append_assoc, List.take_append_of_le_length]
    show _ ≤ 14
    omega
  rw [key, key]

end Tup.TmpNames
