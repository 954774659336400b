import Verif.Gitignore.Model
import Verif.Gitignore.Spec

namespace Tup.Gitignore

open Tup (Str)

theorem marker_eq : marker = separator := rfl

theorem marker_len : marker.length = 26 := by decide

theorem marker_nl : ∀ k, k < 26 → marker[k]? = some '\n' → k = 25 := by decide +kernel

theorem marker_zero : marker[0]? = some '#' := by decide

theorem marker_ge {k : Nat} (h : 26 ≤ k) : marker[k]? = none := List.getElem?_eq_none (by rw [marker_len]; exact h)

/-- `tg_idx` after some text. -/
def idx : Nat → Str → Nat
  | k, [] => k
  | k, c :: cs => idx (match1 k c) cs

/-- The marker is not found in the text. -/
def NoHit : Nat → Str → Prop
  | _, [] => True
  | k, c :: cs => match1 k c ≠ 26 ∧ NoHit (match1 k c) cs

theorem copyOld_append {k : Nat} {u v : Str} (h : NoHit k u) : copyOld k (u ++ v) = (u ++ (copyOld (idx k u) v).1, (copyOld (idx k u) v).2) := by
  induction u generalizing k with
  | nil => rfl
  | cons c cs ih =>
    rw [List.cons_append, copyOld, if_neg h.1, ih h.2]
    rfl

theorem match1_le {k : Nat} {c : Char} : match1 k c ≤ 26 := by
  unfold match1
  split
  · rename_i h
    rcases Nat.lt_or_ge k 26 with hk | hk
    · omega
    · rw [marker_ge hk] at h; cases h
  · omega

/-- While the marker is not found, the end of the text is the beginning of the marker. -/
theorem noHit {pre u : Str} {k : Nat} (hk : k < 26) (hp : ∃ a, pre = a ++ marker.take k) (hn : ∀ a b, pre ++ u ≠ a ++ separator ++ b) :
    NoHit k u := by
  induction u generalizing pre k with
  | nil => trivial
  | cons c cs ih =>
    have hs : ∃ a, pre ++ [c] = a ++ marker.take (match1 k c) := by
      unfold match1
      split
      · rename_i h
        obtain ⟨a, rfl⟩ := hp
        refine ⟨a, ?_⟩
        rw [List.append_assoc, List.take_succ, h]
        rfl
      · exact ⟨pre ++ [c], by simp⟩
    have hne : match1 k c ≠ 26 := by
      intro h
      obtain ⟨a, ha⟩ := hs
      rw [h, List.take_of_length_le (by rw [marker_len]; omega)] at ha
      refine hn a cs ?_
      rw [← marker_eq, ← ha, List.append_assoc]; rfl
    refine ⟨hne, ih (pre := pre ++ [c]) ?_ hs ?_⟩
    · have := @match1_le k c; omega
    · intro a b; rw [List.append_assoc]; exact hn a b

theorem idx_zero {k : Nat} {u : Str} (hk : k < 26) (h : NoHit k u) (hl : ∀ a b, u = a ++ '#' :: b → '\n' ∈ b)
    (h0 : k = 0 ∨ '\n' ∈ u) : idx k u = 0 := by
  induction u generalizing k with
  | nil =>
    rcases h0 with h0 | h0
    · exact h0
    · cases h0
  | cons c cs ih =>
    refine ih (k := match1 k c) ?_ h.2 ?_ ?_
    · have := @match1_le k c; have := h.1; omega
    · intro a b he; exact hl (c :: a) b (by rw [he]; rfl)
    · by_cases hnl : '\n' ∈ cs
      · exact .inr hnl
      · left
        unfold match1
        split
        · rename_i hm
          exfalso
          by_cases hc : c = '\n'
          · subst hc
            have := marker_nl k hk hm
            subst this
            exact h.1 (by decide)
          · have hk0 : k = 0 := by
              rcases h0 with h0 | h0
              · exact h0
              · rcases List.mem_cons.1 h0 with h0 | h0
                · exact absurd h0.symm hc
                · exact absurd h0 hnl
            subst hk0
            rw [marker_zero] at hm
            have hch : c = '#' := by injection hm with hm; exact hm.symm
            exact hnl (hl [] cs (by rw [hch]; rfl))
        · rfl

theorem copy_marker (rest : Str) : copyOld 0 (marker ++ rest) = (marker, true) := by
  have h : ∀ k, k < 26 → copyOld k (marker.drop k ++ rest) = (marker.drop k, true) := by
    intro k hk
    obtain ⟨n, hn⟩ : ∃ n, n = 26 - k := ⟨_, rfl⟩
    induction n generalizing k with
    | zero => omega
    | succ n ih =>
      have hlt : k < marker.length := by rw [marker_len]; exact hk
      rw [List.drop_eq_getElem_cons hlt]
      have hm : match1 k marker[k] = k + 1 := by
        unfold match1
        rw [if_pos (List.getElem?_eq_getElem hlt)]
      rw [List.cons_append, copyOld, hm]
      by_cases h25 : k = 25
      · subst h25
        simp only [if_true]
        congr
      · rw [if_neg (by omega), ih (k + 1) (by omega) (by omega)]
  exact h 0 (by decide)

theorem copy_user {u : Str} (h : UserText u) : copyOld 0 u = (u, false) ∧ ∀ rest, copyOld 0 (u ++ separator ++ rest) = (u ++ separator, true) := by
  have hn : NoHit 0 u := noHit (pre := []) (by decide) ⟨[], rfl⟩ h.noSeparator
  have hz : idx 0 u = 0 := idx_zero (by decide) hn h.lastLine (.inl rfl)
  constructor
  · have := copyOld_append (v := []) hn
    rw [List.append_nil] at this
    rw [this]
    show (u ++ [], false) = _
    rw [List.append_nil]
  · intro rest
    rw [List.append_assoc, copyOld_append hn, hz, ← marker_eq, copy_marker]

theorem escape_len (n : Str) : (escape n).length ≤ 2 * n.length := by
  induction n with
  | nil => exact Nat.le_refl _
  | cons c cs ih => unfold escape; split <;> simp only [List.length_cons] <;> omega

end Tup.Gitignore
