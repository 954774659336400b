import Verif.Progress.Spec

/-! Lemmas about the progress bar. -/

namespace Tup.Progress

theorem wrap_id {z : Int} (h1 : -2147483648 ≤ z) (h2 : z ≤ 2147483647) : wrap z = z := by
  unfold wrap; omega

/-! ### Numbers -/

theorem digits_mono {n m : Nat} (h : n ≤ m) : (Nat.toDigits 10 n).length ≤ (Nat.toDigits 10 m).length := by
  have hp : 0 < (Nat.toDigits 10 m).length := Nat.length_toDigits_pos
  rw [Nat.length_toDigits_le_iff (by decide) hp]
  exact Nat.lt_of_le_of_lt h ((Nat.length_toDigits_le_iff (by decide) hp).1 (Nat.le_refl _))

theorem num_nat (n : Nat) : num (n : Int) = Nat.toDigits 10 n := by
  unfold num
  rw [if_neg (by omega)]
  simp

theorem num_mono {n m : Nat} (h : n ≤ m) : (num n).length ≤ (num m).length := by
  rw [num_nat, num_nat]
  exact digits_mono h

theorem num_short {z : Int} {k : Nat} (hk : 0 < k) (h0 : 0 ≤ z) (h1 : z < (10 : Int) ^ k) : (num z).length ≤ k := by
  obtain ⟨n, rfl⟩ := Int.eq_ofNat_of_zero_le h0
  rw [num_nat, Nat.length_toDigits_le_iff (by decide) hk]
  exact_mod_cast h1

theorem num_pos (z : Int) : 0 < (num z).length := by
  unfold num
  split
  · simp
  · exact Nat.length_toDigits_pos

/-- The text of the time is short. -/
theorem time_short (approx : Bool) (left : Option Int) :
    (timeText approx left).length ≤ if approx then 8 else 7 := by
  have hb : ∀ x : Str, x.length ≤ 3 → ("ETA".toList ++ (if approx then "~=".toList else "=".toList) ++ x).length ≤ if approx then 8 else 7 := by
    intro x hx
    rw [List.length_append, List.length_append]
    cases approx
    · have h1 : "ETA".toList.length = 3 := rfl
      have h2 : "=".toList.length = 1 := rfl
      simp only [Bool.false_eq_true, if_false]
      omega
    · have h1 : "ETA".toList.length = 3 := rfl
      have h2 : "~=".toList.length = 2 := rfl
      simp only [if_true]
      omega
  have hu : ∀ (z : Int) (u : Str), u.length = 1 → 0 ≤ z → z ≤ 99 → (num z ++ u).length ≤ 3 := by
    intro z u hu h0 h1
    rw [List.length_append, hu]
    have := num_short (k := 2) (by decide) h0 (by omega)
    omega
  unfold timeText
  apply hb
  cases left with
  | none => exact Nat.le_refl _
  | some l =>
    dsimp only
    by_cases h1 : l < 1000
    · rw [if_pos h1]; exact Nat.le_refl _
    · rw [if_neg h1]
      by_cases h2 : l < 60000
      · rw [if_pos h2]
        rw [Int.tdiv_eq_ediv_of_nonneg (by omega)]
        exact hu _ _ rfl (by omega) (by omega)
      · rw [if_neg h2]
        by_cases h3 : l < 3600000
        · rw [if_pos h3]
          rw [Int.tdiv_eq_ediv_of_nonneg (by omega)]
          exact hu _ _ rfl (by omega) (by omega)
        · rw [if_neg h3]
          by_cases h4 : l < 356400000
          · rw [if_pos h4]
            rw [Int.tdiv_eq_ediv_of_nonneg (by omega)]
            exact hu _ _ rfl (by omega) (by omega)
          · rw [if_neg h4]; exact Nat.le_refl _

/-! ### Percentages -/

theorem mul_ok {z : Int} (h0 : 0 ≤ z) (h1 : z ≤ 21474836) : mul100 z = some (z * 100) := by
  unfold mul100
  rw [if_pos (by omega)]

theorem div_100 {a b : Int} (h0 : 0 ≤ a) (h1 : a ≤ b) (hb : 0 < b) : 0 ≤ (a * 100).tdiv b ∧ (a * 100).tdiv b ≤ 100 := by
  rw [Int.tdiv_eq_ediv_of_nonneg (by omega)]
  constructor
  · exact Int.ediv_nonneg (by omega) (by omega)
  · have := Int.ediv_le_ediv hb (show a * 100 ≤ 100 * b by omega)
    rw [Int.mul_ediv_cancel _ (by omega)] at this
    exact this

theorem percent_ok {s : St} (h : Fair s) : ∃ p, percent s = some p ∧ 0 ≤ p ∧ p ≤ 100 := by
  obtain ⟨h1, h2, h3⟩ := h
  unfold most at h2 h3
  unfold percent
  by_cases ht : s.total = 0
  · rw [if_pos ht]; exact ⟨0, rfl, by decide, by decide⟩
  · rw [if_neg ht]
    by_cases hp : s.totalTime > 0
    · obtain ⟨a, b, c⟩ := h3 hp
      rw [if_pos hp, mul_ok a (by omega)]
      exact ⟨_, rfl, div_100 a b hp⟩
    · rw [if_neg hp, mul_ok (by omega) (by omega)]
      exact ⟨_, rfl, div_100 (by omega) (by omega) (by omega)⟩

/-! ### The fields -/

/-- The room that the fields take, with the spaces. -/
def room (spacing : Nat) : List Nat → Nat
  | [] => 0
  | l :: ls => l + spacing + room 1 ls

theorem fit_room (ls : List Nat) : ∀ (spacing m : Nat),
    room spacing (ls.take (fit spacing m ls).1) + (fit spacing m ls).2 = m := by
  induction ls with
  | nil => intro sp m; simp [fit, room]
  | cons l ls ih =>
    intro sp m
    unfold fit
    by_cases h : m ≥ l + sp
    · rw [if_pos h]
      simp only [List.take_succ_cons, room]
      have := ih 1 (m - (l + sp))
      omega
    · rw [if_neg h]
      simp [room]

theorem place_ok {buf : Str} {off : Nat} {t : Str} (h : off + t.length ≤ buf.length) :
    ∃ b, place buf off t = some b ∧ b.length = buf.length ∧ (b.drop off).take t.length = t ∧
      (∀ o n, o + n ≤ off → (b.drop o).take n = (buf.drop o).take n) := by
  unfold place
  rw [if_pos h]
  refine ⟨_, rfl, ?_, ?_, fun o n hn => ?_⟩
  · simp only [List.length_append, List.length_take, List.length_drop]; omega
  · rw [List.append_assoc, List.drop_append_of_le_length (by rw [List.length_take]; omega),
      List.drop_eq_nil_of_le (by rw [List.length_take]; omega), List.nil_append, List.take_append_of_le_length (Nat.le_refl _), List.take_length]
  · rw [List.append_assoc, List.drop_append_of_le_length (by rw [List.length_take]; omega),
      List.take_append_of_le_length (by rw [List.length_drop, List.length_take]; omega), List.drop_take, List.take_take, show min n (off - o) = n by omega]

/-- The places of the texts when they are written. -/
def marks (spacing off : Nat) : List Nat → List Nat
  | [] => []
  | l :: ls => (off + spacing) :: marks 1 (off + spacing + l) ls

theorem marks_one (ls : List Nat) : ∀ off, marks 1 off ls = spots (off + 1) ls := by
  induction ls with
  | nil => intro off; rfl
  | cons l ls ih =>
    intro off
    rw [marks, spots, ih]

theorem marks_zero (off : Nat) (ls : List Nat) : marks 0 off ls = spots off ls := by
  cases ls with
  | nil => rfl
  | cons l ls => rw [marks, spots, marks_one]; rfl

theorem draw_ok (fs : List (Str × Nat)) : ∀ (spacing off : Nat) (buf : Str), (∀ f ∈ fs, f.1.length ≤ f.2) →
    off + room spacing (fs.map (·.2)) ≤ buf.length →
    ∃ b, draw spacing off fs buf = some b ∧ b.length = buf.length ∧
      (∀ q ∈ (marks spacing off (fs.map (·.2))).zip (fs.map (·.1)), (b.drop q.1).take q.2.length = q.2) ∧
      (∀ o n, o + n ≤ off → (b.drop o).take n = (buf.drop o).take n) := by
  induction fs with
  | nil => intro sp off buf _ _; exact ⟨buf, rfl, rfl, by simp [marks], fun _ _ _ => rfl⟩
  | cons f fs ih =>
    obtain ⟨t, l⟩ := f
    intro sp off buf hf hr
    have ht : t.length ≤ l := hf (t, l) List.mem_cons_self
    simp only [List.map_cons, room] at hr
    obtain ⟨b1, e1, l1, t1, p1⟩ := place_ok (buf := buf) (off := off + sp) (t := t) (by omega)
    obtain ⟨b, e2, l2, t2, p2⟩ := ih 1 (off + sp + l) b1 (fun f hfm => hf f (List.mem_cons_of_mem _ hfm)) (by omega)
    refine ⟨b, ?_, l2.trans l1, ?_, fun o n hn => ?_⟩
    · rw [draw, e1]; exact e2
    · intro q hq
      simp only [List.map_cons, marks, List.zip_cons_cons, List.mem_cons] at hq
      rcases hq with rfl | hq
      · dsimp only
        rw [p2 _ _ (by omega)]
        exact t1
      · exact t2 q hq
    · rw [p2 o n (by omega), p1 o n (by omega)]

theorem mark_le (ls : List Nat) : ∀ (sp off : Nat) (q : Nat × Nat), q ∈ (marks sp off ls).zip ls → q.1 + q.2 ≤ off + room sp ls := by
  induction ls with
  | nil => intro sp off q hq; simp [marks] at hq
  | cons l ls ih =>
    intro sp off q hq
    simp only [marks, List.zip_cons_cons, List.mem_cons] at hq
    rw [room]
    rcases hq with rfl | hq
    · dsimp only; omega
    · have := ih 1 _ q hq
      omega

theorem fields_fit {runtime : Int → Int → Int → Int} {ms : Int} {s : St} {active : Option Nat} (hr : Roomy s active) (hs : s.sum ≤ s.total) :
    ∀ f ∈ fields runtime ms s active, f.1.length ≤ f.2 := by
  obtain ⟨h1, h2, h3⟩ := hr
  intro f hf
  unfold fields at hf
  simp only [List.mem_cons, List.not_mem_nil, or_false] at hf
  rcases hf with rfl | rfl | rfl
  · dsimp only
    refine Nat.le_trans (time_short _ _) ?_
    by_cases ht : s.totalTime = -1
    · simpa [ht] using h1.2 ht
    · simpa [ht] using h1.1
  · dsimp only
    rw [h2, List.length_append, List.length_append]
    have : ((s.total : Int) - s.sum) = ((s.total - s.sum : Nat) : Int) := by omega
    rw [this]
    have := num_mono (show s.total - s.sum ≤ s.total by omega)
    omega
  · cases active with
    | none => exact Nat.le_refl _
    | some a => exact h3 a rfl

/-- The bar is drawn. -/
theorem show_ok {runtime : Int → Int → Int → Int} {ms : Int} {cw colors : Nat} {s : St} {active : Option Nat} (hf : Fair s)
    (hr : Roomy s active) (ht : s.total ≠ 0) (hc : 10 ≤ cw) :
    ∃ b, showProgress runtime ms cw colors s active = .bar b ∧ b.cells.length = min (cw - 9) s.total ∧ b.fill ≤ b.cells.length ∧
      percent s = some b.pct ∧ 0 ≤ b.pct ∧ b.pct ≤ 100 ∧
      b.fill = (if s.total ≤ cw - 9 then s.sum else (b.cells.length * b.pct.toNat) / 100) ∧
      let fs := fields runtime ms s active
      let r := fit 0 (min (cw - 9) s.total) (fs.map (·.2))
      ∀ q ∈ (spots (r.2 / 2) ((fs.take r.1).map (·.2))).zip ((fs.take r.1).map (·.1)), (b.cells.drop q.1).take q.2.length = q.2 := by
  obtain ⟨p, hp, hp0, hp1⟩ := percent_ok hf
  unfold showProgress
  rw [if_pos ⟨ht, hc⟩, hp]
  dsimp only
  generalize hm : min (cw - 9) s.total = max
  have hmc : max ≤ cw - 9 := by omega
  generalize hfi : (if max = s.total then (s.sum : Int) else ((max : Int) * p).tdiv 100) = fill
  have hfill : 0 ≤ fill ∧ fill ≤ max ∧ fill.toNat = (if s.total ≤ cw - 9 then s.sum else (max * p.toNat) / 100) := by
    obtain ⟨q, rfl⟩ := Int.eq_ofNat_of_zero_le hp0
    by_cases he : max = s.total
    · rw [if_pos he] at hfi
      have := hf.sum
      rw [if_pos (by omega)]
      refine ⟨by omega, by omega, by omega⟩
    · rw [if_neg he] at hfi
      rw [if_neg (by omega)]
      have e : ((max : Int) * (q : Int)).tdiv 100 = ((max * q / 100 : Nat) : Int) := by
        rw [Int.tdiv_eq_ediv_of_nonneg (by exact_mod_cast Nat.zero_le (max * q))]
        exact_mod_cast rfl
      rw [e] at hfi
      have hle : max * q / 100 ≤ max := by
        have h100 : max * q ≤ max * 100 := Nat.mul_le_mul_left _ (by omega)
        omega
      refine ⟨by omega, by omega, ?_⟩
      rw [← hfi, Int.toNat_natCast, Int.toNat_natCast]
  rw [if_neg (by omega)]
  obtain ⟨h0, h1, h2⟩ := hfill
  generalize hbuf : (if colors ≠ 0 then List.replicate (cw + colors + 1) ' '
    else List.replicate fill.toNat '.' ++ List.replicate (cw + colors + 1 - fill.toNat) ' ') = buf
  have hlen : buf.length = cw + colors + 1 := by
    rw [← hbuf]
    split
    · simp
    · simp; omega
  generalize hfs : fields runtime ms s active = fs
  generalize hrr : fit 0 max (fs.map (·.2)) = r
  have hroom := fit_room (fs.map (·.2)) 0 max
  rw [hrr, ← List.map_take] at hroom
  have hfit : ∀ f ∈ fs.take r.1, f.1.length ≤ f.2 := by
    intro f hfm
    rw [← hfs] at hfm
    exact fields_fit hr hf.sum f (List.mem_of_mem_take hfm)
  obtain ⟨b, e, bl, bt, _⟩ := draw_ok (fs.take r.1) 0 (r.2 / 2) buf hfit (by omega)
  rw [e]
  refine ⟨_, rfl, ?_, ?_, rfl, hp0, hp1, ?_, ?_⟩
  · dsimp only; rw [List.length_take]; omega
  · dsimp only; rw [List.length_take]; omega
  · dsimp only
    rw [List.length_take, show min max b.length = max by omega]
    exact h2
  · intro q hq
    rw [← marks_zero] at hq
    have hb := bt q hq
    dsimp only
    have hle : q.1 + q.2.length ≤ max := by
      obtain ⟨k, hk, hqe⟩ := List.getElem_of_mem hq
      rw [List.getElem_zip] at hqe
      have hk1 : k < (marks 0 (r.2 / 2) ((fs.take r.1).map (·.2))).length := by
        simp only [List.length_zip] at hk; omega
      have hk2 : k < (fs.take r.1).length := by
        simp only [List.length_zip, List.length_map] at hk; omega
      have hm2 := mark_le ((fs.take r.1).map (·.2)) 0 (r.2 / 2)
        ((marks 0 (r.2 / 2) ((fs.take r.1).map (·.2)))[k], ((fs.take r.1).map (·.2))[k]'(by simpa using hk2)) (by
          rw [← List.getElem_zip (h := by simp only [List.length_zip, List.length_map]; omega)]
          exact List.getElem_mem _)
      have hl := hfit (fs.take r.1)[k] (List.getElem_mem _)
      simp only [List.getElem_map] at hm2 hqe
      rw [← hqe]
      dsimp only
      omega
    rw [List.drop_take, List.take_take, show min q.2.length (max - q.1) = q.2.length by omega]
    exact hb

end Tup.Progress
