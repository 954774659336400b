import Verif.Names.Spec

namespace Tup.Names

theorem total_append (f : Entry → Int) (a b : List Entry) : total f (a ++ b) = total f a + total f b := by
  induction a with
  | nil => simp [total]
  | cons e a ih => simp only [List.cons_append, total, ih]; omega

theorem total_eraseIdx (f : Entry → Int) {l : List Entry} {i : Nat} {e : Entry} (h : l[i]? = some e) :
    total f (l.eraseIdx i) = total f l - f e := by
  induction l generalizing i with
  | nil => simp at h
  | cons x l ih =>
    cases i with
    | zero =>
      simp only [List.getElem?_cons_zero, Option.some.injEq] at h
      subst h
      simp only [List.eraseIdx_cons_zero, total]
      omega
    | succ i =>
      simp only [List.getElem?_cons_succ] at h
      simp only [List.eraseIdx_cons_succ, total, ih h]
      omega

theorem add_exact {nl : NameList} (h : Exact nl) (e : Entry) : Exact (nl.add e) := by
  obtain ⟨h1, h2, h3, h4, h5⟩ := h
  constructor
  · simp only [NameList.add, Totals.add, h1, List.length_append, List.length_cons, List.length_nil]
    omega
  all_goals simp only [NameList.add, Totals.add, total_append, total, Int.add_zero, *]
  intro i
  trivial

theorem delete_exact {nl : NameList} (h : Exact nl) (i : Nat) : Exact (nl.delete i) := by
  unfold NameList.delete
  cases hi : nl.entries[i]? with
  | none => exact h
  | some e =>
    obtain ⟨h1, h2, h3, h4, h5⟩ := h
    have hl : i < nl.entries.length := by
      rw [List.getElem?_eq_some_iff] at hi
      exact hi.1
    constructor
    · simp only [Totals.sub, h1]
      rw [List.length_eraseIdx_of_lt hl]
      omega
    all_goals simp only [Totals.sub, total_eraseIdx _ hi, *]
    intro i
    trivial

theorem deleteLoop_exact {σ} (drop : σ → Entry → Bool × σ) : ∀ (l pre : List Entry) (s : σ) (t : Totals),
    Exact ⟨pre ++ l, t⟩ → Exact ⟨pre ++ (deleteLoop drop s t l).entries, (deleteLoop drop s t l).tot⟩ := by
  intro l
  induction l with
  | nil => intro pre s t h; exact h
  | cons e l ih =>
    intro pre s t h
    rw [deleteLoop]
    cases hd : drop s e with
    | mk b s' =>
      cases b with
      | true =>
        simp only
        apply ih
        have := delete_exact h pre.length
        unfold NameList.delete at this
        simp only [List.getElem?_append_right (Nat.le_refl _), Nat.sub_self, List.getElem?_cons_zero] at this
        rw [List.eraseIdx_append_of_length_le (Nat.le_refl _), Nat.sub_self, List.eraseIdx_cons_zero] at this
        exact this
      | false =>
        simp only
        have := ih (pre ++ [e]) s' t (by simpa using h)
        simpa using this

theorem step_exact {nl : NameList} (h : Exact nl) (op : Op) : Exact (step nl op) := by
  cases op with
  | add e => exact add_exact h e
  | delete i => exact delete_exact h i
  | unique => exact deleteLoop_exact _ nl.entries [] _ nl.tot h
  | exclude re => exact deleteLoop_exact _ nl.entries [] _ nl.tot h
  | clear => exact deleteLoop_exact _ nl.entries [] _ nl.tot h

theorem run_exact {nl : NameList} (h : Run nl) : Exact nl := by
  induction h with
  | init => constructor <;> simp [NameList.empty, Totals.init, total]
  | step _ ih => exact step_exact ih _
  | @moveTo new old i _ _ ih1 ih2 =>
    unfold NameList.move
    split
    · exact ih1
    · exact add_exact ih1 _
  | @moveFrom new old i _ _ ih1 ih2 =>
    unfold NameList.move
    split
    · exact ih2
    · exact delete_exact ih2 _

/-- The entries that `make_name_list_unique` keeps. -/
def kept : List Nat → List Entry → List Entry
  | _, [] => []
  | seen, e :: l =>
    match e.tent with
    | none => e :: kept seen l
    | some t => if t ∈ seen then kept seen l else e :: kept (t :: seen) l

theorem unique_eq (l : List Entry) : ∀ (seen : List Nat) (t : Totals),
    (deleteLoop (σ := List Nat)
      (fun seen e =>
        match e.tent with
        | none => (false, seen)
        | some t => if t ∈ seen then (true, seen) else (false, t :: seen)) seen t l).entries = kept seen l := by
  induction l with
  | nil => intro seen t; rfl
  | cons e l ih =>
    intro seen t
    rw [deleteLoop, kept]
    cases ht : e.tent with
    | none => simp only [ih]
    | some x =>
      by_cases hx : x ∈ seen
      · simp only [if_pos hx]; exact ih _ _
      · simp only [if_neg hx, ih]

theorem kept_congr (l : List Entry) : ∀ {a b : List Nat}, (∀ x, x ∈ a ↔ x ∈ b) → kept a l = kept b l := by
  induction l with
  | nil => intro a b _; rfl
  | cons e l ih =>
    intro a b h
    rw [kept, kept]
    cases e.tent with
    | none => simp only [ih h]
    | some t =>
      simp only [h t]
      have : ∀ x, x ∈ t :: a ↔ x ∈ t :: b := fun x => by simp [h x]
      rw [ih h, ih this]

/-- The nodes of the entries. -/
def tents (l : List Entry) : List Nat := l.filterMap Entry.tent

theorem kept_append (a b : List Entry) : ∀ seen : List Nat,
    kept seen (a ++ b) = kept seen a ++ kept (tents a ++ seen) b := by
  induction a with
  | nil => intro seen; rfl
  | cons e a ih =>
    intro seen
    simp only [List.cons_append, kept, tents, List.filterMap_cons]
    cases ht : e.tent with
    | none => simp only [ih, List.cons_append]; rfl
    | some t =>
      simp only
      by_cases hx : t ∈ seen
      · simp only [if_pos hx, ih]
        congr 1
        apply kept_congr
        intro x
        simp only [tents, List.mem_append, List.mem_cons]
        constructor
        · rintro (h | h)
          · exact .inl (.inr h)
          · exact .inr h
        · rintro ((rfl | h) | h)
          · exact .inr hx
          · exact .inl h
          · exact .inr h
      · simp only [if_neg hx, ih, List.cons_append]
        congr 2
        apply kept_congr
        intro x
        simp only [tents, List.mem_append, List.mem_cons]
        grind

theorem kept_sublist (l : List Entry) : ∀ seen, (kept seen l).Sublist l := by
  induction l with
  | nil => intro seen; exact .slnil
  | cons e l ih =>
    intro seen
    rw [kept]
    cases e.tent with
    | none => exact (ih seen).cons_cons e
    | some t =>
      simp only
      split
      · exact (ih seen).cons e
      · exact (ih _).cons_cons e

theorem kept_tents (l : List Entry) : ∀ seen, ∀ e ∈ kept seen l, ∀ t, e.tent = some t → t ∉ seen := by
  induction l with
  | nil => intro seen e he; cases he
  | cons x l ih =>
    intro seen e he t ht
    rw [kept] at he
    cases hx : x.tent with
    | none =>
      simp only [hx, List.mem_cons] at he
      rcases he with rfl | he
      · rw [hx] at ht; cases ht
      · exact ih _ e he t ht
    | some y =>
      simp only [hx] at he
      split at he
      · exact ih _ e he t ht
      · next hy =>
        rcases List.mem_cons.1 he with rfl | he
        · rw [hx] at ht; cases ht; exact hy
        · intro hs
          exact ih _ e he t ht (List.mem_cons_of_mem _ hs)

theorem kept_pairwise (l : List Entry) : ∀ seen,
    (kept seen l).Pairwise fun a b => a.tent = none ∨ a.tent ≠ b.tent := by
  induction l with
  | nil => intro seen; exact .nil
  | cons e l ih =>
    intro seen
    rw [kept]
    cases ht : e.tent with
    | none => exact List.pairwise_cons.2 ⟨fun _ _ => .inl ht, ih _⟩
    | some t =>
      simp only
      split
      · exact ih _
      · refine List.pairwise_cons.2 ⟨fun b hb => .inr ?_, ih _⟩
        rw [ht]
        intro hbt
        exact kept_tents l _ b hb t hbt.symm List.mem_cons_self

theorem scanFrom_le (s : Str) (n : Nat) : scanFrom s n ≤ n := by
  induction n with
  | zero => simp [scanFrom]
  | succ n ih => rw [scanFrom]; split <;> omega

/-- No dot at the positions from `k` to `n`: the scan gets to `k`. -/
theorem scanFrom_skip (s : Str) (k n : Nat) (hk : k ≤ n) (h : ∀ i, k < i → i ≤ n → s[i]? ≠ some '.') :
    scanFrom s n = scanFrom s k := by
  induction n with
  | zero => rw [show k = 0 from by omega]
  | succ n ih =>
    by_cases hkn : k = n + 1
    · rw [hkn]
    · rw [scanFrom, if_neg (h (n + 1) (by omega) (by omega))]
      exact ih (by omega) fun i h1 h2 => h i h1 (by omega)

theorem scanFrom_dot (s : Str) {k : Nat} (hk : 0 < k) (h : s[k]? = some '.') : scanFrom s k = k := by
  cases k with
  | zero => omega
  | succ k => rw [scanFrom, if_pos h]

theorem scanFrom_ext {a e b : Str} (ha : a ≠ []) (he : '.' ∉ e) :
    scanFrom (a ++ '.' :: e) (a.length + e.length + b.length) = a.length := by
  rw [scanFrom_skip (k := a.length)]
  · apply scanFrom_dot
    · exact List.length_pos_iff.2 ha
    · simp
  · omega
  · intro i h1 h2 h3
    rw [List.getElem?_append_right (by omega)] at h3
    obtain ⟨j, hj⟩ : ∃ j, i - a.length = j + 1 := ⟨i - a.length - 1, by omega⟩
    rw [hj, List.getElem?_cons_succ] at h3
    exact he (List.mem_of_getElem? h3)

theorem scanFrom_plain {s : Str} (h : '.' ∉ s.drop 1) (n : Nat) : scanFrom s n = 0 := by
  rw [scanFrom_skip s 0 n (Nat.zero_le _)]
  · rfl
  · intro i h1 _ h3
    apply h
    apply List.mem_of_getElem? (i := i - 1)
    rw [List.getElem?_drop]
    rw [show 1 + (i - 1) = i from by omega]
    exact h3

theorem base_append {e : Entry} {d b : Str} (h : e.path = d ++ '/' :: b) (hb : '/' ∉ b) : e.base = b := by
  unfold Entry.base
  rw [h, List.reverse_append, List.reverse_cons, List.append_assoc]
  rw [List.takeWhile_append_of_pos]
  · simp
  · intro c hc
    have : c ∈ b := List.mem_reverse.1 hc
    simp only [decide_eq_true_eq]
    rintro rfl
    exact hb this

theorem base_whole {e : Entry} (h : '/' ∉ e.path) : e.base = e.path := by
  unfold Entry.base
  have : e.path.reverse.takeWhile (· ≠ '/') = e.path.reverse := by
    have := List.takeWhile_append_of_pos (p := fun c : Char => decide (c ≠ '/')) (l₁ := e.path.reverse) (l₂ := [])
      (by
        intro c hc
        simp only [decide_eq_true_eq]
        rintro rfl
        exact h (List.mem_reverse.1 hc))
    simpa using this
  rw [this, List.reverse_reverse]

theorem common_spec (p m : Str) : ∃ c, p = c ++ (common p m).2.1 ∧ m = c ++ (common p m).2.2 ∧
    (common p m).1 = c.length ∧
    ∀ x y, (common p m).2.1.head? = some x → (common p m).2.2.head? = some y → x ≠ y := by
  fun_induction common p m with
  | case1 p c m r ih =>
    obtain ⟨a, h1, h2, h3, h4⟩ := ih
    refine ⟨c :: a, ?_, ?_, ?_, h4⟩
    · simp only [List.cons_append]; rw [← h1]
    · simp only [List.cons_append]; rw [← h2]
    · show r.1 + 1 = _
      rw [List.length_cons, ← h3]
  | case2 c p d m hcd =>
    refine ⟨[], rfl, rfl, rfl, ?_⟩
    intro x y hx hy
    simp only [List.head?_cons, Option.some.injEq] at hx hy
    rw [← hx, ← hy]; exact hcd
  | case3 p m h =>
    refine ⟨[], rfl, rfl, rfl, ?_⟩
    intro x y hx hy
    cases p with
    | nil => cases hx
    | cons a p =>
      cases m with
      | nil => cases hy
      | cons b m => exact absurd rfl (h a p b m rfl)

theorem common_append (a p m : Str) (h : ∀ x y, p.head? = some x → m.head? = some y → x ≠ y) :
    common (a ++ p) (a ++ m) = (a.length, p, m) := by
  induction a with
  | nil =>
    cases p with
    | nil => cases m <;> simp [common]
    | cons x p =>
      cases m with
      | nil => simp [common]
      | cons y m => simp [common, h x y rfl rfl]
  | cons c a ih => simp only [List.cons_append, common, if_true, ih, List.length_cons]

end Tup.Names
