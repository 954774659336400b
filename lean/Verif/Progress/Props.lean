import Verif.Progress.Lemmas

/-! C94: the progress bar. -/

namespace Tup.Progress

theorem run_same (es : List Ev) : ∀ s : St, (run s es).total = s.total ∧ (run s es).sum = s.sum + es.length ∧ (run s es).eta = s.eta ∧
    (run s es).rem = s.rem ∧ (run s es).act = s.act := by
  induction es with
  | nil => intro s; exact ⟨rfl, rfl, rfl, rfl, rfl⟩
  | cons e es ih =>
    intro s
    obtain ⟨h1, h2, h3, h4, h5⟩ := ih (s.ev e)
    have hs : (s.ev e).total = s.total ∧ (s.ev e).sum = s.sum + 1 ∧ (s.ev e).eta = s.eta ∧ (s.ev e).rem = s.rem ∧ (s.ev e).act = s.act := by
      cases e <;> exact ⟨rfl, rfl, rfl, rfl, rfl⟩
    obtain ⟨g1, g2, g3, g4, g5⟩ := hs
    rw [run]
    refine ⟨h1.trans g1, ?_, h3.trans g3, h4.trans g4, h5.trans g5⟩
    rw [h2, g2, List.length_cons]
    omega

theorem skip_nonneg {es : List Ev} (h : ∀ m, Ev.skip m ∈ es → 0 ≤ m) : 0 ≤ skipTime es := by
  induction es with
  | nil => exact Int.le_refl _
  | cons e es ih =>
    have := ih fun m hm => h m (List.mem_cons_of_mem _ hm)
    cases e with
    | skip m => have := h m List.mem_cons_self; simp only [skipTime]; omega
    | done m => exact this
    | drop => exact this

theorem done_nonneg {es : List Ev} (h : ∀ e ∈ es, 0 ≤ e.time) : 0 ≤ doneTime es := by
  induction es with
  | nil => exact Int.le_refl _
  | cons e es ih =>
    have := ih fun e he => h e (List.mem_cons_of_mem _ he)
    cases e with
    | done m =>
      have hm : 0 ≤ m := h _ List.mem_cons_self
      simp only [doneTime]; omega
    | skip m => exact this
    | drop => exact this

theorem run_total (es : List Ev) : ∀ s : St, (∀ m, Ev.skip m ∈ es → 0 ≤ m) → s.totalTime ≤ 2147483647 →
    -2147483648 ≤ s.totalTime - skipTime es → (run s es).totalTime = s.totalTime - skipTime es := by
  induction es with
  | nil => intro s _ _ _; simp [run, skipTime]
  | cons e es ih =>
    intro s h h1 h2
    have hr := fun m hm => h m (List.mem_cons_of_mem _ hm)
    have hn := skip_nonneg hr
    rw [run]
    cases e with
    | skip m =>
      have hm := h m List.mem_cons_self
      simp only [skipTime] at h2 ⊢
      have hw : (s.ev (.skip m)).totalTime = s.totalTime - m := wrap_id (by omega) (by omega)
      rw [ih _ hr (by omega) (by omega), hw]
      omega
    | done m => exact ih _ hr h1 h2
    | drop => exact ih _ hr h1 h2

theorem run_job (es : List Ev) : ∀ s : St, (∀ e ∈ es, 0 ≤ e.time) → 0 ≤ s.jobTime → s.jobTime + doneTime es ≤ 2147483647 →
    (run s es).jobTime = s.jobTime + doneTime es := by
  induction es with
  | nil => intro s _ _ _; simp [run, doneTime]
  | cons e es ih =>
    intro s h h1 h2
    have hr := fun e he => h e (List.mem_cons_of_mem _ he)
    have hn := done_nonneg hr
    rw [run]
    cases e with
    | done m =>
      have hm : 0 ≤ m := h (.done m) List.mem_cons_self
      simp only [doneTime] at h2 ⊢
      have hw : (s.ev (.done m)).jobTime = s.jobTime + m := wrap_id (by omega) (by omega)
      rw [ih _ hr (by omega) (by omega), hw]
      omega
    | skip m => exact ih _ hr h1 h2
    | drop => exact ih _ hr h1 h2

theorem sum_perm {l m : List Int} (h : l.Perm m) : sumTime l = sumTime m := by
  induction h with
  | nil => rfl
  | cons x _ ih => simp only [sumTime, ih]
  | swap x y l => simp only [sumTime]; omega
  | trans _ _ ih1 ih2 => exact ih1.trans ih2

theorem sum_nonneg {l : List Int} (h : ∀ m ∈ l, 0 ≤ m) : 0 ≤ sumTime l := by
  induction l with
  | nil => exact Int.le_refl _
  | cons x l ih =>
    have h1 := h x List.mem_cons_self
    have h2 := ih fun m hm => h m (List.mem_cons_of_mem _ hm)
    simp only [sumTime]; omega

theorem sum_events (es : List Ev) (rest : List Int) : sumTime (es.map Ev.time ++ rest) = doneTime es + skipTime es + sumTime rest := by
  induction es with
  | nil => simp [doneTime, skipTime]
  | cons e es ih =>
    simp only [List.map_cons, List.cons_append, sumTime, ih]
    cases e <;> simp only [Ev.time, doneTime, skipTime] <;> omega

theorem add_known (l : List Int) : ∀ t : Int, 0 ≤ t → (∀ m ∈ l, 0 ≤ m) → l.foldl addTime t = t + sumTime l := by
  induction l with
  | nil => intro t _ _; simp [sumTime]
  | cons x l ih =>
    intro t ht h
    have hx := h x List.mem_cons_self
    have e : addTime t x = t + x := by
      unfold addTime
      rw [if_pos (by omega), if_neg (by omega)]
    rw [List.foldl_cons, e, ih _ (by omega) fun m hm => h m (List.mem_cons_of_mem _ hm)]
    simp only [sumTime]
    omega

theorem add_lost (l : List Int) : l.foldl addTime (-1) = -1 := by
  induction l with
  | nil => rfl
  | cons x l ih =>
    rw [List.foldl_cons, show addTime (-1) x = -1 by unfold addTime; rw [if_neg (by decide)]]
    exact ih

theorem add_unknown (l : List Int) : ∀ t : Int, 0 ≤ t → (∀ m ∈ l, -1 ≤ m) → -1 ∈ l → l.foldl addTime t = -1 := by
  induction l with
  | nil => intro t _ _ h; cases h
  | cons x l ih =>
    intro t ht h hm
    rw [List.foldl_cons]
    by_cases hx : x = -1
    · rw [show addTime t x = -1 by unfold addTime; rw [if_pos (by omega), if_pos hx]]
      exact add_lost l
    · have hx1 := h x List.mem_cons_self
      rw [show addTime t x = t + x by unfold addTime; rw [if_pos (by omega), if_neg hx]]
      refine ih _ (by omega) (fun m hm => h m (List.mem_cons_of_mem _ hm)) ?_
      rcases List.mem_cons.1 hm with h1 | h1
      · exact absurd h1.symm hx
      · exact h1

theorem ev_times {es : List Ev} {rest jobs : List Int} (hp : (es.map Ev.time ++ rest).Perm jobs) (h : ∀ m ∈ jobs, 0 ≤ m) :
    (∀ e ∈ es, 0 ≤ e.time) ∧ (∀ m ∈ rest, 0 ≤ m) :=
  ⟨fun e he => h _ (hp.mem_iff.1 (List.mem_append_left _ (List.mem_map_of_mem he))),
    fun m hm => h _ (hp.mem_iff.1 (List.mem_append_right _ hm))⟩

/-- When the times of all jobs are known, whichever of them are done or skipped so far, in any order: the bar can be drawn, and the
percentage is the part that the time of the done ones is of the time of those that are not skipped (of the numbers, if there is
no such time), if the times make less than about six hours. -/
theorem c94_known {jobs rest : List Int} {es : List Ev} {j : Nat} {active : Option Nat} (h : ∀ m ∈ jobs, 0 ≤ m)
    (hp : (es.map Ev.time ++ rest).Perm jobs) (hl : jobs.length ≤ most) (hb : sumTime jobs ≤ most) (ha : ∀ a, active = some a → a ≤ j) :
    let s := run (start jobs.length (jobs.foldl addTime 0) j) es
    Fair s ∧ Roomy s active ∧ (jobs ≠ [] → percent s = some
      (if 0 < sumTime jobs - skipTime es then 100 * doneTime es / (sumTime jobs - skipTime es) else 100 * es.length / jobs.length)) := by
  obtain ⟨he, hrest⟩ := ev_times hp h
  have hsum := sum_events es rest
  rw [sum_perm hp] at hsum
  have hd := done_nonneg he
  have hk := skip_nonneg (es := es) fun m hm => he _ hm
  have hr := sum_nonneg hrest
  have hj := sum_nonneg h
  have hlen : es.length ≤ jobs.length := by
    have := hp.length_eq
    simp only [List.length_append, List.length_map] at this
    omega
  unfold most at hl hb
  rw [add_known jobs 0 (by omega) h, Int.zero_add]
  intro s
  have hw : wrap (sumTime jobs) = sumTime jobs := wrap_id (by omega) (by omega)
  obtain ⟨s1, s2, s3, s4, s5⟩ := run_same es (start jobs.length (sumTime jobs) j)
  have ht : s.totalTime = sumTime jobs - skipTime es := by
    have := run_total es (start jobs.length (sumTime jobs) j) (fun m hm => he _ hm) (by
      show wrap _ ≤ _; omega) (by show _ ≤ wrap _ - _; omega)
    rw [show (start jobs.length (sumTime jobs) j).totalTime = sumTime jobs from hw] at this
    exact this
  have hjt : s.jobTime = doneTime es := by
    have := run_job es (start jobs.length (sumTime jobs) j) he (Int.le_refl _) (by show 0 + _ ≤ _; omega)
    rw [show (start jobs.length (sumTime jobs) j).jobTime = 0 from rfl, Int.zero_add] at this
    exact this
  have hsm : s.sum = es.length := by rw [s2]; show 0 + _ = _; omega
  have htot : s.total = jobs.length := s1
  refine ⟨⟨by omega, by unfold most; omega, fun _ => ⟨by omega, by omega, by unfold most; omega⟩⟩, ⟨⟨?_, ?_⟩, ?_, ?_⟩, ?_⟩
  · rw [s3]
    show 7 ≤ (timeText _ none).length
    rw [hw]
    cases decide (sumTime jobs = -1) <;> decide
  · intro hm1; omega
  · rw [s4, htot]; rfl
  · intro a haa
    rw [s5]
    show _ ≤ ("Active=".toList ++ num j).length
    have := num_mono (ha a haa)
    rw [List.length_append, List.length_append]
    omega
  · intro hne
    have hpos : jobs.length ≠ 0 := fun h0 => hne (List.eq_nil_of_length_eq_zero h0)
    unfold percent
    rw [htot, if_neg hpos, ht, hjt, hsm]
    by_cases hp0 : 0 < sumTime jobs - skipTime es
    · rw [if_pos hp0, if_pos hp0, mul_ok hd (by omega), Option.map_some, Int.tdiv_eq_ediv_of_nonneg (by omega), Int.mul_comm]
    · rw [if_neg hp0, if_neg hp0, mul_ok (by omega) (by omega), Option.map_some, Int.tdiv_eq_ediv_of_nonneg (by omega), Int.mul_comm]

/-- When the time of some job is not known (or nobody asks for times: -1), the percentage is the part of the jobs that are done or
skipped, if the times of skipped jobs are known. -/
theorem c94_unknown {total : Nat} {es : List Ev} {j : Int} {active : Option Nat} (hl : es.length ≤ total) (hm : total ≤ most)
    (hs : ∀ m, Ev.skip m ∈ es → 0 ≤ m) (hb : skipTime es < 2147483648) (ha : ∀ a, active = some a → (a : Int) ≤ j) :
    let s := run (start total (-1) j) es
    Fair s ∧ Roomy s active ∧ (total ≠ 0 → percent s = some ((100 * es.length / total : Nat) : Int)) := by
  intro s
  have hk := skip_nonneg hs
  obtain ⟨s1, s2, s3, s4, s5⟩ := run_same es (start total (-1) j)
  have ht : s.totalTime = -1 - skipTime es := run_total es (start total (-1) j) hs (by show wrap (-1) ≤ _; decide) (by
    show _ ≤ wrap (-1) - _
    rw [show wrap (-1) = -1 by decide]
    omega)
  have hsm : s.sum = es.length := by rw [s2]; show 0 + _ = _; omega
  have htot : s.total = total := s1
  refine ⟨⟨by omega, by omega, fun h => by omega⟩, ⟨⟨?_, ?_⟩, ?_, ?_⟩, ?_⟩
  · rw [s3]; show 7 ≤ (timeText _ none).length; rw [show wrap (-1) = -1 by decide]; decide
  · intro _; rw [s3]; show 8 ≤ (timeText _ none).length; rw [show wrap (-1) = -1 by decide]; decide
  · rw [s4, htot]; rfl
  · intro a haa
    rw [s5]
    show _ ≤ ("Active=".toList ++ num j).length
    have h1 := ha a haa
    obtain ⟨k, rfl⟩ := Int.eq_ofNat_of_zero_le (show 0 ≤ j by omega)
    have := num_mono (show a ≤ k by omega)
    rw [List.length_append, List.length_append]
    omega
  · intro hne
    unfold most at hm
    unfold percent
    rw [htot, if_neg hne, ht, hsm, if_neg (by omega), mul_ok (by omega) (by omega), Option.map_some, Int.tdiv_eq_ediv_of_nonneg (by omega),
      Int.mul_comm]
    rfl

/-- The time of a phase is -1 exactly if one of the jobs has not been run. -/
theorem c94_sum {jobs : List Int} (h : ∀ m ∈ jobs, -1 ≤ m) :
    jobs.foldl addTime 0 = if -1 ∈ jobs then -1 else sumTime jobs := by
  by_cases hm : -1 ∈ jobs
  · rw [if_pos hm, add_unknown jobs 0 (Int.le_refl _) h hm]
  · rw [if_neg hm, add_known jobs 0 (Int.le_refl _) fun m hmm => ?_, Int.zero_add]
    have h1 := h m hmm
    have h2 : m ≠ -1 := fun he => hm (he ▸ hmm)
    omega

/-- What the line looks like: the bar in brackets, and the percentage in three columns, with blanks before it. -/
theorem c94_line {b : Bar} (h0 : 0 ≤ b.pct) (h1 : b.pct ≤ 100) : ∃ blanks digits : Str, (∀ c ∈ blanks, c = ' ') ∧
    blanks.length + digits.length = 3 ∧ num b.pct = digits ∧ b.line = " [".toList ++ b.cells ++ "] ".toList ++ blanks ++ digits ++ "%".toList := by
  refine ⟨_, _, fun c hc => List.eq_of_mem_replicate hc, ?_, rfl, rfl⟩
  have hn := num_short (z := b.pct) (k := 3) (by decide) h0 (by omega)
  rw [List.length_replicate]
  omega

/-- With such counters drawing the bar reads and writes nothing outside the buffer; the bar has as many columns as there are jobs
but fits into the line with at least one column left, so that clearing the line clears all of it. -/
theorem c94_bar {runtime : Int → Int → Int → Int} {ms : Int} {cw colors : Nat} {s : St} {active : Option Nat} (hf : Fair s)
    (hr : Roomy s active) (ht : s.total ≠ 0) (hc : 10 ≤ cw) :
    ∃ b, showProgress runtime ms cw colors s active = .bar b ∧ b.cells.length = min (cw - 9) s.total ∧
      b.line.length ≤ cleared cw ∧ percent s = some b.pct ∧ 0 ≤ b.pct ∧ b.pct ≤ 100 ∧
      b.fill = (if s.total ≤ cw - 9 then s.sum else (b.cells.length * b.pct.toNat) / 100) ∧ b.fill ≤ b.cells.length := by
  obtain ⟨b, h1, h2, h3, h4, h5, h6, h7, _⟩ := show_ok (runtime := runtime) (ms := ms) (colors := colors) hf hr ht hc
  refine ⟨b, h1, h2, ?_, h4, h5, h6, h7, h3⟩
  unfold Bar.line cleared
  simp only [List.length_append, List.length_replicate]
  have ha : " [".toList.length = 2 := rfl
  have hb : "] ".toList.length = 2 := rfl
  have hc' : "%".toList.length = 1 := rfl
  have hn := num_short (z := b.pct) (k := 3) (by decide) h5 (by omega)
  rw [ha, hb, hc', h2]
  omega

theorem zip_take (a : List Nat) : ∀ (k : Nat) (ts : List Str), a.length ≤ k → a.zip (ts.take k) = a.zip ts := by
  induction a with
  | nil => intro k ts _; rfl
  | cons x a ih =>
    intro k ts h
    cases ts with
    | nil => simp
    | cons t ts =>
      cases k with
      | zero => simp at h
      | succ k =>
        rw [List.take_succ_cons, List.zip_cons_cons, List.zip_cons_cons, ih k ts (by simpa using h)]

/-- How many fields are shown and where they begin depends only on the width of the screen, on the number of jobs and on the room
for each, which do not change in a phase; and each of them stands there in full. -/
theorem c94_fields {runtime : Int → Int → Int → Int} {ms : Int} {cw colors : Nat} {s : St} {active : Option Nat} (hf : Fair s)
    (hr : Roomy s active) (ht : s.total ≠ 0) (hc : 10 ≤ cw) :
    ∃ b, showProgress runtime ms cw colors s active = .bar b ∧
      let lens := [s.eta, s.rem, if active.isSome then s.act else 0]
      let r := fit 0 (min (cw - 9) s.total) lens
      ∀ q ∈ (spots (r.2 / 2) (lens.take r.1)).zip ((fields runtime ms s active).map (·.1)), (b.cells.drop q.1).take q.2.length = q.2 := by
  obtain ⟨b, h1, _, _, _, _, _, _, h8⟩ := show_ok (runtime := runtime) (ms := ms) (colors := colors) hf hr ht hc
  refine ⟨b, h1, ?_⟩
  have hlens : (fields runtime ms s active).map (·.2) = [s.eta, s.rem, if active.isSome then s.act else 0] := by
    unfold fields
    cases active <;> rfl
  dsimp only at h8 ⊢
  rw [hlens] at h8
  intro q hq
  refine h8 q ?_
  rw [List.map_take, List.map_take, hlens]
  generalize (fields runtime ms s active).map (·.1) = ts at *
  generalize fit 0 (min (cw - 9) s.total) [s.eta, s.rem, if active.isSome then s.act else 0] = r at *
  have hsl : ∀ (l : List Nat) (o : Nat), (spots o l).length = l.length := by
    intro l
    induction l with
    | nil => intro o; rfl
    | cons x l ih => intro o; simp [spots, ih]
  rw [zip_take _ _ _ (by rw [hsl, List.length_take]; omega)]
  exact hq

/-- Nothing that happens in a phase changes the room for the fields. -/
theorem c94_steady (s : St) (es : List Ev) : (run s es).total = s.total ∧ (run s es).eta = s.eta ∧ (run s es).rem = s.rem ∧ (run s es).act = s.act :=
  ⟨(run_same es s).1, (run_same es s).2.2.1, (run_same es s).2.2.2.1, (run_same es s).2.2.2.2⟩

/-- At the end of a phase the bar is full. -/
theorem c94_end {jobs : List Int} {es : List Ev} {j : Nat} {active : Option Nat} {runtime : Int → Int → Int → Int} {ms : Int} {cw colors : Nat}
    (h : ∀ m ∈ jobs, 0 ≤ m) (hne : jobs ≠ []) (hp : (es.map Ev.time).Perm jobs) (hl : jobs.length ≤ most) (hb : sumTime jobs ≤ most)
    (ha : ∀ a, active = some a → a ≤ j) (hc : 10 ≤ cw) :
    ∃ b, showProgress runtime ms cw colors (run (start jobs.length (jobs.foldl addTime 0) j) es) active = .bar b ∧
      b.pct = 100 ∧ b.fill = b.cells.length := by
  have hp' : (es.map Ev.time ++ []).Perm jobs := by rw [List.append_nil]; exact hp
  obtain ⟨h1, h2, h3⟩ := c94_known h hp' hl hb ha
  have hlen : es.length = jobs.length := by have := hp.length_eq; rw [List.length_map] at this; exact this
  have hpos : 0 < jobs.length := List.length_pos_iff.2 hne
  have hs := sum_events es []
  rw [sum_perm hp'] at hs
  simp only [sumTime, Int.add_zero] at hs
  have htot := (run_same es (start jobs.length (jobs.foldl addTime 0) j)).1
  have hsum := (run_same es (start jobs.length (jobs.foldl addTime 0) j)).2.1
  have hd := done_nonneg (ev_times hp' h).1
  have hpct : percent (run (start jobs.length (jobs.foldl addTime 0) j) es) = some 100 := by
    rw [h3 hne, hlen]
    congr 1
    split
    · rename_i hlt
      rw [show sumTime jobs - skipTime es = doneTime es by omega] at hlt ⊢
      exact Int.mul_ediv_cancel _ (by omega)
    · exact Int.mul_ediv_cancel _ (by omega)
  obtain ⟨b, e1, e2, _, e4, _, _, e7, _⟩ := c94_bar (runtime := runtime) (ms := ms) (colors := colors) h1 h2 (by
    rw [htot]; show jobs.length ≠ 0; omega) hc
  rw [hpct] at e4
  injection e4 with e4
  refine ⟨b, e1, e4.symm, ?_⟩
  rw [e7, ← e4, e2]
  rw [htot, hsum, hlen]
  show (if jobs.length ≤ cw - 9 then 0 + jobs.length else min (cw - 9) jobs.length * 100 / 100) = min (cw - 9) jobs.length
  split
  · omega
  · omega

/-- When the jobs that are done took more than 21474836 ms, drawing the bar is undefined behaviour. -/
theorem c94_long {runtime : Int → Int → Int → Int} {ms : Int} {cw colors : Nat} {s : St} {active : Option Nat} (ht : s.total ≠ 0)
    (hc : 10 ≤ cw) (h1 : 0 < s.totalTime) (h2 : most < s.jobTime) : showProgress runtime ms cw colors s active = .ub := by
  unfold most at h2
  unfold showProgress
  rw [if_pos ⟨ht, hc⟩]
  have : percent s = none := by
    unfold percent
    rw [if_neg ht, if_pos h1]
    unfold mul100
    rw [if_neg (by omega)]
    rfl
  rw [this]

/-- When the time of one job is not known and a job is skipped that took some time, less than a second is said to be left,
whatever there is. -/
theorem c94_eta {runtime : Int → Int → Int → Int} {ms : Int} {s : St} {active : Option Nat} (h1 : s.totalTime < -1) (h2 : s.jobTime ≠ 0)
    (hm : 0 ≤ ms) (hr : runtime ms s.totalTime s.jobTime ≤ 0) :
    (fields runtime ms s active).head?.map (·.1) = some "ETA=<1s".toList := by
  have : (fields runtime ms s active).head?.map (·.1) = some (timeText (s.totalTime = -1)
      (if (if s.totalTime ≠ -1 then s.jobTime else s.sum) ≠ 0 then
        some (runtime ms (if s.totalTime ≠ -1 then s.totalTime else s.total) (if s.totalTime ≠ -1 then s.jobTime else s.sum) - ms) else none)) := rfl
  have hne : s.totalTime ≠ -1 := by omega
  rw [this]
  simp only [hne, ne_eq, not_false_eq_true, if_true, h2]
  unfold timeText
  dsimp only
  rw [if_pos (show runtime ms s.totalTime s.jobTime - ms < 1000 by omega)]
  simp only [decide_false, Bool.false_eq_true, if_false]
  rfl

/-- The units of the time that is left, in ms. -/
def units : List (Char × Int) := [('s', 1000), ('m', 60000), ('h', 3600000)]

/-- The time that is left is given in the largest unit of which there is at least one, and rounded up to a whole number of them; a time of
less than a second as such, and one of more than 99 hours not at all. -/
theorem c94_time (approx : Bool) (l : Int) :
    (l < 1000 → timeText approx (some l) = "ETA".toList ++ (if approx then "~=".toList else "=".toList) ++ "<1s".toList) ∧
    (356400000 ≤ l → timeText approx (some l) = timeText approx none) ∧
    (1000 ≤ l → l < 356400000 → ∃ c u n, (c, u) ∈ units ∧ u ≤ l ∧ (∀ v ∈ units, v.2 ≤ l → v.2 ≤ u) ∧ (n - 1) * u ≤ l ∧ l < n * u ∧ 1 ≤ n ∧ n ≤ 99 ∧
      timeText approx (some l) = "ETA".toList ++ (if approx then "~=".toList else "=".toList) ++ (num n ++ [c])) := by
  refine ⟨?_, ?_, ?_⟩
  · intro h
    unfold timeText
    dsimp only
    simp only [h, if_true]
  · intro h
    unfold timeText
    dsimp only
    simp only [show ¬ l < 1000 by omega, show ¬ l < 60000 by omega, show ¬ l < 3600000 by omega, show ¬ l < 356400000 by omega, if_false]
  · intro h1 h2
    have e (k : Int) : l.tdiv k = l / k := Int.tdiv_eq_ediv_of_nonneg (by omega)
    have h0 : ¬ l < 1000 := by omega
    by_cases hs : l < 60000
    · refine ⟨'s', 1000, l / 1000 + 1, by decide, h1, ?_, by omega, by omega, by omega, by omega, ?_⟩
      · intro v hv hl
        simp only [units, List.mem_cons, List.not_mem_nil, or_false] at hv
        rcases hv with rfl | rfl | rfl <;> simp at hl ⊢ <;> omega
      · unfold timeText
        dsimp only
        simp only [h0, hs, if_true, if_false, e]; rfl
    · by_cases hm : l < 3600000
      · refine ⟨'m', 60000, l / 60000 + 1, by decide, by omega, ?_, by omega, by omega, by omega, by omega, ?_⟩
        · intro v hv hl
          simp only [units, List.mem_cons, List.not_mem_nil, or_false] at hv
          rcases hv with rfl | rfl | rfl <;> simp at hl ⊢ <;> omega
        · unfold timeText
          dsimp only
          simp only [h0, hs, hm, if_true, if_false, e]; rfl
      · refine ⟨'h', 3600000, l / 3600000 + 1, by decide, by omega, ?_, by omega, by omega, by omega, by omega, ?_⟩
        · intro v hv hl
          simp only [units, List.mem_cons, List.not_mem_nil, or_false] at hv
          rcases hv with rfl | rfl | rfl <;> simp at hl ⊢ <;> omega
        · unfold timeText
          dsimp only
          simp only [h0, hs, hm, h2, if_true, if_false, e]; rfl

/-! ### Cases -/

/-- Two minutes and a second. -/
example : timeText true (some 121000) = "ETA~=3m".toList ∧ timeText false (some 59999) = "ETA=60s".toList ∧ timeText false (some 999) = "ETA=<1s".toList ∧
    timeText false (some 356400000) = "ETA=???".toList := by decide +kernel

/-- The computation in the code, with whole numbers. -/
def exact (ms whole part : Int) : Int := (ms * whole).tdiv part

/-- Two of four jobs, which took 3 and 1 seconds of 10, one of 2 seconds being skipped. -/
example : run (start 4 ([3000, 2000, 1000, 4000].foldl addTime 0) 2) [.done 3000, .skip 2000, .done 1000] =
      ⟨4, 3, 4000, 8000, 7, 11, 8⟩ ∧
    percent ⟨4, 3, 4000, 8000, 7, 11, 8⟩ = some 50 ∧
    showProgress exact 5000 80 0 ⟨4, 3, 4000, 8000, 7, 11, 8⟩ (some 1) = .bar ⟨"... ".toList, 3, 50⟩ := by decide +kernel

/-- A hundred jobs. -/
example : showProgress exact 5000 60 0 ⟨100, 40, 40000, 80000, 7, 13, 8⟩ (some 2) =
      .bar ⟨"..........ETA=6s..Remaining=60  Active=2           ".toList, 25, 50⟩ ∧
    (Bar.line ⟨"..".toList, 1, 50⟩ = " [..]  50%".toList) ∧
    (Bar.line ⟨"..........ETA=6s..Remaining=60  Active=2           ".toList, 25, 50⟩).length = 59 ∧
    Fair ⟨100, 40, 40000, 80000, 7, 13, 8⟩ ∧ Roomy ⟨100, 40, 40000, 80000, 7, 13, 8⟩ (some 2) :=
  ⟨by decide +kernel, by decide +kernel, by decide +kernel, ⟨by decide, by decide, by decide⟩, ⟨by decide, by decide +kernel, fun a h => by
    injection h with h; subst h; decide +kernel⟩⟩

/-- A phase in which the time of one job is not known, and one is skipped: less than a second is said to be left. -/
example : (run (start 100 ([-1, 70000].foldl addTime 0) 1) [.done 600, .skip 70000]).totalTime = -70001 ∧
    (fields exact 600 (run (start 100 ([-1, 70000].foldl addTime 0) 1) [.done 600, .skip 70000]) (some 1)).head?.map (·.1) =
      some "ETA=<1s".toList := by decide +kernel

/-- The clock was set back while a command ran, so that its time is negative: the next bar is written beyond the buffer. -/
theorem c94_clock : showProgress exact 5000 60 0 (run (start 100 ([-9000, 10000, 100].foldl addTime 0) 1) [.done 10000]) (some 1) = .ub ∧
    showProgress exact 5000 60 0 (run (start 100 ([9000, 10000, 100].foldl addTime 0) 1) [.done 10000]) (some 1) ≠ .ub := by decide +kernel

/-- Six hours of work. -/
example : showProgress exact 1 60 0 (run (start 100 ([21600000, 1000].foldl addTime 0) 1) [.done 21600000]) (some 1) = .ub := by
  decide +kernel

end Tup.Progress
