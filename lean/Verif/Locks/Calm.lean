import Verif.Locks.Step

/-! The other moves. -/

namespace Tup.Locks

theorem start_inv {s s' : State} {i : Nat} (h : Inv s) (ha : act s i .start = some s') : Inv s' := by
  have hown := act_owners h.own ha
  simp only [act] at ha
  split at ha <;> cases ha
  rename_i hp
  have hag : s.again i = false := by
    have := h.again i
    rw [hp] at this
    simpa using this
  refine ⟨hown, ?_, ?_, ?_, ?_, ?_, h.last, ?_⟩
  · intro j k hj hk
    refine h.one j k ?_ ?_
    · unfold MonitorLeft IsMonitor at hj ⊢
      simp only [upd, List.mem_cons, List.not_mem_nil, or_false] at hj ⊢
      grind
    · unfold MonitorLeft IsMonitor at hk ⊢
      simp only [upd, List.mem_cons, List.not_mem_nil, or_false] at hk ⊢
      grind
  · intro j
    have := h.watch j
    unfold IsMonitor at this ⊢
    simp only [upd, List.mem_cons, List.not_mem_nil, or_false] at this ⊢
    grind
  · intro j hj
    have := h.again j hj
    simp only [upd, List.mem_cons, List.not_mem_nil, or_false] at this ⊢
    grind
  · intro m hm
    have := h.sync m hm
    by_cases him : m = i
    · subst him
      exact sync_trivial (by simp [upd])
    · unfold Sync at this ⊢
      simp only [upd, if_neg him]
      cases hq : s.pc m <;> simp only [hq] at this ⊢ <;> grind
  · intro j hj
    have hji : j ≠ i := by rintro rfl; simp [upd] at hj
    simp only [upd, if_neg hji] at hj
    obtain ⟨m, h1, h2⟩ := h.wait j hj
    refine ⟨m, h1, ?_⟩
    have : m ≠ i := by rintro rfl; rw [hp] at h2; simp at h2
    simp only [upd, if_neg this]
    exact h2
  · intro j o t f
    have := h.alive j o t f
    simp only [upd]
    grind

theorem monitor_inv {s s' : State} {i : Nat} (h : Inv s) (hc : Calm s .monitor) (ha : act s i .monitor = some s') : Inv s' := by
  have hown := act_owners h.own ha
  simp only [act] at ha
  split at ha <;> cases ha
  rename_i hp
  obtain ⟨hp, hag⟩ := hp
  have hnone : ∀ j, j ≠ i → ¬ MonitorLeft { s with watch := upd s.watch i true, queue := upd s.queue i [], pc := upd s.pc i .mSh } j := by
    intro j hji hl
    apply hc j
    unfold MonitorLeft IsMonitor at hl ⊢
    simpa [upd, hji] using hl
  refine ⟨hown, ?_, ?_, ?_, ?_, ?_, h.last, ?_⟩
  · intro j k hj hk
    by_cases h1 : j = i
    · by_cases h2 : k = i
      · rw [h1, h2]
      · exact absurd hk (hnone k h2)
    · exact absurd hj (hnone j h1)
  · intro j
    have := h.watch j
    unfold IsMonitor at this ⊢
    simp only [upd, List.mem_cons, List.not_mem_nil, or_false] at this ⊢
    grind
  · intro j hj
    have := h.again j hj
    simp only [upd, List.mem_cons, List.not_mem_nil, or_false] at this ⊢
    grind
  · intro m hm
    by_cases him : m = i
    · subst him
      unfold Sync
      simp [upd]
    · apply sync_trivial
      intro hin
      exact hnone m him (.inl (.inr hin))
  · intro j hj
    have hji : j ≠ i := by rintro rfl; simp [upd] at hj
    simp only [upd, if_neg hji] at hj
    exact absurd (h.own.shOne (i := j) (j := i) (by rw [hj]; rfl) (by rw [hp]; rfl)) hji
  · intro j o t f
    have := h.alive j o t f
    simp only [upd]
    grind

theorem fork_inv {s s' : State} {i c : Nat} (h : Inv s) (hc : Calm s (.fork c)) (ha : act s i (.fork c) = some s') : Inv s' := by
  have hown := act_owners h.own ha
  simp only [act] at ha
  split at ha <;> cases ha
  rename_i hp
  obtain ⟨hp, hag, hci⟩ := hp
  have hne : c ≠ i := by rintro rfl; rw [hp] at hci; cases hci
  have hagc : s.again c = false := by
    have := h.again c
    rw [hci] at this
    simpa using this
  have hnone : ∀ j, j ≠ c → ¬ MonitorLeft { s with obj := none, watch := upd s.watch c true, queue := upd s.queue c [], pc := upd (upd s.pc i .mWait) c .mGet } j := by
    intro j hji hl
    apply hc j
    unfold MonitorLeft IsMonitor at hl ⊢
    simp only [upd, List.mem_cons, List.not_mem_nil, or_false] at hl ⊢
    grind
  refine ⟨hown, ?_, ?_, ?_, ?_, ?_, ?_, ?_⟩
  · intro j k hj hk
    by_cases h1 : j = c
    · by_cases h2 : k = c
      · rw [h1, h2]
      · exact absurd hk (hnone k h2)
    · exact absurd hj (hnone j h1)
  · intro j
    have := h.watch j
    unfold IsMonitor at this ⊢
    simp only [upd, List.mem_cons, List.not_mem_nil, or_false] at this ⊢
    grind
  · intro j hj
    have := h.again j hj
    simp only [upd, List.mem_cons, List.not_mem_nil, or_false] at this ⊢
    grind
  · intro m hm
    by_cases him : m = c
    · subst him
      unfold Sync
      simp only [upd, if_true]
      exact ⟨trivial, i, by grind⟩
    · apply sync_trivial
      intro hin
      exact hnone m him (.inl (.inr hin))
  · intro j hj
    exact ⟨c, hagc, by simp [upd]⟩
  · intro j hj
    cases hj
  · intro j o t f
    have := h.alive j o t f
    simp only [upd]
    grind

theorem stop_inv {s s' : State} {i : Nat} (h : Inv s) (hc : Calm s .stop) (ha : act s i .stop = some s') : Inv s' := by
  have hown := act_owners h.own ha
  simp only [act] at ha
  have hag := h.again i
  have hon := h.one
  split at ha <;> cases ha
  all_goals
    rename_i hp
    rw [hp] at hag
    simp only [List.mem_cons, List.not_mem_nil, or_false, reduceCtorEq, imp_false, Bool.not_eq_true] at hag
    have hi : MonitorLeft s i := .inl (.inr (by rw [hp]; simp))
    refine ⟨hown, ?_, ?_, ?_, ?_, ?_, h.last, ?_⟩
    · intro j k hj hk
      refine h.one j k ?_ ?_
      · by_cases hji : j = i
        · rw [hji]; exact hi
        · unfold MonitorLeft IsMonitor at hj ⊢
          simpa [upd, hji] using hj
      · by_cases hji : k = i
        · rw [hji]; exact hi
        · unfold MonitorLeft IsMonitor at hk ⊢
          simpa [upd, hji] using hk
    · intro j
      have := h.watch j
      unfold IsMonitor at this ⊢
      simp only [upd, List.mem_cons, List.not_mem_nil, or_false] at this ⊢
      grind
    · intro j hj
      have := h.again j hj
      simp only [upd, List.mem_cons, List.not_mem_nil, or_false] at this ⊢
      grind
    · intro m hm
      by_cases him : m = i
      · subst him
        exact sync_trivial (by simp [upd])
      · apply sync_trivial
        simp only [upd, if_neg him]
        intro hin
        exact him (h.one m i (.inl (.inr hin)) hi)
    · intro j hj
      have hji : j ≠ i := by rintro rfl; simp [upd] at hj
      simp only [upd, if_neg hji] at hj
      exact absurd hj (hc j)
    · intro j o t f
      have := h.alive j o t f
      simp only [upd]
      grind

theorem retry_inv {s s' : State} {i : Nat} (h : Inv s) (hc : Calm s .retry) (ha : act s i .retry = some s') : Inv s' := by
  have hown := act_owners h.own ha
  simp only [act] at ha
  split at ha <;> cases ha
  rename_i hp
  have hi : MonitorLeft s i := .inl (.inr (by rw [hp]; simp))
  refine ⟨hown, ?_, ?_, ?_, ?_, ?_, ?_, ?_⟩
  · intro j k hj hk
    refine h.one j k ?_ ?_
    · by_cases hji : j = i
      · rw [hji]; exact hi
      · unfold MonitorLeft IsMonitor at hj ⊢
        simpa [upd, hji] using hj
    · by_cases hji : k = i
      · rw [hji]; exact hi
      · unfold MonitorLeft IsMonitor at hk ⊢
        simpa [upd, hji] using hk
  · intro j
    have := h.watch j
    unfold IsMonitor at this ⊢
    simp only [upd, List.mem_cons, List.not_mem_nil, or_false] at this ⊢
    grind
  · intro j hj
    have := h.again j
    simp only [upd, List.mem_cons, List.not_mem_nil, or_false] at this hj ⊢
    grind
  · intro m hm
    by_cases him : m = i
    · subst him
      exact sync_trivial (by simp [upd])
    · apply sync_trivial
      simp only [upd, if_neg him]
      intro hin
      exact him (h.one m i (.inl (.inr hin)) hi)
  · intro j hj
    have hji : j ≠ i := by rintro rfl; simp [upd] at hj
    simp only [upd, if_neg hji] at hj
    exact absurd hj (hc j)
  · intro j hj
    cases hj
  · intro j o t f
    have := h.alive j o t f
    simp only [upd]
    grind

theorem calm_inv {s : State} (h : CalmReach s) : Inv s := by
  induction h with
  | init =>
    refine ⟨owners_init, ?_, ?_, ?_, ?_, ?_, ?_, ?_⟩ <;> simp [MonitorLeft, IsMonitor, Sync]
  | step m _ hc ha ih =>
    cases m with
    | start => exact start_inv ih ha
    | go => exact go_inv ih ha
    | monitor => exact monitor_inv ih hc ha
    | fork c => exact fork_inv ih hc ha
    | stop => exact stop_inv ih hc ha
    | retry => exact retry_inv ih hc ha
    | kill => exact hc.elim

/-- From some process on, none has ever run. -/
theorem act_idle {s s' : State} {i : Nat} {m : Move} (ha : act s i m = some s') {n : Nat} (h : ∀ j, n ≤ j → s.pc j = .idle) :
    ∃ n', ∀ j, n' ≤ j → s'.pc j = .idle := by
  have hupd : ∀ (p : Nat → Pc) (k n : Nat) x, (∀ j, n ≤ j → p j = .idle) → ∀ j, n + k + 1 ≤ j → upd p k x j = .idle := by
    intro p k n x hp j hj
    rw [upd_other _ (by omega)]
    exact hp j (by omega)
  cases m with
  | go =>
    simp only [act] at ha
    refine ⟨n + i + 1, ?_⟩
    intro j hj
    have hji : j ≠ i := by omega
    rw [(go_pc_other ha hji).1]
    exact h j (by omega)
  | start => simp only [act] at ha; split at ha <;> cases ha; exact ⟨_, hupd _ _ _ _ h⟩
  | monitor => simp only [act] at ha; split at ha <;> cases ha; exact ⟨_, hupd _ _ _ _ h⟩
  | fork c => simp only [act] at ha; split at ha <;> cases ha; exact ⟨_, hupd _ _ _ _ (hupd _ _ _ _ h)⟩
  | stop => simp only [act] at ha; split at ha <;> cases ha <;> exact ⟨_, hupd _ _ _ _ h⟩
  | retry => simp only [act] at ha; split at ha <;> cases ha; exact ⟨_, hupd _ _ _ _ h⟩
  | kill => simp only [act] at ha; cases ha; exact ⟨_, hupd _ _ _ _ h⟩

theorem calm_idle {s : State} (h : CalmReach s) : ∃ n, ∀ j, n ≤ j → s.pc j = .idle := by
  induction h with
  | init => exact ⟨0, fun _ _ => rfl⟩
  | step m _ _ ha ih =>
    obtain ⟨n, hn⟩ := ih
    exact act_idle ha hn

end Tup.Locks
