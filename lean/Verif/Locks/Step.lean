import Verif.Locks.Inv

namespace Tup.Locks

theorem go_one {s s' : State} {i : Nat} (hg : go s i = some s') (j : Nat) : MonitorLeft s' j → MonitorLeft s j := by
  unfold go at hg
  unfold MonitorLeft IsMonitor
  cases hp : s.pc i <;> simp only [hp] at hg <;> (repeat' split at hg) <;> cases hg <;> simp only [upd, List.mem_cons, List.not_mem_nil, or_false] <;> grind

theorem go_watch {s s' : State} {i : Nat} (h : Inv s) (hg : go s i = some s') (j : Nat) : s'.watch j = true ↔ IsMonitor s' j := by
  have hw := h.watch j
  unfold go at hg
  unfold IsMonitor at *
  cases hp : s.pc i <;> simp only [hp] at hg <;> (repeat' split at hg) <;> cases hg <;> simp only [upd, List.mem_cons, List.not_mem_nil, or_false] at * <;> grind

theorem go_again {s s' : State} {i : Nat} (h : Inv s) (hg : go s i = some s') (j : Nat) : s'.again j = true → s'.pc j ∈ [Pc.wantSh, .openObj, .wantObj, .using] := by
  have hw := h.again j
  unfold go at hg
  cases hp : s.pc i <;> simp only [hp] at hg <;> (repeat' split at hg) <;> cases hg <;> simp only [upd, List.mem_cons, List.not_mem_nil, or_false] at * <;> grind

theorem go_last {s s' : State} {i : Nat} (h : Inv s) (hg : go s i = some s') (j : Nat) : s'.obj = some j → s'.hist.head? = some j := by
  have hw := h.last j
  unfold go at hg
  cases hp : s.pc i <;> simp only [hp] at hg <;> (repeat' split at hg) <;> cases hg <;> grind

theorem go_alive {s s' : State} {i : Nat} (h : Inv s) (hg : go s i = some s') (j : Nat) (o t f : Bool) : s'.pc j ≠ .dead o t f := by
  have hw := h.alive j o t f
  unfold go at hg
  cases hp : s.pc i <;> simp only [hp] at hg <;> (repeat' split at hg) <;> cases hg <;> simp only [upd] at * <;> grind

theorem go_sync_self {s s' : State} {i : Nat} (h : Inv s) (hg : go s i = some s') (ha : s'.again i = false) : Sync s' i := by
  have hm := h.sync i
  have ho := fun j k => h.own.shOne (i := j) (j := k)
  have hob := h.own.obj i
  have hag := h.again i
  have hal := h.alive i
  have hl := h.last i
  unfold go at hg
  cases hp : s.pc i <;> simp only [hp] at hg
  all_goals
    rw [hp] at hag hob
    unfold Sync at hm
    rw [hp] at hm
    simp only [List.mem_cons, List.not_mem_nil, reduceCtorEq, or_self, imp_false, Bool.not_eq_true] at hag hm
  case mSh =>
    cases hg
    unfold Sync
    simp only [upd_same]
    refine .inl ⟨hm hag, fun j => ?_⟩
    by_cases hj : j = i
    · subst hj; rw [upd_same]; constructor <;> intro hc <;> cases hc
    · rw [upd_other _ hj]
      constructor <;> intro hc <;> exact hj (ho j i (by rw [hc]; rfl) (by rw [hp]; rfl))
  case mGet =>
    split at hg <;> cases hg
    obtain ⟨hq, k, hk⟩ := hm hag
    unfold Sync
    simp only [upd_same]
    refine .inl ⟨hq, fun j => ?_⟩
    by_cases hj : j = i
    · subst hj; rw [upd_same]; constructor <;> intro hc <;> cases hc
    · rw [upd_other _ hj]
      constructor
      · intro hc
        have := ho j k (by rw [hc]; rfl) (by rw [hk]; rfl)
        rw [this, hk] at hc; cases hc
      · intro hc
        have := ho j k (by rw [hc]; rfl) (by rw [hk]; rfl)
        rw [this, hk] at hc; cases hc
  case mUntri =>
    cases hg
    obtain ⟨hq, k, hk⟩ := hm hag
    unfold Sync
    simp only [upd_same]
    refine .inl ⟨hq, fun j => ?_⟩
    by_cases hj : j = i
    · subst hj; rw [upd_same]; constructor <;> intro hc <;> cases hc
    · rw [upd_other _ hj]
      constructor
      · intro hc
        have := ho j k (by rw [hc]; rfl) (by rw [hk]; rfl)
        rw [this, hk] at hc; cases hc
      · intro hc
        have := ho j k (by rw [hc]; rfl) (by rw [hk]; rfl)
        rw [this, hk] at hc; cases hc
  all_goals
    (repeat' split at hg) <;> cases hg <;> unfold Sync <;> simp only [upd_same] <;> try trivial
  all_goals
    first
    | (have hx := hm hag; simp only [upd, ownsObj] at *; grind)
    | (simp only [upd] at *; grind)

theorem go_pc_other {s s' : State} {i m : Nat} (hg : go s i = some s') (him : m ≠ i) : s'.pc m = s.pc m ∧ s'.again m = s.again m := by
  unfold go at hg
  cases hp : s.pc i <;> simp only [hp] at hg <;> (repeat' split at hg) <;> cases hg <;> simp only [upd] <;> grind

theorem sync_trivial {s : State} {m : Nat} (h : s.pc m ∉ [Pc.mSh, .mGet, .mPid, .mOn, .mTri, .mRel, .mOff, .mObj, .mUntri]) : Sync s m := by
  unfold Sync
  split <;> simp_all

theorem push_nil (e : Ev) : push [] e = [e] := rfl

/-- While a parent waits for its child, the object lock is free. -/
theorem get_free {s : State} (h : Inv s) {m i : Nat} (h1 : s.pc m = .mGet) (h2 : s.pc i = .mWait) : s.obj = none := by
  cases ho : s.obj with
  | none => rfl
  | some k =>
    have hk := (h.own.obj k).1 ho
    have hsh : ownsSh (s.pc k) = true → False := by
      intro hs
      have := h.own.shOne (i := k) (j := i) hs (by rw [h2]; rfl)
      rw [this, h2] at hk
      cases hk
    have hmon : MonitorLeft s k → False := by
      intro hl
      have := h.one k m hl (.inl (.inr (by rw [h1]; simp)))
      rw [this, h1] at hk
      cases hk
    have hal := h.alive k
    unfold MonitorLeft IsMonitor at hmon
    cases hp : s.pc k <;> rw [hp] at hk hsh hmon <;> simp_all [ownsObj, ownsSh]

theorem go_sync_other {s s' : State} {i : Nat} (h : Inv s) (hg : go s i = some s') (m : Nat) (him : m ≠ i) (ha : s'.again m = false) : Sync s' m := by
  obtain ⟨hpm, ham⟩ := go_pc_other hg him
  rw [ham] at ha
  by_cases hmon : s.pc m ∈ [Pc.mSh, .mGet, .mPid, .mOn, .mTri, .mRel, .mOff, .mObj, .mUntri]
  case neg => exact sync_trivial (by rw [hpm]; exact hmon)
  have hm := h.sync m ha
  have ho : ∀ j, (s.pc j = .wantObj ∨ s.pc j = .using ∨ s.pc j = .closing ∨ s.pc j = .wantTri ∨ s.pc j = .mWait ∨ s.pc j = .mSh) → ownsSh (s.pc i) = true → i = j := by
    intro j hj hi
    refine h.own.shOne hi ?_
    rcases hj with hj | hj | hj | hj | hj | hj <;> rw [hj] <;> rfl
  have hob := h.own.objOne (i := i) (j := m)
  have hfree : s.obj = none → ownsObj (s.pc m) = false := by
    intro hn
    have := h.own.obj m
    rw [hn] at this
    simpa using this
  have hfreeT : s.tri = none → ownsTri (s.pc m) = false := by
    intro hn
    have := h.own.tri m
    rw [hn] at this
    simpa using this
  have hget : s.pc m = .mGet → s.pc i = .mWait → s.obj = none := fun h1 h2 => get_free h h1 h2
  have hon : ¬ MonitorLeft s i := fun hi => him (h.one m i (.inl (.inr hmon)) hi)
  have hw : s.watch m = true := (h.watch m).2 (.inr hmon)
  have hal := h.alive i
  have hwait := h.wait i
  have hme := h.own.sh m
  unfold MonitorLeft IsMonitor at hon
  simp only [not_or, Bool.not_eq_true] at hon
  obtain ⟨⟨hag, hon1⟩, hon2⟩ := hon
  unfold go at hg
  unfold Sync at hm ⊢
  rw [hpm]
  clear ha ham
  cases hp : s.pc i <;> simp only [hp] at hg <;> rw [hp] at hon1 hon2 <;> simp only [List.mem_cons, List.not_mem_nil, reduceCtorEq, or_false, or_true, not_true_eq_false, or_self, not_false_eq_true] at hon1 hon2
  all_goals
    rw [hp] at ho hob
    simp only [ownsSh, ownsObj, forall_const, Bool.false_eq_true, false_implies, implies_true] at ho hob
    simp only [List.mem_cons, List.not_mem_nil, or_false] at hmon
    rcases hmon with hq | hq | hq | hq | hq | hq | hq | hq | hq <;> simp only [hq, ownsObj, ownsTri] at hm hob hfree hfreeT hget ⊢ <;> (repeat' split at hg) <;> cases hg <;>
      simp only [emit, hw, if_true, upd] <;> grind [push_nil]

theorem go_wait {s s' : State} {i : Nat} (h : Inv s) (hg : go s i = some s') (j : Nat) (hj : s'.pc j = .mWait) :
    ∃ m, s'.again m = false ∧ s'.pc m ∈ [Pc.mGet, .mPid, .mOn] := by
  have hji : j ≠ i := by
    rintro rfl
    unfold go at hg
    cases hp : s.pc j <;> simp only [hp] at hg <;> (repeat' split at hg) <;> cases hg <;> simp only [upd] at hj <;> grind
  obtain ⟨e1, e2⟩ := go_pc_other hg hji
  rw [e1] at hj
  obtain ⟨m, h1, h2⟩ := h.wait j hj
  by_cases hmi : m = i
  · subst hmi
    refine ⟨m, ?_⟩
    have hs := h.sync m h1
    have hsh := fun k => h.own.shOne (i := j) (j := k)
    unfold Sync at hs
    unfold go at hg
    simp only [List.mem_cons, List.not_mem_nil, or_false] at h2
    rcases h2 with hp | hp | hp <;> simp only [hp] at hg hs
    · split at hg <;> cases hg
      simp [upd, h1]
    · cases hg
      simp [upd, h1]
    · rcases hs with ⟨hq, _⟩ | ⟨hq, k, hk⟩
      · rw [hq] at hg; cases hg
      · have := hsh k (by rw [hj]; rfl) (by rw [hk]; rfl)
        rw [this, hk] at hj
        cases hj
  · obtain ⟨e3, e4⟩ := go_pc_other hg hmi
    exact ⟨m, by rw [e4]; exact h1, by rw [e3]; exact h2⟩

theorem go_inv {s s' : State} {i : Nat} (h : Inv s) (hg : go s i = some s') : Inv s' where
  own := go_owners h.own hg
  one := fun j k hj hk => h.one j k (go_one hg j hj) (go_one hg k hk)
  watch := go_watch h hg
  again := go_again h hg
  sync := fun m ha => by
    by_cases hm : m = i
    · subst hm; exact go_sync_self h hg ha
    · exact go_sync_other h hg m hm ha
  wait := go_wait h hg
  last := go_last h hg
  alive := go_alive h hg

end Tup.Locks
