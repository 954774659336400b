import Verif.Locks.Spec

/-! Who has the locks, and what a monitor has yet to read. -/

namespace Tup.Locks

def ownsSh : Pc → Bool
  | .openObj | .wantObj | .using | .closing | .wantTri | .unTri | .unSh | .mSh | .mWait => true
  | _ => false

def ownsObj : Pc → Bool
  | .using | .mSh | .mPid | .mOn | .mTri | .mRel | .mUntri | .xObj => true
  | .dead o _ _ => o
  | _ => false

def ownsTri : Pc → Bool
  | .unTri | .mRel | .mOff | .mObj | .mUntri | .xUntri | .yObj | .yClose | .yTri => true
  | .dead _ t _ => t
  | _ => false

/-- The owners of the locks. -/
structure Owners (s : State) : Prop where
  sh : ∀ i, s.sh = some i ↔ ownsSh (s.pc i) = true
  obj : ∀ i, s.obj = some i ↔ ownsObj (s.pc i) = true
  tri : ∀ i, s.tri = some i ↔ ownsTri (s.pc i) = true

theorem upd_same {α : Type} (f : Nat → α) (i : Nat) (x : α) : upd f i x i = x := by simp [upd]

theorem upd_other {α : Type} (f : Nat → α) {i j : Nat} (h : j ≠ i) (x : α) : upd f i x j = f j := by simp [upd, h]

theorem own_step (own : Pc → Bool) {l l' : Option Nat} {pc : Nat → Pc} {i : Nat} {p' : Pc} (h : ∀ j, l = some j ↔ own (pc j) = true)
    (h1 : own p' = true → own (pc i) = false → l = none)
    (h2 : l' = if own p' = true then some i else if own (pc i) = true then none else l) : ∀ j, l' = some j ↔ own (upd pc i p' j) = true := by
  intro j
  have hi := h i
  have hj := h j
  by_cases hij : j = i
  · subst hij
    rw [upd_same]
    grind
  · rw [upd_other _ hij]
    grind

theorem go_owners {s s' : State} {i : Nat} (h : Owners s) (hg : go s i = some s') : Owners s' := by
  unfold go at hg
  cases hp : s.pc i <;> simp only [hp] at hg
  case idle => cases hg
  case mOn =>
    split at hg
    · cases hg
    · cases hg
      exact ⟨own_step ownsSh h.sh (by rw [hp]; simp [ownsSh, ownsObj, ownsTri]) (by rw [hp]; rfl), own_step ownsObj h.obj (by rw [hp]; simp [ownsSh, ownsObj, ownsTri]) (by rw [hp, (h.obj i).2 (by rw [hp]; rfl)]; rfl), own_step ownsTri h.tri (by rw [hp]; simp [ownsSh, ownsObj, ownsTri]) (by rw [hp]; rfl)⟩
    · cases hg
      exact ⟨h.sh, h.obj, h.tri⟩
  case mOff =>
    split at hg
    · cases hg
    · cases hg
      exact ⟨h.sh, h.obj, h.tri⟩
    · cases hg
      exact ⟨own_step ownsSh h.sh (by rw [hp]; simp [ownsSh, ownsObj, ownsTri]) (by rw [hp]; rfl), own_step ownsObj h.obj (by rw [hp]; simp [ownsSh, ownsObj, ownsTri]) (by rw [hp]; rfl), own_step ownsTri h.tri (by rw [hp]; simp [ownsSh, ownsObj, ownsTri]) (by rw [hp, (h.tri i).2 (by rw [hp]; rfl)]; rfl)⟩
  all_goals
    have hs := h.sh i
    have ho := h.obj i
    have ht := h.tri i
    rw [hp] at hs ho ht
    simp only [ownsSh, ownsObj, ownsTri, iff_true, iff_false, Bool.false_eq_true] at hs ho ht
    (repeat' split at hg) <;> cases hg
  all_goals
    refine ⟨own_step ownsSh h.sh ?_ ?_, own_step ownsObj h.obj ?_ ?_, own_step ownsTri h.tri ?_ ?_⟩ <;> rw [hp] <;>
      simp_all [ownsSh, ownsObj, ownsTri]

theorem act_owners {s s' : State} {i : Nat} {m : Move} (h : Owners s) (hg : act s i m = some s') : Owners s' := by
  cases m with
  | go => exact go_owners h hg
  | start =>
    simp only [act] at hg
    split at hg <;> cases hg
    rename_i hp
    refine ⟨own_step ownsSh h.sh ?_ ?_, own_step ownsObj h.obj ?_ ?_, own_step ownsTri h.tri ?_ ?_⟩ <;> rw [hp] <;> simp [ownsSh, ownsObj, ownsTri]
  | monitor =>
    simp only [act] at hg
    split at hg <;> cases hg
    rename_i hp
    have hp := hp.1
    have hs := (h.sh i).2 (by rw [hp]; rfl)
    have ho := (h.obj i).2 (by rw [hp]; rfl)
    refine ⟨own_step ownsSh h.sh ?_ ?_, own_step ownsObj h.obj ?_ ?_, own_step ownsTri h.tri ?_ ?_⟩ <;> rw [hp] <;> simp_all [ownsSh, ownsObj, ownsTri]
  | fork j =>
    simp only [act] at hg
    split at hg <;> cases hg
    rename_i hp
    obtain ⟨hp, _, hj⟩ := hp
    have hs := (h.sh i).2 (by rw [hp]; rfl)
    have ho := (h.obj i).2 (by rw [hp]; rfl)
    have hij : j ≠ i := by rintro rfl; rw [hp] at hj; cases hj
    have hji : upd s.pc i .mWait j = .idle := by rw [upd_other _ hij, hj]
    refine ⟨own_step ownsSh (l := s.sh) (own_step ownsSh h.sh ?_ ?_) ?_ ?_, own_step ownsObj (l := none) (own_step ownsObj h.obj ?_ ?_) ?_ ?_,
      own_step ownsTri (l := s.tri) (own_step ownsTri h.tri ?_ ?_) ?_ ?_⟩ <;>
      (try rw [hji]) <;> (try rw [hp]) <;> simp_all [ownsSh, ownsObj, ownsTri]
  | stop =>
    simp only [act] at hg
    have hs := h.sh i
    have ho := h.obj i
    have ht := h.tri i
    split at hg <;> cases hg
    all_goals
      rename_i hp
      rw [hp] at hs ho ht
      simp only [ownsSh, ownsObj, ownsTri, iff_true, iff_false, Bool.false_eq_true] at hs ho ht
      refine ⟨own_step ownsSh h.sh ?_ ?_, own_step ownsObj h.obj ?_ ?_, own_step ownsTri h.tri ?_ ?_⟩ <;> rw [hp] <;> simp_all [ownsSh, ownsObj, ownsTri]
  | retry =>
    simp only [act] at hg
    split at hg <;> cases hg
    rename_i hp
    refine ⟨own_step ownsSh h.sh ?_ ?_, own_step ownsObj h.obj ?_ ?_, own_step ownsTri h.tri ?_ ?_⟩ <;> rw [hp] <;> simp [ownsSh, ownsObj, ownsTri]
  | kill =>
    simp only [act] at hg
    cases hg
    have hs := h.sh i
    have ho := h.obj i
    have ht := h.tri i
    have e1 : ∀ o t f, ownsSh (.dead o t f) = false := fun _ _ _ => rfl
    have e2 : ∀ o t f, ownsObj (.dead o t f) = o := fun _ _ _ => rfl
    have e3 : ∀ o t f, ownsTri (.dead o t f) = t := fun _ _ _ => rfl
    refine ⟨own_step ownsSh h.sh ?_ ?_, own_step ownsObj h.obj ?_ ?_, own_step ownsTri h.tri ?_ ?_⟩ <;> simp only [e1, e2, e3, decide_eq_true_eq] <;> grind

theorem owners_init : Owners {} := ⟨by simp [ownsSh], by simp [ownsObj], by simp [ownsTri]⟩

theorem reach_owners {s : State} (h : Reach s) : Owners s := by
  induction h with
  | init => exact owners_init
  | step m _ ha ih => exact act_owners ih ha

theorem calm_owners {s : State} (h : CalmReach s) : Owners s := by
  induction h with
  | init => exact owners_init
  | step m _ _ ha ih => exact act_owners ih ha

/-- What a monitor has yet to read, depending on where the process that has the shared lock is. -/
def Sync (s : State) (m : Nat) : Prop :=
  match s.pc m with
  | .mSh => s.queue m = []
  | .mGet => s.queue m = [] ∧ ∃ i, s.pc i = .mWait
  | .mPid | .mOn => s.queue m = [] ∧ (∀ i, s.pc i ≠ .wantObj ∧ s.pc i ≠ .closing) ∨ s.queue m = [.opened] ∧ ∃ i, s.pc i = .wantObj
  | .mTri | .mRel => s.queue m = [] ∧ ∃ i, s.pc i = .wantObj
  | .mOff => s.queue m = [] ∧ (∃ i, s.pc i = .using ∨ s.pc i = .closing ∨ s.pc i = .wantObj ∧ s.hist.head? = some m) ∨
      s.queue m = [.closed] ∧ ∃ i, s.pc i = .wantTri
  | .mObj | .mUntri => s.queue m = [] ∧ ∃ i, s.pc i = .wantTri
  | _ => True

structure Inv (s : State) : Prop where
  own : Owners s
  one : ∀ i j, MonitorLeft s i → MonitorLeft s j → i = j
  watch : ∀ i, s.watch i = true ↔ IsMonitor s i
  again : ∀ i, s.again i = true → s.pc i ∈ [Pc.wantSh, .openObj, .wantObj, .using]
  sync : ∀ m, s.again m = false → Sync s m
  wait : ∀ i, s.pc i = .mWait → ∃ m, s.again m = false ∧ s.pc m ∈ [Pc.mGet, .mPid, .mOn]
  last : ∀ i, s.obj = some i → s.hist.head? = some i
  alive : ∀ i o t f, s.pc i ≠ .dead o t f

/-- Two processes that have the shared lock are the same one. -/
theorem Owners.shOne {s : State} (h : Owners s) {i j : Nat} (hi : ownsSh (s.pc i) = true) (hj : ownsSh (s.pc j) = true) : i = j := by
  have h1 := (h.sh i).2 hi
  have h2 := (h.sh j).2 hj
  rw [h1] at h2
  cases h2
  rfl

theorem Owners.objOne {s : State} (h : Owners s) {i j : Nat} (hi : ownsObj (s.pc i) = true) (hj : ownsObj (s.pc j) = true) : i = j := by
  have h1 := (h.obj i).2 hi
  have h2 := (h.obj j).2 hj
  rw [h1] at h2
  cases h2
  rfl

theorem Owners.triOne {s : State} (h : Owners s) {i j : Nat} (hi : ownsTri (s.pc i) = true) (hj : ownsTri (s.pc j) = true) : i = j := by
  have h1 := (h.tri i).2 hi
  have h2 := (h.tri j).2 hj
  rw [h1] at h2
  cases h2
  rfl

end Tup.Locks
