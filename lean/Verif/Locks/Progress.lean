import Verif.Locks.Calm

/-! Somebody can go on, and all is done after a while. -/

namespace Tup.Locks

/-- A process that cannot go on waits for a lock, or for an event, or is not running. -/
theorem go_stuck {s : State} {i : Nat} (h : go s i = none) :
    s.pc i = .idle ∨ s.pc i = .wantSh ∧ s.sh ≠ none ∨ s.pc i = .wantObj ∧ s.obj ≠ none ∨ s.pc i = .wantTri ∧ s.tri ≠ none ∨
    s.pc i = .mWait ∧ s.obj = none ∨ s.pc i = .mGet ∧ s.obj ≠ none ∨ s.pc i = .mOn ∧ s.queue i = [] ∨ s.pc i = .mTri ∧ s.tri ≠ none ∨
    s.pc i = .mOff ∧ s.queue i = [] ∨ s.pc i = .mObj ∧ s.obj ≠ none ∨ s.pc i = .xTri ∧ s.tri ≠ none := by
  unfold go at h
  cases hp : s.pc i <;> simp only [hp] at h <;> (repeat' split at h) <;> first | (cases h; done) | simp_all

theorem stuck_quiet {s : State} (h : Inv s) (hs : ∀ i, go s i = none) : Quiet s := by
  have hst := fun i => go_stuck (hs i)
  have hag : ∀ i, s.pc i ∈ [Pc.mGet, .mPid, .mOn, .mTri, .mRel, .mOff, .mObj, .mUntri] → s.again i = false := by
    intro i hi
    have := h.again i
    cases ha : s.again i with
    | false => rfl
    | true =>
      have := this ha
      simp only [List.mem_cons, List.not_mem_nil, or_false] at hi this
      grind
  -- who has the object lock is a monitor
  have hobj : ∀ k, s.obj = some k → s.pc k = .mOn ∧ s.queue k = [] ∨ s.pc k = .mTri ∧ s.tri ≠ none := by
    intro k hk
    have := (h.own.obj k).1 hk
    rcases hst k with hp | hp | hp | hp | hp | hp | hp | hp | hp | hp | hp <;> grind [ownsObj]
  have hone : ∀ j k, s.pc j ∈ [Pc.mGet, .mOn, .mTri, .mOff, .mObj] → s.pc k ∈ [Pc.mGet, .mOn, .mTri, .mOff, .mObj] → j = k := by
    intro j k hj hk
    refine h.one j k (.inl (.inr ?_)) (.inl (.inr ?_)) <;> grind
  have hobjOne : ∀ m, s.pc m ∈ [Pc.mGet, .mOff, .mObj] → s.obj = none := by
    intro m hm
    cases ho : s.obj with
    | none => rfl
    | some k =>
      have h1 := hobj k ho
      have := hone m k (by grind) (by grind)
      subst this
      grind
  have htri : s.tri = none := by
    cases ht : s.tri with
    | none => rfl
    | some m =>
      have := (h.own.tri m).1 ht
      have hm : s.pc m = .mOff ∧ s.queue m = [] := by
        have := hobjOne m
        rcases hst m with hp | hp | hp | hp | hp | hp | hp | hp | hp | hp | hp <;> grind [ownsTri]
      have hsy := h.sync m (hag m (by rw [hm.1]; simp))
      unfold Sync at hsy
      rw [hm.1, hm.2] at hsy
      have ho := hobjOne m (by rw [hm.1]; simp)
      rcases hsy with ⟨_, i, hi | hi | hi⟩ | ⟨hq, _⟩
      · have := hst i; grind
      · have := hst i; grind
      · have := hst i; grind
      · cases hq
  have hwait : ∀ i, s.pc i ≠ .mWait := by
    intro i hi
    have ho : s.obj = none := by have := hst i; grind
    obtain ⟨m, hm, hp⟩ := h.wait i hi
    have := hst m
    have hoo := (h.own.obj m).2
    simp only [List.mem_cons, List.not_mem_nil, or_false] at hp
    rcases hp with hp | hp | hp
    · grind
    · grind
    · rw [hp, ho] at hoo
      cases hoo rfl
  have hwant : ∀ i, s.pc i ≠ .wantObj := by
    intro i hi
    have ho : s.obj ≠ none := by have := hst i; grind
    obtain ⟨k, hk⟩ := Option.ne_none_iff_exists'.1 ho
    rcases hobj k hk with ⟨h1, h2⟩ | ⟨_, h2⟩
    · have hsy := h.sync k (hag k (by rw [h1]; simp))
      unfold Sync at hsy
      rw [h1, h2] at hsy
      rcases hsy with ⟨_, h3⟩ | ⟨h3, _⟩
      · exact (h3 i).1 hi
      · cases h3
    · exact h2 htri
  have hsh : s.sh = none := by
    cases hsh : s.sh with
    | none => rfl
    | some k =>
      have := (h.own.sh k).1 hsh
      have h1 := hwant k
      have h2 := hwait k
      rcases hst k with hp | hp | hp | hp | hp | hp | hp | hp | hp | hp | hp <;> grind [ownsSh]
  intro i
  have h1 := hwant i
  have h2 := hwait i
  have h3 := hobjOne i
  have h4 := (h.own.tri i).2
  rcases hst i with hp | hp | hp | hp | hp | hp | hp | hp | hp | hp | hp <;> grind [ownsTri]

/-- How many steps a process has left, other than those for the events that it is told. -/
def weight : Pc → Nat
  | .wantSh => 30 | .openObj => 29 | .wantObj => 20 | .using => 12 | .closing => 11 | .wantTri => 4 | .unTri => 2 | .unSh => 1
  | .mSh => 2 | .mWait => 10 | .mGet => 3 | .mPid => 1 | .mOn => 0 | .mTri => 4 | .mRel => 3 | .mOff => 0 | .mObj => 4 | .mUntri => 3
  | .xObj => 20 | .xClose => 19 | .xTri => 3 | .xUntri => 2 | .xSh => 1 | .yObj => 20 | .yClose => 19 | .yTri => 3
  | .idle => 0 | .dead .. => 0

theorem weight_wantSh : weight .wantSh = 30 := rfl
theorem weight_openObj : weight .openObj = 29 := rfl
theorem weight_wantObj : weight .wantObj = 20 := rfl
theorem weight_using : weight .using = 12 := rfl
theorem weight_closing : weight .closing = 11 := rfl
theorem weight_wantTri : weight .wantTri = 4 := rfl
theorem weight_unTri : weight .unTri = 2 := rfl
theorem weight_unSh : weight .unSh = 1 := rfl
theorem weight_mSh : weight .mSh = 2 := rfl
theorem weight_mWait : weight .mWait = 10 := rfl
theorem weight_mGet : weight .mGet = 3 := rfl
theorem weight_mPid : weight .mPid = 1 := rfl
theorem weight_mOn : weight .mOn = 0 := rfl
theorem weight_mTri : weight .mTri = 4 := rfl
theorem weight_mRel : weight .mRel = 3 := rfl
theorem weight_mOff : weight .mOff = 0 := rfl
theorem weight_mObj : weight .mObj = 4 := rfl
theorem weight_mUntri : weight .mUntri = 3 := rfl
theorem weight_xObj : weight .xObj = 20 := rfl
theorem weight_xClose : weight .xClose = 19 := rfl
theorem weight_xTri : weight .xTri = 3 := rfl
theorem weight_xUntri : weight .xUntri = 2 := rfl
theorem weight_xSh : weight .xSh = 1 := rfl
theorem weight_yObj : weight .yObj = 20 := rfl
theorem weight_yClose : weight .yClose = 19 := rfl
theorem weight_yTri : weight .yTri = 3 := rfl
theorem weight_idle : weight .idle = 0 := rfl

def total (f : Nat → Nat) : Nat → Nat
  | 0 => 0
  | n + 1 => total f n + f n

theorem total_congr {f g : Nat → Nat} {n : Nat} (h : ∀ j, j < n → f j = g j) : total f n = total g n := by
  induction n with
  | zero => rfl
  | succ n ih => simp only [total]; rw [ih (fun j hj => h j (by omega)), h n (by omega)]

theorem total_change {f g : Nat → Nat} {i n : Nat} (hi : i < n) (h : ∀ j, j ≠ i → g j = f j) : total g n + f i = total f n + g i := by
  induction n with
  | zero => omega
  | succ n ih =>
    simp only [total]
    by_cases hn : i = n
    · subst hn
      have := total_congr (f := g) (g := f) (n := i) (fun j hj => h j (by omega))
      omega
    · have := ih (by omega)
      have := h n (by omega)
      omega

/-- At most one process is told of an event. -/
theorem total_emit {s : State} (h : Inv s) (e : Ev) (n : Nat) :
    total (fun j => (emit s e j).length) n ≤ total (fun j => (s.queue j).length) n + 1 := by
  have hlen : ∀ j, (emit s e j).length ≤ (s.queue j).length + 1 := by
    intro j
    simp only [emit, push]
    split
    · split
      · omega
      · simp
    · omega
  by_cases hw : ∃ w, w < n ∧ s.watch w = true
  · obtain ⟨w, hwn, hw⟩ := hw
    have := total_change (f := fun j => (s.queue j).length) (g := fun j => (emit s e j).length) hwn (by
      intro j hj
      have : s.watch j ≠ true := by
        intro hj'
        exact hj (h.one j w (.inl ((h.watch j).1 hj')) (.inl ((h.watch w).1 hw)))
      simp [emit, this])
    have := hlen w
    omega
  · have := total_congr (f := fun j => (emit s e j).length) (g := fun j => (s.queue j).length) (n := n) (by
      intro j hj
      have : s.watch j ≠ true := fun hc => hw ⟨j, hj, hc⟩
      simp [emit, this])
    omega

/-- How many steps are left. -/
def left (s : State) (n : Nat) : Nat := total (fun j => weight (s.pc j)) n + 5 * total (fun j => (s.queue j).length) n

theorem left_pc (s : State) {i n : Nat} (hi : i < n) (p : Pc) :
    total (fun j => weight (upd s.pc i p j)) n + weight (s.pc i) = total (fun j => weight (s.pc j)) n + weight p := by
  have := total_change (f := fun j => weight (s.pc j)) (g := fun j => weight (upd s.pc i p j)) hi (by
    intro j hj
    simp [upd, hj])
  simpa [upd] using this

theorem left_queue (s : State) {i n : Nat} (hi : i < n) (q : List Ev) :
    total (fun j => (upd s.queue i q j).length) n + (s.queue i).length = total (fun j => (s.queue j).length) n + q.length := by
  have := total_change (f := fun j => (s.queue j).length) (g := fun j => (upd s.queue i q j).length) hi (by
    intro j hj
    simp [upd, hj])
  simpa [upd] using this

/-- Each step makes the number smaller. -/
theorem go_left {s s' : State} {i n : Nat} (h : Inv s) (hg : go s i = some s') (hi : i < n) : left s' n < left s n := by
  have hal := h.alive i
  have ho := total_emit h .opened n
  have hc := total_emit h .closed n
  have hpc := left_pc s hi
  have hqu := left_queue s hi
  unfold go at hg
  unfold left
  cases hp : s.pc i <;> simp only [hp] at hg
  case dead => exact absurd hp (hal _ _ _)
  all_goals
    (repeat' split at hg) <;> cases hg <;> rw [hp] at hpc <;> dsimp only
  case using.isTrue.refl =>
    have h1 := hpc .mSh
    have h2 := hqu []
    simp only [weight_using, weight_mSh, List.length_nil] at h1 h2
    omega
  any_goals
    rename_i q heq
    first
    | (have h1 := hpc .mTri; have h2 := hqu q; rw [heq] at h2; simp only [weight_mOn, weight_mTri, weight_mOff, weight_mObj, List.length_cons] at h1 h2; omega)
    | (have h1 := hpc .mObj; have h2 := hqu q; rw [heq] at h2; simp only [weight_mOn, weight_mTri, weight_mOff, weight_mObj, List.length_cons] at h1 h2; omega)
    | (have h2 := hqu q; rw [heq] at h2; simp only [List.length_cons] at h2; omega)
  all_goals
    first
    | (have h1 := hpc .openObj; simp only [weight_wantSh, weight_openObj, weight_wantObj, weight_using, weight_closing, weight_wantTri, weight_unTri, weight_unSh, weight_mSh, weight_mWait, weight_mGet, weight_mPid, weight_mOn, weight_mTri, weight_mRel, weight_mOff, weight_mObj, weight_mUntri, weight_xObj, weight_xClose, weight_xTri, weight_xUntri, weight_xSh, weight_yObj, weight_yClose, weight_yTri, weight_idle] at h1; omega)
    | (have h1 := hpc .wantObj; simp only [weight_wantSh, weight_openObj, weight_wantObj, weight_using, weight_closing, weight_wantTri, weight_unTri, weight_unSh, weight_mSh, weight_mWait, weight_mGet, weight_mPid, weight_mOn, weight_mTri, weight_mRel, weight_mOff, weight_mObj, weight_mUntri, weight_xObj, weight_xClose, weight_xTri, weight_xUntri, weight_xSh, weight_yObj, weight_yClose, weight_yTri, weight_idle] at h1; omega)
    | (have h1 := hpc .using; simp only [weight_wantSh, weight_openObj, weight_wantObj, weight_using, weight_closing, weight_wantTri, weight_unTri, weight_unSh, weight_mSh, weight_mWait, weight_mGet, weight_mPid, weight_mOn, weight_mTri, weight_mRel, weight_mOff, weight_mObj, weight_mUntri, weight_xObj, weight_xClose, weight_xTri, weight_xUntri, weight_xSh, weight_yObj, weight_yClose, weight_yTri, weight_idle] at h1; omega)
    | (have h1 := hpc .closing; simp only [weight_wantSh, weight_openObj, weight_wantObj, weight_using, weight_closing, weight_wantTri, weight_unTri, weight_unSh, weight_mSh, weight_mWait, weight_mGet, weight_mPid, weight_mOn, weight_mTri, weight_mRel, weight_mOff, weight_mObj, weight_mUntri, weight_xObj, weight_xClose, weight_xTri, weight_xUntri, weight_xSh, weight_yObj, weight_yClose, weight_yTri, weight_idle] at h1; omega)
    | (have h1 := hpc .wantTri; simp only [weight_wantSh, weight_openObj, weight_wantObj, weight_using, weight_closing, weight_wantTri, weight_unTri, weight_unSh, weight_mSh, weight_mWait, weight_mGet, weight_mPid, weight_mOn, weight_mTri, weight_mRel, weight_mOff, weight_mObj, weight_mUntri, weight_xObj, weight_xClose, weight_xTri, weight_xUntri, weight_xSh, weight_yObj, weight_yClose, weight_yTri, weight_idle] at h1; omega)
    | (have h1 := hpc .unTri; simp only [weight_wantSh, weight_openObj, weight_wantObj, weight_using, weight_closing, weight_wantTri, weight_unTri, weight_unSh, weight_mSh, weight_mWait, weight_mGet, weight_mPid, weight_mOn, weight_mTri, weight_mRel, weight_mOff, weight_mObj, weight_mUntri, weight_xObj, weight_xClose, weight_xTri, weight_xUntri, weight_xSh, weight_yObj, weight_yClose, weight_yTri, weight_idle] at h1; omega)
    | (have h1 := hpc .unSh; simp only [weight_wantSh, weight_openObj, weight_wantObj, weight_using, weight_closing, weight_wantTri, weight_unTri, weight_unSh, weight_mSh, weight_mWait, weight_mGet, weight_mPid, weight_mOn, weight_mTri, weight_mRel, weight_mOff, weight_mObj, weight_mUntri, weight_xObj, weight_xClose, weight_xTri, weight_xUntri, weight_xSh, weight_yObj, weight_yClose, weight_yTri, weight_idle] at h1; omega)
    | (have h1 := hpc .idle; simp only [weight_wantSh, weight_openObj, weight_wantObj, weight_using, weight_closing, weight_wantTri, weight_unTri, weight_unSh, weight_mSh, weight_mWait, weight_mGet, weight_mPid, weight_mOn, weight_mTri, weight_mRel, weight_mOff, weight_mObj, weight_mUntri, weight_xObj, weight_xClose, weight_xTri, weight_xUntri, weight_xSh, weight_yObj, weight_yClose, weight_yTri, weight_idle] at h1; omega)
    | (have h1 := hpc .mPid; simp only [weight_wantSh, weight_openObj, weight_wantObj, weight_using, weight_closing, weight_wantTri, weight_unTri, weight_unSh, weight_mSh, weight_mWait, weight_mGet, weight_mPid, weight_mOn, weight_mTri, weight_mRel, weight_mOff, weight_mObj, weight_mUntri, weight_xObj, weight_xClose, weight_xTri, weight_xUntri, weight_xSh, weight_yObj, weight_yClose, weight_yTri, weight_idle] at h1; omega)
    | (have h1 := hpc .mOn; simp only [weight_wantSh, weight_openObj, weight_wantObj, weight_using, weight_closing, weight_wantTri, weight_unTri, weight_unSh, weight_mSh, weight_mWait, weight_mGet, weight_mPid, weight_mOn, weight_mTri, weight_mRel, weight_mOff, weight_mObj, weight_mUntri, weight_xObj, weight_xClose, weight_xTri, weight_xUntri, weight_xSh, weight_yObj, weight_yClose, weight_yTri, weight_idle] at h1; omega)
    | (have h1 := hpc .mRel; simp only [weight_wantSh, weight_openObj, weight_wantObj, weight_using, weight_closing, weight_wantTri, weight_unTri, weight_unSh, weight_mSh, weight_mWait, weight_mGet, weight_mPid, weight_mOn, weight_mTri, weight_mRel, weight_mOff, weight_mObj, weight_mUntri, weight_xObj, weight_xClose, weight_xTri, weight_xUntri, weight_xSh, weight_yObj, weight_yClose, weight_yTri, weight_idle] at h1; omega)
    | (have h1 := hpc .mOff; simp only [weight_wantSh, weight_openObj, weight_wantObj, weight_using, weight_closing, weight_wantTri, weight_unTri, weight_unSh, weight_mSh, weight_mWait, weight_mGet, weight_mPid, weight_mOn, weight_mTri, weight_mRel, weight_mOff, weight_mObj, weight_mUntri, weight_xObj, weight_xClose, weight_xTri, weight_xUntri, weight_xSh, weight_yObj, weight_yClose, weight_yTri, weight_idle] at h1; omega)
    | (have h1 := hpc .mUntri; simp only [weight_wantSh, weight_openObj, weight_wantObj, weight_using, weight_closing, weight_wantTri, weight_unTri, weight_unSh, weight_mSh, weight_mWait, weight_mGet, weight_mPid, weight_mOn, weight_mTri, weight_mRel, weight_mOff, weight_mObj, weight_mUntri, weight_xObj, weight_xClose, weight_xTri, weight_xUntri, weight_xSh, weight_yObj, weight_yClose, weight_yTri, weight_idle] at h1; omega)
    | (have h1 := hpc .xClose; simp only [weight_wantSh, weight_openObj, weight_wantObj, weight_using, weight_closing, weight_wantTri, weight_unTri, weight_unSh, weight_mSh, weight_mWait, weight_mGet, weight_mPid, weight_mOn, weight_mTri, weight_mRel, weight_mOff, weight_mObj, weight_mUntri, weight_xObj, weight_xClose, weight_xTri, weight_xUntri, weight_xSh, weight_yObj, weight_yClose, weight_yTri, weight_idle] at h1; omega)
    | (have h1 := hpc .xTri; simp only [weight_wantSh, weight_openObj, weight_wantObj, weight_using, weight_closing, weight_wantTri, weight_unTri, weight_unSh, weight_mSh, weight_mWait, weight_mGet, weight_mPid, weight_mOn, weight_mTri, weight_mRel, weight_mOff, weight_mObj, weight_mUntri, weight_xObj, weight_xClose, weight_xTri, weight_xUntri, weight_xSh, weight_yObj, weight_yClose, weight_yTri, weight_idle] at h1; omega)
    | (have h1 := hpc .xUntri; simp only [weight_wantSh, weight_openObj, weight_wantObj, weight_using, weight_closing, weight_wantTri, weight_unTri, weight_unSh, weight_mSh, weight_mWait, weight_mGet, weight_mPid, weight_mOn, weight_mTri, weight_mRel, weight_mOff, weight_mObj, weight_mUntri, weight_xObj, weight_xClose, weight_xTri, weight_xUntri, weight_xSh, weight_yObj, weight_yClose, weight_yTri, weight_idle] at h1; omega)
    | (have h1 := hpc .xSh; simp only [weight_wantSh, weight_openObj, weight_wantObj, weight_using, weight_closing, weight_wantTri, weight_unTri, weight_unSh, weight_mSh, weight_mWait, weight_mGet, weight_mPid, weight_mOn, weight_mTri, weight_mRel, weight_mOff, weight_mObj, weight_mUntri, weight_xObj, weight_xClose, weight_xTri, weight_xUntri, weight_xSh, weight_yObj, weight_yClose, weight_yTri, weight_idle] at h1; omega)
    | (have h1 := hpc .yClose; simp only [weight_wantSh, weight_openObj, weight_wantObj, weight_using, weight_closing, weight_wantTri, weight_unTri, weight_unSh, weight_mSh, weight_mWait, weight_mGet, weight_mPid, weight_mOn, weight_mTri, weight_mRel, weight_mOff, weight_mObj, weight_mUntri, weight_xObj, weight_xClose, weight_xTri, weight_xUntri, weight_xSh, weight_yObj, weight_yClose, weight_yTri, weight_idle] at h1; omega)
    | (have h1 := hpc .yTri; simp only [weight_wantSh, weight_openObj, weight_wantObj, weight_using, weight_closing, weight_wantTri, weight_unTri, weight_unSh, weight_mSh, weight_mWait, weight_mGet, weight_mPid, weight_mOn, weight_mTri, weight_mRel, weight_mOff, weight_mObj, weight_mUntri, weight_xObj, weight_xClose, weight_xTri, weight_xUntri, weight_xSh, weight_yObj, weight_yClose, weight_yTri, weight_idle] at h1; omega)

theorem go_below {s s' : State} {i n : Nat} (hn : ∀ j, n ≤ j → s.pc j = .idle) (hg : go s i = some s') :
    i < n ∧ ∀ j, n ≤ j → s'.pc j = .idle := by
  have hi : i < n := by
    by_cases hi : i < n
    · exact hi
    · have := hn i (by omega)
      simp [go, this] at hg
  refine ⟨hi, fun j hj => ?_⟩
  rw [(go_pc_other hg (by omega : j ≠ i)).1]
  exact hn j hj

theorem runs_left {k : Nat} {s s' : State} (hr : Runs k s s') : Inv s → ∀ {n}, (∀ j, n ≤ j → s.pc j = .idle) → k + left s' n ≤ left s n := by
  induction hr with
  | nil => intro _ n _; omega
  | cons i hg _ ih =>
    intro h n hn
    obtain ⟨hi, hn'⟩ := go_below hn hg
    have h1 := ih (go_inv h hg) hn'
    have h2 := go_left h hg hi
    omega

theorem runs_calm {k : Nat} {s s' : State} (hr : Runs k s s') : CalmReach s → CalmReach s' := by
  induction hr with
  | nil => exact id
  | cons i hg _ ih => exact fun h => ih (h.step (i := i) .go trivial hg)

theorem finish {s : State} : ∀ (b : Nat), Inv s → ∀ {n}, (∀ j, n ≤ j → s.pc j = .idle) → left s n ≤ b → ∃ k s', Runs k s s' ∧ Quiet s' := by
  intro b
  induction b generalizing s with
  | zero =>
    intro h n hn hb
    refine ⟨0, s, .nil, stuck_quiet h fun i => ?_⟩
    cases hg : go s i with
    | none => rfl
    | some s' =>
      have := go_left h hg (go_below hn hg).1
      omega
  | succ b ih =>
    intro h n hn hb
    by_cases hs : ∀ i, go s i = none
    · exact ⟨0, s, .nil, stuck_quiet h hs⟩
    · simp only [Classical.not_forall] at hs
      obtain ⟨i, hi⟩ := hs
      obtain ⟨s', hg⟩ := Option.ne_none_iff_exists'.1 hi
      obtain ⟨hin, hn'⟩ := go_below hn hg
      have := go_left h hg hin
      obtain ⟨k, s'', hr, hq⟩ := ih (go_inv h hg) hn' (by omega)
      exact ⟨k + 1, s'', .cons i hg hr, hq⟩

end Tup.Locks
