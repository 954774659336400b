import Verif.AutoUpdate.Spec

namespace Tup.AutoUpdate

variable {mod : Nat → Bool} {s s' : State} {a : Act}

theorem upd_same {α : Type} (f : Nat → α) (i : Nat) (x : α) : upd f i x i = x := if_pos rfl

theorem upd_other {α : Type} (f : Nat → α) {i j : Nat} (x : α) (h : j ≠ i) : upd f i x j = f j := if_neg h

/-- What starting an update changes. -/
theorem startAuto_stage (q : Nat) : (startAuto s).stage q = if q = s.next then .wantSh else s.stage q := rfl

theorem flushQueue_cases (mod : Nat → Bool) (b : Bool) (s : State) :
    (∃ h, flushQueue mod b s = { s with trace := s.trace ++ s.queue.map .recorded, handled := h, queue := [] } ∧ (b = true → h = false) ∧
      h = (s.handled || s.queue.any mod)) ∨
    (b = true ∧ (s.handled || s.queue.any mod) = true ∧
      flushQueue mod b s = startAuto { s with trace := s.trace ++ s.queue.map .recorded, handled := false, queue := [] }) := by
  unfold flushQueue
  dsimp only
  by_cases h : ((s.handled || s.queue.any mod) && b) = true
  · rw [if_pos h]
    rw [Bool.and_eq_true] at h
    exact .inr ⟨h.2, h.1, rfl⟩
  · rw [if_neg h]
    refine .inl ⟨_, rfl, fun hb => ?_, rfl⟩
    rw [hb, Bool.and_true] at h
    exact Bool.eq_false_iff.2 h

/-- No event of the object lock is waiting. -/
def Files (k : List KEv) : Prop := ∀ e ∈ k, e ≠ .opened ∧ e ≠ .closed

def On (s : State) : Prop := s.locked = true ∧ Files s.kernel
def Off (s : State) : Prop := s.locked = false ∧ Files s.kernel
def OnOpened (s : State) : Prop := s.locked = true ∧ ∃ a b, s.kernel = a ++ .opened :: b ∧ Files a ∧ Files b
def OffClosed (s : State) : Prop := s.locked = false ∧ ∃ a b, s.kernel = a ++ .closed :: b ∧ Files a ∧ Files b

/-- How the locks and the events of the object lock go together. -/
structure Locks (s : State) : Prop where
  fresh : ∀ p, s.stage p ≠ .gone → p < s.next
  holds : ∀ p, (s.stage p ≠ .gone ∧ s.stage p ≠ .wantSh) ↔ s.sh = some p
  user : ∀ p, s.stage p = .using ↔ s.user = some p
  free : s.sh = none → On s
  open_ : ∀ p, s.stage p = .openObj ∨ s.stage p = .unSh → On s
  want : ∀ p, s.stage p = .wantObj → OnOpened s ∨ Off s
  use : ∀ p, s.stage p = .using ∨ s.stage p = .closing → Off s
  tri : ∀ p, s.stage p = .wantTri → OffClosed s ∨ On s

theorem Locks.auto (h : Locks s) : Locks (startAuto s) := by
  have hg : s.stage s.next = .gone := by
    rcases Decidable.em (s.stage s.next = .gone) with h1 | h1
    · exact h1
    · exact absurd (h.fresh _ h1) (Nat.lt_irrefl _)
  have key : ∀ q st, st ≠ .wantSh → ((startAuto s).stage q = st ↔ s.stage q = st ∧ q ≠ s.next) := by
    intro q st hne
    rw [startAuto_stage]
    split
    · rename_i e; subst e
      simp [hne.symm]
    · rename_i e; simp [e]
  refine ⟨?_, ?_, ?_, h.free, ?_, ?_, ?_, ?_⟩
  · intro p hp
    rw [startAuto_stage] at hp
    show p < s.next + 1
    split at hp
    · omega
    · have := h.fresh p hp; omega
  · intro p
    rw [startAuto_stage]
    show _ ↔ s.sh = some p
    rw [← h.holds]
    split
    · rename_i e; subst e; simp [hg]
    · rfl
  · intro p
    show _ ↔ s.user = some p
    rw [key p .using (by decide), ← h.user]
    refine ⟨fun x => x.1, fun x => ⟨x, fun e => ?_⟩⟩
    rw [e, hg] at x; cases x
  · intro p hp
    refine h.open_ p ?_
    rw [key p .openObj (by decide), key p .unSh (by decide)] at hp
    exact hp.imp (·.1) (·.1)
  · intro p hp
    exact h.want p ((key _ _ (by decide)).1 hp).1
  · intro p hp
    refine h.use p ?_
    rw [key p .using (by decide), key p .closing (by decide)] at hp
    exact hp.imp (·.1) (·.1)
  · intro p hp
    exact h.tri p ((key _ _ (by decide)).1 hp).1

/-- Fields that the locks do not depend on. -/
theorem Locks.congr {t : State} (h : Locks s) (h1 : t.stage = s.stage) (h2 : t.next = s.next) (h3 : t.sh = s.sh) (h4 : t.user = s.user)
    (h5 : t.locked = s.locked) (h6 : t.kernel = s.kernel) : Locks t := by
  obtain ⟨a, b, c, d, e, f, g, i⟩ := h
  unfold On at *
  unfold OnOpened at *
  unfold OffClosed at *
  unfold Off at *
  exact ⟨by rw [h1, h2]; exact a, by rw [h1, h3]; exact b, by rw [h1, h4]; exact c, by unfold On; rw [h3, h5, h6]; exact d,
    by unfold On; rw [h1, h5, h6]; exact e, by unfold OnOpened Off; rw [h1, h5, h6]; exact f, by unfold Off; rw [h1, h5, h6]; exact g,
    by unfold OffClosed On; rw [h1, h5, h6]; exact i⟩

theorem Locks.flush (h : Locks s) (b : Bool) : Locks (flushQueue mod b s) := by
  rcases flushQueue_cases mod b s with ⟨_, e, _, _⟩ | ⟨_, _, e⟩ <;> rw [e]
  · exact h.congr rfl rfl rfl rfl rfl rfl
  · exact Locks.auto (h.congr rfl rfl rfl rfl rfl rfl)

theorem files_append {k : List KEv} {c : Nat} (h : Files k) : Files (k ++ [.file c]) := by
  intro e he
  rcases List.mem_append.1 he with x | x
  · exact h e x
  · rw [List.mem_singleton.1 x]; exact ⟨by simp, by simp⟩

theorem files_nil : Files [] := fun _ h => by cases h

/-- A state with the same locks, and events that are in the same phase. -/
theorem Locks.events {t : State} (h : Locks s) (h1 : t.stage = s.stage) (h2 : t.next = s.next) (h3 : t.sh = s.sh) (h4 : t.user = s.user)
    (hon : On s → On t) (hoff : Off s → Off t) (ho : OnOpened s → OnOpened t ∨ Off t) (hc : OffClosed s → OffClosed t ∨ On t) : Locks t := by
  obtain ⟨a, b, c, d, e, f, g, i⟩ := h
  exact ⟨by rw [h1, h2]; exact a, by rw [h1, h3]; exact b, by rw [h1, h4]; exact c, fun x => hon (d (h3 ▸ x)),
    fun p x => hon (e p (by rw [← h1]; exact x)), fun p x => (f p (by rw [← h1]; exact x)).elim ho (fun y => .inr (hoff y)),
    fun p x => hoff (g p (by rw [← h1]; exact x)), fun p x => (i p (by rw [← h1]; exact x)).elim hc (fun y => .inr (hon y))⟩

theorem locks_read (h : Locks s) (hs : read mod s = some s') : Locks s' := by
  unfold read at hs
  split at hs
  · cases hs
  · rename_i c k hk
    cases hs
    have hf : ∀ {l : List KEv}, Files (.file c :: l) → Files l := fun x e he => x e (List.mem_cons_of_mem _ he)
    have hsplit : ∀ {e : KEv} {a b : List KEv}, e ≠ .file c → s.kernel = a ++ e :: b → ∃ a', a = .file c :: a' ∧ k = a' ++ e :: b := by
      intro e a b hne he
      rw [hk] at he
      cases a with
      | nil => rw [List.nil_append] at he; injection he with h1 h2; exact absurd h1.symm hne
      | cons x a => rw [List.cons_append] at he; injection he with h1 h2; exact ⟨a, by rw [h1], h2⟩
    refine h.events rfl rfl rfl rfl (fun x => ⟨x.1, hf (hk ▸ x.2)⟩) (fun x => ⟨x.1, hf (hk ▸ x.2)⟩) (fun x => .inl ⟨x.1, ?_⟩) (fun x => .inl ⟨x.1, ?_⟩)
    all_goals
      obtain ⟨_, a, b, he, ha, hb⟩ := x
      obtain ⟨a', e1, e2⟩ := hsplit (by simp) he
      exact ⟨a', b, e2, hf (e1 ▸ ha), hb⟩
  · rename_i k hk
    have hno : ¬ Files s.kernel := fun x => (x .opened (by rw [hk]; exact List.mem_cons_self)).1 rfl
    have hop : OnOpened s → Files k := by
      rintro ⟨_, a, b, he, ha, hb⟩
      rw [hk] at he
      cases a with
      | nil => injection he with _ e; exact e ▸ hb
      | cons x a => injection he with e _; exact absurd e.symm (ha x List.mem_cons_self).1
    have hcl : ¬ OffClosed s := by
      rintro ⟨_, a, b, he, ha, hb⟩
      rw [hk] at he
      cases a with
      | nil => injection he with e _; cases e
      | cons x a => injection he with e _; exact absurd e.symm (ha x List.mem_cons_self).1
    split at hs
    · cases hs
      have key : Locks { s with kernel := k, locked := false } :=
        h.events rfl rfl rfl rfl (fun x => absurd x.2 hno) (fun x => absurd x.2 hno) (fun x => .inr ⟨rfl, hop x⟩) (fun x => absurd x hcl)
      rcases flushQueue_cases mod (decide (s.pid = none)) { s with kernel := k } with ⟨_, e, _, _⟩ | ⟨_, _, e⟩ <;> rw [e]
      · exact key.congr rfl rfl rfl rfl rfl rfl
      · exact (key.auto).congr rfl rfl rfl rfl rfl rfl
    · rename_i hl
      cases hs
      exact h.events rfl rfl rfl rfl (fun x => absurd x.2 hno) (fun x => absurd x.2 hno) (fun x => absurd x.1 hl) (fun x => absurd x hcl)
  · rename_i k hk
    have hno : ¬ Files s.kernel := fun x => (x .closed (by rw [hk]; exact List.mem_cons_self)).2 rfl
    have hcl : OffClosed s → Files k := by
      rintro ⟨_, a, b, he, ha, hb⟩
      rw [hk] at he
      cases a with
      | nil => injection he with _ e; exact e ▸ hb
      | cons x a => injection he with e _; exact absurd e.symm (ha x List.mem_cons_self).2
    have hop : ¬ OnOpened s := by
      rintro ⟨_, a, b, he, ha, hb⟩
      rw [hk] at he
      cases a with
      | nil => injection he with e _; cases e
      | cons x a => injection he with e _; exact absurd e.symm (ha x List.mem_cons_self).2
    split at hs
    · rename_i hl
      cases hs
      exact h.events rfl rfl rfl rfl (fun x => absurd x.2 hno) (fun x => absurd x.2 hno) (fun x => absurd x hop)
        (fun x => absurd (x.1.symm.trans hl) (by decide))
    · split at hs
      · cases hs
        exact h.events rfl rfl rfl rfl (fun x => absurd x.2 hno) (fun x => absurd x.2 hno) (fun x => absurd x hop) (fun x => .inr ⟨rfl, hcl x⟩)
      · cases hs

/-- One process goes from one stage to another. -/
theorem Locks.move {t : State} (h : Locks s) {p : Nat} {x : Stage} (hp : s.sh = some p ∨ s.sh = none ∧ s.stage p = .wantSh) (h1 : t.stage = upd s.stage p x)
    (h2 : t.next = s.next)
    (hx : x = .gone ∨ x = .wantSh → t.sh = none ∧ On t) (hx' : x ≠ .gone → x ≠ .wantSh → t.sh = some p)
    (hu : x = .using → t.user = some p) (hu' : x ≠ .using → t.user = none)
    (ho : x = .openObj ∨ x = .unSh → On t) (hw : x = .wantObj → OnOpened t ∨ Off t) (hus : x = .using ∨ x = .closing → Off t)
    (ht : x = .wantTri → OffClosed t ∨ On t) : Locks t := by
  have hlt : p < s.next := by
    refine h.fresh p fun e => ?_
    rcases hp with hp | hp
    · exact ((h.holds p).2 hp).1 e
    · rw [e] at hp; cases hp.2
  have hoth : ∀ q, q ≠ p → s.stage q = .gone ∨ s.stage q = .wantSh := by
    intro q hq
    rcases Decidable.em (s.stage q = .gone) with a | a
    · exact .inl a
    rcases Decidable.em (s.stage q = .wantSh) with b | b
    · exact .inr b
    have := (h.holds q).1 ⟨a, b⟩
    rcases hp with hp | hp
    · rw [hp] at this; exact absurd (Option.some.inj this).symm hq
    · rw [hp.1] at this; cases this
  have hst : ∀ q, t.stage q = if q = p then x else s.stage q := fun q => by rw [h1]; rfl
  have only : ∀ q y, y ≠ .gone → y ≠ .wantSh → t.stage q = y → q = p ∧ x = y := by
    intro q y a b e
    rw [hst] at e
    split at e
    · exact ⟨by assumption, e⟩
    · rcases hoth q (by assumption) with c | c
      · exact absurd (e.symm.trans c) a
      · exact absurd (e.symm.trans c) b
  have hfree : t.sh = none → On t := by
    intro e
    rcases Decidable.em (x = .gone) with a | a
    · exact (hx (.inl a)).2
    rcases Decidable.em (x = .wantSh) with b | b
    · exact (hx (.inr b)).2
    rw [hx' a b] at e; cases e
  refine ⟨?_, ?_, ?_, hfree, ?_, ?_, ?_, ?_⟩
  · intro q hq
    rw [hst] at hq
    rw [h2]
    split at hq
    · rename_i e; rw [e]; exact hlt
    · exact h.fresh q hq
  · intro q
    rw [hst]
    split
    · rename_i e
      subst e
      refine ⟨fun y => hx' y.1 y.2, fun y => ⟨fun z => ?_, fun z => ?_⟩⟩
      · rw [(hx (.inl z)).1] at y; cases y
      · rw [(hx (.inr z)).1] at y; cases y
    · rename_i e
      refine ⟨fun y => ?_, fun y => ?_⟩
      · rcases hoth q e with z | z
        · exact absurd z y.1
        · exact absurd z y.2
      · exfalso
        rcases Decidable.em (x = .gone) with a | a
        · rw [(hx (.inl a)).1] at y; cases y
        rcases Decidable.em (x = .wantSh) with b | b
        · rw [(hx (.inr b)).1] at y; cases y
        rw [hx' a b] at y; exact e (Option.some.inj y).symm
  · intro q
    constructor
    · intro y
      obtain ⟨e1, e2⟩ := only q .using (by decide) (by decide) y
      rw [e1]; exact hu e2
    · intro y
      rw [hst]
      rcases Decidable.em (x = .using) with a | a
      · rw [hu a] at y
        rw [if_pos (Option.some.inj y).symm, a]
      · rw [hu' a] at y; cases y
  · rintro q (y | y)
    · exact ho (.inl (only q _ (by decide) (by decide) y).2)
    · exact ho (.inr (only q _ (by decide) (by decide) y).2)
  · intro q y
    exact hw (only q _ (by decide) (by decide) y).2
  · rintro q (y | y)
    · exact hus (.inl (only q _ (by decide) (by decide) y).2)
    · exact hus (.inr (only q _ (by decide) (by decide) y).2)
  · intro q y
    exact ht (only q _ (by decide) (by decide) y).2

theorem Locks.sh_of (h : Locks s) {p : Nat} {x : Stage} (e : s.stage p = x) (h1 : x ≠ .gone) (h2 : x ≠ .wantSh) : s.sh = some p :=
  (h.holds p).1 ⟨e ▸ h1, e ▸ h2⟩

theorem Locks.user_of (h : Locks s) {p : Nat} (e : s.sh = some p) (h1 : s.stage p ≠ .using) : s.user = none := by
  cases hu : s.user with
  | none => rfl
  | some q =>
    have hq := (h.user q).2 hu
    have := h.sh_of hq (by decide) (by decide)
    rw [e] at this
    rw [Option.some.inj this] at h1
    exact absurd hq h1

theorem locks_go (h : Locks s) {p : Nat} (hs : go s p = some s') : Locks s' := by
  unfold go at hs
  split at hs
  · rename_i e
    split at hs
    · rename_i hsh
      cases hs
      have hu : s.user = none := by
        cases hu : s.user with
        | none => rfl
        | some q =>
          have := h.sh_of ((h.user q).2 hu) (by decide) (by decide)
          rw [hsh] at this; cases this
      exact h.move (p := p) (x := .openObj) (.inr ⟨hsh, e⟩) rfl rfl (by simp) (fun _ _ => rfl) (by simp) (fun _ => hu) (fun _ => h.free hsh) (by simp) (by simp) (by simp)
    · cases hs
  · rename_i e
    cases hs
    have hsh := h.sh_of e (by decide) (by decide)
    have hon := h.open_ p (.inl e)
    exact h.move (p := p) (x := .wantObj) (.inl hsh) rfl rfl (by simp) (fun _ _ => hsh) (by simp) (fun _ => h.user_of hsh (by rw [e]; decide)) (by simp)
      (fun _ => .inl ⟨hon.1, _, [], rfl, hon.2, files_nil⟩) (by simp) (by simp)
  · rename_i e
    split at hs
    · rename_i hl
      cases hs
      have hsh := h.sh_of e (by decide) (by decide)
      have hoff : Off s := (h.want p e).elim (fun x => absurd (x.1.symm.trans hl.1) (by decide)) id
      exact h.move (p := p) (x := .using) (.inl hsh) rfl rfl (by simp) (fun _ _ => hsh) (fun _ => rfl) (by simp) (by simp) (by simp) (fun _ => hoff) (by simp)
    · cases hs
  · rename_i e
    have hsh := h.sh_of e (by decide) (by decide)
    have hoff := h.use p (.inl e)
    have key : ∀ t : State, t.stage = upd s.stage p .closing → t.next = s.next → t.sh = s.sh → t.user = none → t.locked = s.locked →
        t.kernel = s.kernel → Locks t := by
      intro t h1 h2 h3 h4 h5 h6
      exact h.move (p := p) (x := .closing) (.inl hsh) h1 h2 (by simp) (fun _ _ => h3.trans hsh) (by simp) (fun _ => h4) (by simp) (by simp)
        (fun _ => ⟨h5.trans hoff.1, by rw [h6]; exact hoff.2⟩) (by simp)
    split at hs
    · cases hs; exact key _ rfl rfl rfl rfl rfl rfl
    · split at hs
      · cases hs; exact key _ rfl rfl rfl rfl rfl rfl
      · cases hs; exact key _ rfl rfl rfl rfl rfl rfl
    · cases hs; exact key _ rfl rfl rfl rfl rfl rfl
  · rename_i e
    cases hs
    have hsh := h.sh_of e (by decide) (by decide)
    have hoff := h.use p (.inr e)
    exact h.move (p := p) (x := .wantTri) (.inl hsh) rfl rfl (by simp) (fun _ _ => hsh) (by simp) (fun _ => h.user_of hsh (by rw [e]; decide)) (by simp)
      (by simp) (by simp) (fun _ => .inl ⟨hoff.1, _, [], rfl, hoff.2, files_nil⟩)
  · rename_i e
    split at hs
    · rename_i hl
      cases hs
      have hsh := h.sh_of e (by decide) (by decide)
      have hon : On s := (h.tri p e).elim (fun x => absurd (x.1.symm.trans hl) (by decide)) id
      exact h.move (p := p) (x := .unSh) (.inl hsh) rfl rfl (by simp) (fun _ _ => hsh) (by simp) (fun _ => h.user_of hsh (by rw [e]; decide)) (fun _ => hon)
        (by simp) (by simp) (by simp)
    · cases hs
  · rename_i e
    cases hs
    have hsh := h.sh_of e (by decide) (by decide)
    have hon := h.open_ p (.inr e)
    have hu := h.user_of hsh (by rw [e]; decide)
    cases ha : s.again p with
    | true =>
      exact h.move (p := p) (x := .wantSh) (.inl hsh) (by simp) rfl (fun _ => ⟨rfl, hon⟩) (by simp) (by simp) (fun _ => hu) (by simp) (by simp) (by simp) (by simp)
    | false =>
      exact h.move (p := p) (x := .gone) (.inl hsh) (by simp) rfl (fun _ => ⟨rfl, hon⟩) (by simp) (by simp) (fun _ => hu) (by simp) (by simp) (by simp) (by simp)
  · cases hs

theorem locks_step (h : Locks s) (hs : step mod s a = some s') : Locks s' := by
  cases a with
  | change =>
    cases hs
    refine h.events rfl rfl rfl rfl (fun x => ⟨x.1, files_append x.2⟩) (fun x => ⟨x.1, files_append x.2⟩) (fun x => .inl ⟨x.1, ?_⟩) (fun x => .inl ⟨x.1, ?_⟩)
    all_goals
      obtain ⟨_, a, b, he, ha, hb⟩ := x
      refine ⟨a, b ++ [.file s.changes], ?_, ha, files_append hb⟩
      show s.kernel ++ _ = _
      rw [he, List.append_assoc, List.cons_append]
  | read => exact locks_read h hs
  | timeout =>
    simp only [step] at hs
    split at hs
    · cases hs; exact h.flush true
    · cases hs
  | launch f =>
    cases hs
    exact (h.auto).congr rfl rfl rfl rfl rfl rfl
  | go p => exact locks_go h hs
  | fail p =>
    simp only [step] at hs
    split at hs
    · rename_i e
      cases hs
      have hst : ∀ q, (upd s.stage p .gone) q = if q = p then .gone else s.stage q := fun q => rfl
      have hne : ∀ q y, y ≠ .gone → (upd s.stage p .gone) q = y → s.stage q = y := by
        intro q y hy he
        rw [hst] at he
        split at he
        · exact absurd he.symm hy
        · exact he
      refine ⟨?_, ?_, ?_, h.free, ?_, ?_, ?_, ?_⟩
      · intro q hq
        refine h.fresh q fun x => hq ?_
        show (upd s.stage p .gone) q = _
        rw [hst, x]; split <;> rfl
      · intro q
        show _ ↔ s.sh = some q
        rw [← h.holds]
        show ((upd s.stage p .gone) q ≠ _ ∧ (upd s.stage p .gone) q ≠ _) ↔ _
        rw [hst]
        split
        · rename_i x; subst x; simp [e.2]
        · rfl
      · intro q
        show (upd s.stage p .gone) q = _ ↔ s.user = some q
        rw [← h.user, hst]
        split
        · rename_i x; subst x; simp [e.2]
        · rfl
      · rintro q (x | x)
        · exact h.open_ q (.inl (hne _ _ (by decide) x))
        · exact h.open_ q (.inr (hne _ _ (by decide) x))
      · intro q x; exact h.want q (hne _ _ (by decide) x)
      · rintro q (x | x)
        · exact h.use q (.inl (hne _ _ (by decide) x))
        · exact h.use q (.inr (hne _ _ (by decide) x))
      · intro q x; exact h.tri q (hne _ _ (by decide) x)
    · cases hs
  | take =>
    simp only [step] at hs
    split at hs
    · cases hs; exact h.congr rfl rfl rfl rfl rfl rfl
    · cases hs
  | reap =>
    simp only [step] at hs
    split at hs
    · split at hs
      · cases hs; exact h.congr rfl rfl rfl rfl rfl rfl
      · cases hs
    · cases hs

theorem locks_init (mod : Nat → Bool) (n : Nat) : Locks (init mod n) := by
  have : Locks { changes := n, trace := (List.range n).map .changed ++ (List.range n).map .recorded } := by
    refine ⟨fun p x => absurd rfl x, fun p => ⟨fun x => absurd rfl x.1, by simp⟩, fun p => ⟨by simp, by simp⟩, fun _ => ⟨rfl, files_nil⟩, ?_, ?_, ?_, ?_⟩ <;> simp
  unfold init
  dsimp only
  split
  · exact this.auto
  · exact this

end Tup.AutoUpdate
