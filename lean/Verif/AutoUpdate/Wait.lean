import Verif.AutoUpdate.Data

namespace Tup.AutoUpdate

variable {mod : Nat → Bool} {s s' : State} {a : Act}

/-- An update whose pid is in the database has not got to the end. -/
def Early (s : State) : Prop :=
  ∀ p, s.pid = some p → s.kind p = .auto ∧ (s.stage p = .wantSh ∨ s.stage p = .openObj ∨ s.stage p = .wantObj ∨ s.stage p = .using)

theorem Early.auto (s : State) : Early (startAuto s) := by
  intro p hp
  cases hp
  exact ⟨upd_same _ _ _, .inl (upd_same _ _ _)⟩

theorem Early.congr {t : State} (h : Early s) (h1 : t.pid = s.pid) (h2 : t.kind = s.kind) (h3 : t.stage = s.stage) : Early t := by
  unfold Early
  rw [h1, h2, h3]; exact h

theorem Early.flush (h : Early s) (b : Bool) : Early (flushQueue mod b s) := by
  rcases flushQueue_cases mod b s with ⟨_, e, _, _⟩ | ⟨_, _, e⟩ <;> rw [e]
  · exact h.congr rfl rfl rfl
  · exact Early.auto _

theorem early_step (h : Early s) (hL : Locks s) (ha : ∀ p, a ≠ .fail p) (hs : step mod s a = some s') : Early s' := by
  cases a with
  | change => cases hs; exact h
  | read =>
    simp only [step, read] at hs
    split at hs
    · cases hs
    · cases hs; exact h
    · split at hs
      · rename_i k _ _
        cases hs
        have h0 : Early { s with kernel := k } := h
        exact (h0.flush (decide (s.pid = none))).congr rfl rfl rfl
      · cases hs; exact h
    · split at hs
      · cases hs; exact h
      · split at hs
        · cases hs; exact h
        · cases hs
  | timeout =>
    simp only [step] at hs
    split at hs
    · cases hs; exact h.flush true
    · cases hs
  | launch f =>
    cases hs
    intro p hp
    obtain ⟨h1, h2⟩ := h p hp
    have hlt : p < s.next := hL.fresh p (by rcases h2 with x | x | x | x <;> rw [x] <;> decide)
    have hne : p ≠ s.next := Nat.ne_of_lt hlt
    exact ⟨(upd_other s.kind _ hne).trans h1, by
      show upd s.stage s.next _ p = _ ∨ upd s.stage s.next _ p = _ ∨ upd s.stage s.next _ p = _ ∨ upd s.stage s.next _ p = _
      rw [upd_other s.stage _ hne]; exact h2⟩
  | go q =>
    have key : ∀ {x : Stage} {t : State}, t.pid = s.pid → t.kind = s.kind → t.stage = upd s.stage q x →
        ((s.stage q = .wantSh ∨ s.stage q = .openObj ∨ s.stage q = .wantObj ∨ s.stage q = .using) → s.kind q = .auto →
          (x = .wantSh ∨ x = .openObj ∨ x = .wantObj ∨ x = .using)) → Early t := by
      intro x t e1 e2 e3 hx p hp
      rw [e1] at hp
      obtain ⟨h1, h2⟩ := h p hp
      rw [e2, e3]
      refine ⟨h1, ?_⟩
      unfold upd
      split
      · rename_i e; subst e; exact hx h2 h1
      · exact h2
    simp only [step, go] at hs
    split at hs
    · split at hs
      · cases hs; exact key rfl rfl rfl (fun _ _ => .inr (.inl rfl))
      · cases hs
    · cases hs; exact key rfl rfl rfl (fun _ _ => .inr (.inr (.inl rfl)))
    · split at hs
      · cases hs; exact key rfl rfl rfl (fun _ _ => .inr (.inr (.inr rfl)))
      · cases hs
    · split at hs
      · cases hs; intro p hp; cases hp
      · rename_i hk
        split at hs
        · cases hs; exact key rfl rfl rfl (fun _ x => by rw [hk] at x; cases x)
        · cases hs; exact key rfl rfl rfl (fun _ x => by rw [hk] at x; cases x)
      · rename_i hk
        cases hs; exact key rfl rfl rfl (fun _ x => by rw [hk] at x; cases x)
    · rename_i e
      cases hs; exact key rfl rfl rfl (fun x _ => by rw [e] at x; simp at x)
    · rename_i e
      split at hs
      · cases hs; exact key rfl rfl rfl (fun x _ => by rw [e] at x; simp at x)
      · cases hs
    · rename_i e
      cases hs; exact key rfl rfl rfl (fun x _ => by rw [e] at x; simp at x)
    · cases hs
  | fail p => exact absurd rfl (ha p)
  | take =>
    simp only [step] at hs
    split at hs
    · cases hs; exact h
    · cases hs
  | reap =>
    simp only [step] at hs
    split at hs
    · split at hs
      · cases hs; exact h
      · cases hs
    · cases hs

theorem early_run : ∀ {l : List Act} {s s' : State}, Locks s → Early s → NoFail l → run mod s l = some s' → Early s'
  | [], s, s', _, h, _, hs => by cases hs; exact h
  | a :: l, s, s', hL, h, hn, hs => by
    simp only [run] at hs
    split at hs
    · rename_i t ht
      exact early_run (locks_step hL ht) (early_step h hL (fun p e => hn p (by rw [e]; exact List.mem_cons_self)) ht)
        (fun p x => hn p (List.mem_cons_of_mem _ x)) hs
    · cases hs

theorem early_init (mod : Nat → Bool) (n : Nat) : Early (init mod n) := by
  unfold init
  dsimp only
  split
  · exact Early.auto _
  · intro p hp; cases hp

structure Starts (mod : Nat → Bool) (s : State) : Prop where
  due : s.handled = true → Due mod s.trace
  all : ∀ x p y, s.trace = x ++ Ev.started p :: y → Due mod x

theorem due_append {t l : List Ev} (h : Due mod t) (hl : ∀ q, Ev.started q ∉ l) : Due mod (t ++ l) := by
  obtain ⟨c, x, y, e, hc, hy⟩ := h
  refine ⟨c, x, y ++ l, by rw [e, List.append_assoc, List.cons_append], hc, fun q hq => ?_⟩
  rcases List.mem_append.1 hq with z | z
  · exact hy q z
  · exact hl q z

theorem started_append {t l x y : List Ev} {p : Nat} (h : t ++ l = x ++ Ev.started p :: y) (hl : ∀ q, Ev.started q ∉ l) :
    ∃ y', t = x ++ Ev.started p :: y' := by
  rcases List.append_eq_append_iff.1 h with ⟨a, e1, e2⟩ | ⟨a, e1, e2⟩
  · exact absurd (by rw [e2]; simp) (hl p)
  · cases a with
    | nil =>
      rw [List.nil_append] at e2
      exact absurd (by rw [← e2]; simp) (hl p)
    | cons b a =>
      rw [List.cons_append] at e2
      injection e2 with e2 e3
      exact ⟨a, by rw [e1, ← e2]⟩

theorem Starts.more {t : State} (h : Starts mod s) {l : List Ev} (ht : t.trace = s.trace ++ l) (hl : ∀ q, Ev.started q ∉ l)
    (hh : t.handled = true → s.handled = true) : Starts mod t := by
  refine ⟨fun x => ?_, fun x p y e => ?_⟩
  · rw [ht]; exact due_append (h.due (hh x)) hl
  · rw [ht] at e
    obtain ⟨y', e'⟩ := started_append e hl
    exact h.all x p y' e'

theorem starts_auto (h : Starts mod s) (hd : Due mod s.trace) (hh : s.handled = false) : Starts mod (startAuto s) := by
  refine ⟨fun x => absurd (hh.symm.trans x) (by decide), fun x p y e => ?_⟩
  have e' : s.trace ++ [Ev.started s.next] = x ++ Ev.started p :: y := e
  rcases List.append_eq_append_iff.1 e' with ⟨a, e1, e2⟩ | ⟨a, e1, e2⟩
  · cases a with
    | nil => rw [List.append_nil] at e1; rw [e1]; exact hd
    | cons b a =>
      rw [List.cons_append] at e2
      injection e2 with _ e2
      exact absurd e2 (by simp)
  · cases a with
    | nil => rw [List.append_nil] at e1; rw [← e1]; exact hd
    | cons b a =>
      rw [List.cons_append] at e2
      injection e2 with e2 e3
      exact h.all x p a (by rw [e1, ← e2])

theorem due_recorded {t : List Ev} {l : List Nat} (h : l.any mod = true) : Due mod (t ++ l.map Ev.recorded) := by
  obtain ⟨c, hc, hm⟩ := List.any_eq_true.1 h
  obtain ⟨u, v, e⟩ := List.append_of_mem hc
  refine ⟨c, t ++ u.map Ev.recorded, v.map Ev.recorded, ?_, hm, fun q hq => ?_⟩
  · rw [e, List.map_append, List.map_cons, List.append_assoc]
  · obtain ⟨_, _, e⟩ := List.mem_map.1 hq; cases e

theorem not_started_recorded (l : List Nat) (q : Nat) : Ev.started q ∉ l.map Ev.recorded := fun hq => by
  obtain ⟨_, _, e⟩ := List.mem_map.1 hq; cases e

theorem Starts.flush (h : Starts mod s) (b : Bool) : Starts mod (flushQueue mod b s) := by
  have hd : (s.handled || s.queue.any mod) = true → Due mod (s.trace ++ s.queue.map .recorded) := by
    intro x
    rcases Bool.or_eq_true_iff.1 x with y | y
    · exact due_append (h.due y) (not_started_recorded _)
    · exact due_recorded y
  rcases flushQueue_cases mod b s with ⟨_, e, _, hh⟩ | ⟨_, hh, e⟩ <;> rw [e]
  · refine ⟨fun x => hd (hh ▸ x), fun x p y e => ?_⟩
    obtain ⟨y', e'⟩ := started_append e (not_started_recorded _)
    exact h.all x p y' e'
  · refine starts_auto ?_ (hd hh) rfl
    exact h.more rfl (not_started_recorded _) (fun x => by cases x)

theorem starts_step (h : Starts mod s) (hs : step mod s a = some s') : Starts mod s' := by
  cases a with
  | change => cases hs; exact h.more rfl (by simp) id
  | read =>
    simp only [step, read] at hs
    split at hs
    · cases hs
    · cases hs; exact h.more (l := []) (by simp) (by simp) id
    · split at hs
      · rename_i k _ _
        cases hs
        have h0 : Starts mod { s with kernel := k } := h.more (l := []) (by simp) (by simp) id
        exact (h0.flush (decide (s.pid = none))).more (l := []) (by simp) (by simp) id
      · cases hs; exact h.more (l := []) (by simp) (by simp) id
    · split at hs
      · cases hs; exact h.more (l := []) (by simp) (by simp) id
      · split at hs
        · cases hs; exact h.more (l := []) (by simp) (by simp) id
        · cases hs
  | timeout =>
    simp only [step] at hs
    split at hs
    · cases hs; exact h.flush true
    · cases hs
  | launch f =>
    cases hs
    cases f
    · exact h.more (l := []) (by simp) (by simp) id
    · exact h.more (l := [.asked s.next]) (by simp) (by simp) id
  | go q =>
    simp only [step, go] at hs
    split at hs
    · split at hs
      · cases hs; exact h.more (l := []) (by simp) (by simp) id
      · cases hs
    · cases hs; exact h.more (l := []) (by simp) (by simp) id
    · split at hs
      · cases hs
        by_cases hk : s.kind q = .auto
        · exact h.more (l := [.begun q]) (by simp [hk]) (by simp) id
        · exact h.more (l := []) (by simp [hk]) (by simp) id
      · cases hs
    · split at hs
      · cases hs; exact h.more (l := [.ended q]) rfl (by simp) id
      · split at hs
        · cases hs; exact h.more (l := [.answered q]) rfl (by simp) id
        · cases hs; exact h.more (l := []) (by simp) (by simp) id
      · cases hs; exact h.more (l := []) (by simp) (by simp) id
    · cases hs; exact h.more (l := []) (by simp) (by simp) id
    · split at hs
      · cases hs; exact h.more (l := []) (by simp) (by simp) id
      · cases hs
    · cases hs; exact h.more (l := []) (by simp) (by simp) id
    · cases hs
  | fail p =>
    simp only [step] at hs
    split at hs
    · cases hs; exact h.more (l := []) (by simp) (by simp) id
    · cases hs
  | take =>
    simp only [step] at hs
    split at hs
    · cases hs; exact h.more (l := []) (by simp) (by simp) id
    · cases hs
  | reap =>
    simp only [step] at hs
    split at hs
    · split at hs
      · rename_i p _ _
        cases hs; exact h.more (l := [.reaped p]) rfl (by simp) id
      · cases hs
    · cases hs

theorem starts_init (mod : Nat → Bool) (n : Nat) : Starts mod (init mod n) := by
  have hno : ∀ x p y, (List.range n).map Ev.changed ++ (List.range n).map Ev.recorded = x ++ Ev.started p :: y → False := by
    intro x p y e
    have : Ev.started p ∈ (List.range n).map Ev.changed ++ (List.range n).map Ev.recorded := by rw [e]; simp
    simp at this
  have base : Starts mod { changes := n, trace := (List.range n).map .changed ++ (List.range n).map .recorded } :=
    ⟨fun x => absurd x (by simp), fun x p y e => (hno x p y e).elim⟩
  unfold init
  dsimp only
  split
  · rename_i h
    exact starts_auto base (due_recorded h) rfl
  · exact base

theorem starts_run : ∀ {l : List Act} {s s' : State}, Starts mod s → run mod s l = some s' → Starts mod s'
  | [], s, s', h, hs => by cases hs; exact h
  | a :: l, s, s', h, hs => by
    simp only [run] at hs
    split at hs
    · rename_i t ht
      exact starts_run (starts_step h ht) hs
    · cases hs

/-- The updates that have been started and the thread that waits for them. -/
structure Waits (s : State) : Prop where
  lt : ∀ p, Ev.started p ∈ s.trace → p < s.next
  slot : ∀ p, s.slot = some p → Ev.started p ∈ s.trace ∧ Ev.reaped p ∉ s.trace ∧ s.waiting ≠ some p
  waits : ∀ p, s.waiting = some p → Ev.started p ∈ s.trace ∧ Ev.reaped p ∉ s.trace
  reaped : ∀ p, Ev.reaped p ∈ s.trace → Ev.started p ∈ s.trace ∧ s.stage p = .gone
  once : ∀ p, s.trace.count (.reaped p) ≤ 1
  last : ∀ p, Ev.started p ∈ s.trace → Ev.reaped p ∈ s.trace ∨ s.slot = some p ∨ s.waiting = some p ∨
    ∃ q, InOrder s.trace [.started p, .started q]

theorem Waits.more {t : State} (h : Waits s) {l : List Ev} (ht : t.trace = s.trace ++ l) (hl : ∀ q, Ev.started q ∉ l ∧ Ev.reaped q ∉ l)
    (h1 : s.next ≤ t.next) (h2 : t.slot = s.slot) (h3 : t.waiting = s.waiting)
    (h4 : ∀ p, Ev.started p ∈ s.trace → s.stage p = .gone → t.stage p = .gone) : Waits t := by
  have hst : ∀ p, Ev.started p ∈ t.trace ↔ Ev.started p ∈ s.trace := fun p => by
    rw [ht, List.mem_append]; exact ⟨fun x => x.elim id fun y => absurd y (hl p).1, .inl⟩
  have hre : ∀ p, Ev.reaped p ∈ t.trace ↔ Ev.reaped p ∈ s.trace := fun p => by
    rw [ht, List.mem_append]; exact ⟨fun x => x.elim id fun y => absurd y (hl p).2, .inl⟩
  refine ⟨?_, ?_, ?_, ?_, ?_, ?_⟩
  · intro p x; exact Nat.lt_of_lt_of_le (h.lt p ((hst p).1 x)) h1
  · intro p x; rw [hst, hre, h3]; exact h.slot p (h2 ▸ x)
  · intro p x; rw [hst, hre]; exact h.waits p (h3 ▸ x)
  · intro p x
    rw [hst]
    have := h.reaped p ((hre p).1 x)
    exact ⟨this.1, h4 p this.1 this.2⟩
  · intro p
    rw [ht, List.count_append, List.count_eq_zero_of_not_mem (hl p).2]
    exact h.once p
  · intro p x
    rw [hre, h2, h3, ht]
    rcases h.last p ((hst p).1 x) with y | y | y | ⟨q, y⟩
    · exact .inl y
    · exact .inr (.inl y)
    · exact .inr (.inr (.inl y))
    · exact .inr (.inr (.inr ⟨q, y.more l⟩))

theorem Waits.auto (h : Waits s) : Waits (startAuto s) := by
  have hst : ∀ p, Ev.started p ∈ (startAuto s).trace ↔ Ev.started p ∈ s.trace ∨ p = s.next := fun p => by
    show Ev.started p ∈ s.trace ++ [Ev.started s.next] ↔ _
    simp
  have hre : ∀ p, Ev.reaped p ∈ (startAuto s).trace ↔ Ev.reaped p ∈ s.trace := fun p => by
    show Ev.reaped p ∈ s.trace ++ [Ev.started s.next] ↔ _
    simp
  have hnew : ∀ p, Ev.started p ∈ s.trace → p ≠ s.next := fun p x => Nat.ne_of_lt (h.lt p x)
  refine ⟨?_, ?_, ?_, ?_, ?_, ?_⟩
  · intro p x
    show p < s.next + 1
    rcases (hst p).1 x with y | y
    · have := h.lt p y; omega
    · omega
  · intro p x
    cases x
    rw [hst, hre]
    exact ⟨.inr rfl, fun x => hnew _ (h.reaped _ x).1 rfl, fun x => hnew _ (h.waits _ x).1 rfl⟩
  · intro p x
    rw [hst, hre]
    have := h.waits p x
    exact ⟨.inl this.1, this.2⟩
  · intro p x
    rw [hst]
    have := h.reaped p ((hre p).1 x)
    exact ⟨.inl this.1, (upd_other s.stage _ (hnew p this.1)).trans this.2⟩
  · intro p
    show (s.trace ++ [Ev.started s.next]).count _ ≤ 1
    rw [List.count_append]
    have : [Ev.started s.next].count (Ev.reaped p) = 0 := List.count_eq_zero_of_not_mem (by simp)
    rw [this]
    exact h.once p
  · intro p x
    rw [hre]
    rcases (hst p).1 x with y | y
    · refine .inr (.inr (.inr ⟨s.next, ?_⟩))
      exact InOrder.snoc (l := [.started p]) (List.singleton_sublist.2 y) (by simp)
    · exact .inr (.inl (by rw [y]; rfl))

theorem Waits.flush (h : Waits s) (b : Bool) : Waits (flushQueue mod b s) := by
  have hq : ∀ q, Ev.started q ∉ s.queue.map Ev.recorded ∧ Ev.reaped q ∉ s.queue.map Ev.recorded := fun q => by simp
  rcases flushQueue_cases mod b s with ⟨_, e, _, _⟩ | ⟨_, _, e⟩ <;> rw [e]
  · exact h.more rfl hq (Nat.le_refl _) rfl rfl (fun _ _ x => x)
  · exact Waits.auto (h.more rfl hq (Nat.le_refl _) rfl rfl (fun _ _ x => x))

theorem waits_step (h : Waits s) (hs : step mod s a = some s') : Waits s' := by
  have none_ : ∀ q : Nat, Ev.started q ∉ ([] : List Ev) ∧ Ev.reaped q ∉ ([] : List Ev) := fun q => by simp
  have stg : ∀ {q : Nat} {x : Stage}, s.stage q ≠ .gone → ∀ p, Ev.started p ∈ s.trace → s.stage p = .gone → upd s.stage q x p = .gone := by
    intro q x hq p _ hp
    unfold upd
    split
    · rename_i e; subst e; exact absurd hp hq
    · exact hp
  cases a with
  | change => cases hs; exact h.more rfl (by simp) (Nat.le_refl _) rfl rfl (fun _ _ x => x)
  | read =>
    simp only [step, read] at hs
    split at hs
    · cases hs
    · cases hs; exact h.more (l := []) (by simp) none_ (Nat.le_refl _) rfl rfl (fun _ _ x => x)
    · split at hs
      · rename_i k hk hl
        cases hs
        have h0 : Waits { s with kernel := k } := h.more (l := []) (by simp) none_ (Nat.le_refl _) rfl rfl (fun _ _ x => x)
        have h1 : Waits (flushQueue mod (decide (s.pid = none)) { s with kernel := k }) := by
          have hq : ∀ q, Ev.started q ∉ s.queue.map Ev.recorded ∧ Ev.reaped q ∉ s.queue.map Ev.recorded := fun q => by simp
          rcases flushQueue_cases mod (decide (s.pid = none)) { s with kernel := k } with ⟨_, e, _, _⟩ | ⟨_, _, e⟩ <;> rw [e]
          · exact h0.more rfl hq (Nat.le_refl _) rfl rfl (fun _ _ x => x)
          · have h2 : Waits { s with trace := s.trace ++ s.queue.map .recorded, handled := false, queue := [] } :=
              h.more rfl hq (Nat.le_refl _) rfl rfl (fun _ _ x => x)
            exact (h2.auto).more (l := []) (by simp [startAuto]) none_ (Nat.le_refl _) rfl rfl (fun _ _ x => x)
        exact h1.more (l := []) (by simp) none_ (Nat.le_refl _) rfl rfl (fun _ _ x => x)
      · cases hs; exact h.more (l := []) (by simp) none_ (Nat.le_refl _) rfl rfl (fun _ _ x => x)
    · split at hs
      · cases hs; exact h.more (l := []) (by simp) none_ (Nat.le_refl _) rfl rfl (fun _ _ x => x)
      · split at hs
        · cases hs; exact h.more (l := []) (by simp) none_ (Nat.le_refl _) rfl rfl (fun _ _ x => x)
        · cases hs
  | timeout =>
    simp only [step] at hs
    split at hs
    · cases hs; exact h.flush true
    · cases hs
  | launch f =>
    cases hs
    have hg : ∀ p, Ev.started p ∈ s.trace → s.stage p = .gone → upd s.stage s.next .wantSh p = .gone :=
      fun p x y => (upd_other s.stage _ (Nat.ne_of_lt (h.lt p x))).trans y
    cases f
    · exact h.more (l := []) (by simp) none_ (Nat.le_succ _) rfl rfl hg
    · exact h.more (l := [.asked s.next]) (by simp) (by simp) (Nat.le_succ _) rfl rfl hg
  | go q =>
    simp only [step, go] at hs
    split at hs
    · rename_i e
      split at hs
      · cases hs; exact h.more (l := []) (by simp) none_ (Nat.le_refl _) rfl rfl (stg (by rw [e]; decide))
      · cases hs
    · rename_i e
      cases hs; exact h.more (l := []) (by simp) none_ (Nat.le_refl _) rfl rfl (stg (by rw [e]; decide))
    · rename_i e
      split at hs
      · cases hs
        by_cases hk : s.kind q = .auto
        · exact h.more (l := [.begun q]) (by simp [hk]) (by simp) (Nat.le_refl _) rfl rfl (stg (by rw [e]; decide))
        · exact h.more (l := []) (by simp [hk]) none_ (Nat.le_refl _) rfl rfl (stg (by rw [e]; decide))
      · cases hs
    · rename_i e
      split at hs
      · cases hs; exact h.more (l := [.ended q]) rfl (by simp) (Nat.le_refl _) rfl rfl (stg (by rw [e]; decide))
      · split at hs
        · cases hs; exact h.more (l := [.answered q]) rfl (by simp) (Nat.le_refl _) rfl rfl (stg (by rw [e]; decide))
        · cases hs; exact h.more (l := []) (by simp) none_ (Nat.le_refl _) rfl rfl (stg (by rw [e]; decide))
      · cases hs; exact h.more (l := []) (by simp) none_ (Nat.le_refl _) rfl rfl (stg (by rw [e]; decide))
    · rename_i e
      cases hs; exact h.more (l := []) (by simp) none_ (Nat.le_refl _) rfl rfl (stg (by rw [e]; decide))
    · rename_i e
      split at hs
      · cases hs; exact h.more (l := []) (by simp) none_ (Nat.le_refl _) rfl rfl (stg (by rw [e]; decide))
      · cases hs
    · rename_i e
      cases hs; exact h.more (l := []) (by simp) none_ (Nat.le_refl _) rfl rfl (stg (by rw [e]; decide))
    · cases hs
  | fail p =>
    simp only [step] at hs
    split at hs
    · rename_i e
      cases hs; exact h.more (l := []) (by simp) none_ (Nat.le_refl _) rfl rfl (stg (by rw [e.2]; decide))
    · cases hs
  | take =>
    simp only [step] at hs
    split at hs
    · rename_i p hp hw
      cases hs
      have h1 := h.slot p hp
      refine ⟨h.lt, fun q x => (by cases x), fun q x => ?_, h.reaped, h.once, fun q x => ?_⟩
      · cases x; exact ⟨h1.1, h1.2.1⟩
      · rcases h.last q x with y | y | y | y
        · exact .inl y
        · exact .inr (.inr (.inl (hp.symm.trans y)))
        · rw [hw] at y; cases y
        · exact .inr (.inr (.inr y))
    · cases hs
  | reap =>
    simp only [step] at hs
    split at hs
    · rename_i p hp
      split at hs
      · rename_i hg
        cases hs
        have h1 := h.waits p hp
        have hst : ∀ q, Ev.started q ∈ s.trace ++ [Ev.reaped p] ↔ Ev.started q ∈ s.trace := fun q => by simp
        have hre : ∀ q, Ev.reaped q ∈ s.trace ++ [Ev.reaped p] ↔ Ev.reaped q ∈ s.trace ∨ q = p := fun q => by simp
        refine ⟨fun q x => h.lt q ((hst q).1 x), fun q x => ?_, fun q x => (by cases x), fun q x => ?_, fun q => ?_, fun q x => ?_⟩
        · have h2 := h.slot q x
          refine ⟨(hst q).2 h2.1, fun y => ?_, by simp⟩
          rcases (hre q).1 y with z | z
          · exact h2.2.1 z
          · exact h2.2.2 (by rw [hp, z])
        · refine ⟨(hst q).2 ?_, ?_⟩
          · rcases (hre q).1 x with z | z
            · exact (h.reaped q z).1
            · rw [z]; exact h1.1
          · rcases (hre q).1 x with z | z
            · exact (h.reaped q z).2
            · rw [z]; exact hg
        · show (s.trace ++ [Ev.reaped p]).count _ ≤ 1
          rw [List.count_append]
          by_cases hq : q = p
          · subst hq
            rw [List.count_eq_zero_of_not_mem h1.2]; simp
          · rw [List.count_eq_zero_of_not_mem (l := [Ev.reaped p]) (by simpa using hq)]
            exact h.once q
        · show Ev.reaped q ∈ s.trace ++ [Ev.reaped p] ∨ _
          rw [hre]
          rcases h.last q ((hst q).1 x) with y | y | y | ⟨r, y⟩
          · exact .inl (.inl y)
          · exact .inr (.inl y)
          · rw [hp] at y; exact .inl (.inr (Option.some.inj y).symm)
          · exact .inr (.inr (.inr ⟨r, y.more _⟩))
      · cases hs
    · cases hs

theorem waits_init (mod : Nat → Bool) (n : Nat) : Waits (init mod n) := by
  have base : Waits { changes := n, trace := (List.range n).map .changed ++ (List.range n).map .recorded } := by
    refine ⟨?_, ?_, ?_, ?_, ?_, ?_⟩
    · intro p x; simp at x
    · intro p x; cases x
    · intro p x; cases x
    · intro p x; simp at x
    · intro p; rw [List.count_eq_zero_of_not_mem (by simp)]; exact Nat.zero_le _
    · intro p x; simp at x
  unfold init
  dsimp only
  split
  · exact base.auto
  · exact base

theorem waits_run : ∀ {l : List Act} {s s' : State}, Waits s → run mod s l = some s' → Waits s'
  | [], s, s', h, hs => by cases hs; exact h
  | a :: l, s, s', h, hs => by
    simp only [run] at hs
    split at hs
    · rename_i t ht
      exact waits_run (waits_step h ht) hs
    · cases hs

end Tup.AutoUpdate
