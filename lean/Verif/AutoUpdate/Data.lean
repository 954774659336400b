import Verif.AutoUpdate.Lemmas

namespace Tup.AutoUpdate

variable {mod : Nat → Bool} {s s' : State} {a : Act}

theorem InOrder.more {t l : List Ev} (m : List Ev) (h : InOrder t l) : InOrder (t ++ m) l := h.trans (List.sublist_append_left _ _)

theorem InOrder.snoc {t l m : List Ev} {e : Ev} (h : InOrder t l) (he : e ∈ m) : InOrder (t ++ m) (l ++ [e]) :=
  List.Sublist.append h (List.singleton_sublist.2 he)

theorem InOrder.first {t l : List Ev} {a b : Ev} (h : InOrder (t ++ l) [a, b]) (hb : b ∉ l) : InOrder t [a, b] := by
  obtain ⟨l1, l2, e, h1, h2⟩ := List.sublist_append_iff.1 h
  cases l2 with
  | nil => rw [List.append_nil] at e; rw [e]; exact h1
  | cons x l2 =>
    refine absurd ?_ hb
    have : b ∈ x :: l2 := by
      cases l1 with
      | nil => rw [List.nil_append] at e; rw [← e]; simp
      | cons y l1 =>
        rw [List.cons_append] at e
        injection e with _ e
        cases l1 with
        | nil => rw [List.nil_append] at e; rw [← e]; simp
        | cons z l1 => rw [List.cons_append] at e; injection e with _ e; exact absurd e (by simp)
    exact h2.subset this

theorem InOrder.left {t : List Ev} {a b : Ev} (h : InOrder t [a, b]) : a ∈ t := h.subset (by simp)

theorem InOrder.right {t : List Ev} {a b : Ev} (h : InOrder t [a, b]) : b ∈ t := h.subset (by simp)

/-- The events that come before the object lock was opened. -/
def front (k : List KEv) : List KEv := k.takeWhile (fun e => decide (e ≠ .opened))

/-- Where the changes are. -/
structure Data (mod : Nat → Bool) (s : State) : Prop where
  num : ∀ c, Ev.changed c ∈ s.trace → c < s.changes
  kern : ∀ c, KEv.file c ∈ s.kernel → Ev.changed c ∈ s.trace
  que : ∀ c, c ∈ s.queue → Ev.changed c ∈ s.trace
  pend : ∀ c, Ev.changed c ∈ s.trace → KEv.file c ∈ s.kernel ∨ c ∈ s.queue ∨ Ev.recorded c ∈ s.trace
  recs : ∀ c, Ev.recorded c ∈ s.trace → InOrder s.trace [.changed c, .recorded c]
  clear : s.pid = none → ∀ c, Ev.recorded c ∈ s.trace → mod c = true → Updated s.trace c
  using_ : ∀ p, s.stage p = .using → s.kind p = .auto → ∀ c, Ev.recorded c ∈ s.trace → mod c = true →
    InOrder s.trace [.changed c, .recorded c, .begun p]
  ask : ∀ f, Ev.asked f ∈ s.trace → f < s.next
  use : ∀ f c, InOrder s.trace [.changed c, .asked f] → s.stage f = .using → Ev.recorded c ∈ s.trace
  off : ∀ f c, InOrder s.trace [.changed c, .asked f] → s.stage f = .wantObj → s.locked = false → Ev.recorded c ∈ s.trace
  on : ∀ f c, InOrder s.trace [.changed c, .asked f] → s.stage f = .wantObj → s.locked = true →
    Ev.recorded c ∈ s.trace ∨ c ∈ s.queue ∨ KEv.file c ∈ front s.kernel
  ans : ∀ f, Ev.answered f ∈ s.trace → Ev.asked f ∈ s.trace
  asks : ∀ f, s.stage f ≠ .gone → s.kind f = .flush → Ev.asked f ∈ s.trace
  done : ∀ f c, Ev.answered f ∈ s.trace → InOrder s.trace [.changed c, .asked f] → mod c = true →
    ∃ p, InOrder s.trace [.changed c, .recorded c, .begun p, .ended p, .answered f]

/-- More has happened, and nothing of it concerns the changes. -/
theorem Data.extend {t : State} (h : Data mod s) {l : List Ev} (ht : t.trace = s.trace ++ l)
    (hl : ∀ c, Ev.changed c ∉ l ∧ Ev.recorded c ∉ l ∧ Ev.asked c ∉ l)
    (h1 : t.kernel = s.kernel) (h2 : t.queue = s.queue) (h3 : t.changes = s.changes) (h4 : s.next ≤ t.next)
    (hpid : t.pid = none → s.pid = none ∨ ∀ c, Ev.recorded c ∈ s.trace → mod c = true → Updated t.trace c)
    (hus : ∀ p, t.stage p = .using → t.kind p = .auto → s.stage p = .using ∧ s.kind p = .auto ∨ Ev.begun p ∈ l)
    (hu : ∀ f, t.stage f = .using → s.stage f = .using ∨ s.stage f = .wantObj ∧ s.locked = false)
    (hw : ∀ f, t.stage f = .wantObj → s.stage f = .wantObj) (hk : t.locked = s.locked)
    (ha : ∀ f, Ev.answered f ∈ l → Ev.asked f ∈ s.trace ∧ ∀ c, InOrder s.trace [.changed c, .asked f] → mod c = true → Updated s.trace c)
    (hf : ∀ f, t.stage f ≠ .gone → t.kind f = .flush → s.stage f ≠ .gone ∧ s.kind f = .flush) :
    Data mod t := by
  have hc : ∀ c, Ev.changed c ∈ t.trace ↔ Ev.changed c ∈ s.trace := fun c => by
    rw [ht, List.mem_append]; exact ⟨fun x => x.elim id (fun y => absurd y (hl c).1), .inl⟩
  have hr : ∀ c, Ev.recorded c ∈ t.trace ↔ Ev.recorded c ∈ s.trace := fun c => by
    rw [ht, List.mem_append]; exact ⟨fun x => x.elim id (fun y => absurd y (hl c).2.1), .inl⟩
  have hq : ∀ c, Ev.asked c ∈ t.trace ↔ Ev.asked c ∈ s.trace := fun c => by
    rw [ht, List.mem_append]; exact ⟨fun x => x.elim id (fun y => absurd y (hl c).2.2), .inl⟩
  have hi : ∀ {c f}, InOrder t.trace [.changed c, .asked f] → InOrder s.trace [.changed c, .asked f] := fun x => by
    rw [ht] at x; exact x.first (hl _).2.2
  have hm : ∀ {m}, InOrder s.trace m → InOrder t.trace m := fun x => by rw [ht]; exact x.more l
  refine ⟨?_, ?_, ?_, ?_, ?_, ?_, ?_, ?_, ?_, ?_, ?_, ?_, ?_, ?_⟩
  · intro c x; rw [h3]; exact h.num c ((hc c).1 x)
  · intro c x; rw [hc]; exact h.kern c (h1 ▸ x)
  · intro c x; rw [hc]; exact h.que c (h2 ▸ x)
  · intro c x; rw [h1, h2, hr]; exact h.pend c ((hc c).1 x)
  · intro c x; exact hm (h.recs c ((hr c).1 x))
  · intro x c y z
    rcases hpid x with w | w
    · obtain ⟨p, o⟩ := h.clear w c ((hr c).1 y) z
      exact ⟨p, hm o⟩
    · exact w c ((hr c).1 y) z
  · intro p x y c z w
    rcases hus p x y with u | u
    · exact hm (h.using_ p u.1 u.2 c ((hr c).1 z) w)
    · rw [ht]
      exact (h.recs c ((hr c).1 z)).snoc u
  · intro f x; exact Nat.lt_of_lt_of_le (h.ask f ((hq f).1 x)) h4
  · intro f c x y
    rw [hr]
    rcases hu f y with z | z
    · exact h.use f c (hi x) z
    · exact h.off f c (hi x) z.1 z.2
  · intro f c x y z
    rw [hr]
    exact h.off f c (hi x) (hw f y) (hk ▸ z)
  · intro f c x y z
    rw [hr, h1, h2]
    exact h.on f c (hi x) (hw f y) (hk ▸ z)
  · intro f x
    rw [hq]
    rw [ht, List.mem_append] at x
    rcases x with x | x
    · exact h.ans f x
    · exact (ha f x).1
  · intro f x y
    rw [hq]
    obtain ⟨u, v⟩ := hf f x y
    exact h.asks f u v
  · intro f c x y z
    rw [ht, List.mem_append] at x
    rcases x with x | x
    · obtain ⟨p, o⟩ := h.done f c x (hi y) z
      exact ⟨p, hm o⟩
    · obtain ⟨p, o⟩ := (ha f x).2 c (hi y) z
      refine ⟨p, ?_⟩
      rw [ht]
      exact InOrder.snoc o x

/-- The monitor has put the queue into the database. -/
theorem Data.flushed {t : State} (h : Data mod s) (hL : Locks s) (hon : s.locked = true) {l : List Ev}
    (ht : t.trace = s.trace ++ s.queue.map .recorded ++ l) (hl : ∀ e ∈ l, ∃ p, e = .started p)
    (h2 : t.queue = []) (h3 : t.changes = s.changes) (h4 : s.next ≤ t.next)
    (hk : t.locked = true ∧ t.kernel = s.kernel ∨ t.locked = false ∧ s.kernel = .opened :: t.kernel)
    (hpid : t.pid = none → s.pid = none ∧ ∀ c ∈ s.queue, mod c = false)
    (hst : ∀ q, t.stage q = s.stage q ∧ t.kind q = s.kind q ∨ t.stage q = .wantSh ∧ t.kind q = .auto) : Data mod t := by
  have hc : ∀ c, Ev.changed c ∈ t.trace ↔ Ev.changed c ∈ s.trace := fun c => by
    rw [ht, List.mem_append, List.mem_append]
    refine ⟨fun x => x.elim (fun y => y.elim id (fun z => ?_)) (fun y => ?_), fun x => .inl (.inl x)⟩
    · obtain ⟨_, _, e⟩ := List.mem_map.1 z; cases e
    · obtain ⟨_, e⟩ := hl _ y; cases e
  have hr : ∀ c, Ev.recorded c ∈ t.trace ↔ Ev.recorded c ∈ s.trace ∨ c ∈ s.queue := fun c => by
    rw [ht, List.mem_append, List.mem_append]
    refine ⟨fun x => x.elim (fun y => y.elim .inl (fun z => .inr ?_)) (fun y => ?_), fun x => .inl (x.imp id (fun y => ?_))⟩
    · obtain ⟨_, m, e⟩ := List.mem_map.1 z; cases e; exact m
    · obtain ⟨_, e⟩ := hl _ y; cases e
    · exact List.mem_map.2 ⟨c, y, rfl⟩
  have hq : ∀ c, Ev.asked c ∈ t.trace ↔ Ev.asked c ∈ s.trace := fun c => by
    rw [ht, List.mem_append, List.mem_append]
    refine ⟨fun x => x.elim (fun y => y.elim id (fun z => ?_)) (fun y => ?_), fun x => .inl (.inl x)⟩
    · obtain ⟨_, _, e⟩ := List.mem_map.1 z; cases e
    · obtain ⟨_, e⟩ := hl _ y; cases e
  have hw : ∀ c, Ev.answered c ∈ t.trace ↔ Ev.answered c ∈ s.trace := fun c => by
    rw [ht, List.mem_append, List.mem_append]
    refine ⟨fun x => x.elim (fun y => y.elim id (fun z => ?_)) (fun y => ?_), fun x => .inl (.inl x)⟩
    · obtain ⟨_, _, e⟩ := List.mem_map.1 z; cases e
    · obtain ⟨_, e⟩ := hl _ y; cases e
  have hi : ∀ {c f}, InOrder t.trace [.changed c, .asked f] → InOrder s.trace [.changed c, .asked f] := fun {c f} x => by
    rw [ht, List.append_assoc] at x
    refine x.first fun y => ?_
    rcases List.mem_append.1 y with z | z
    · obtain ⟨_, _, e⟩ := List.mem_map.1 z; cases e
    · obtain ⟨_, e⟩ := hl _ z; cases e
  have hm : ∀ {m}, InOrder s.trace m → InOrder t.trace m := fun x => by rw [ht, List.append_assoc]; exact x.more _
  have hnu : ∀ p, t.stage p ≠ .using := by
    intro p e
    rcases hst p with x | x
    · rw [x.1] at e
      have := (hL.use p (.inl e)).1
      rw [hon] at this; cases this
    · rw [x.1] at e; cases e
  have hwo : ∀ p, t.stage p = .wantObj → s.stage p = .wantObj := by
    intro p e
    rcases hst p with x | x
    · rw [x.1] at e; exact e
    · rw [x.1] at e; cases e
  have hker : ∀ c, KEv.file c ∈ t.kernel ↔ KEv.file c ∈ s.kernel := by
    intro c
    rcases hk with x | x
    · rw [x.2]
    · rw [x.2]; simp
  refine ⟨?_, ?_, ?_, ?_, ?_, ?_, ?_, ?_, ?_, ?_, ?_, ?_, ?_, ?_⟩
  · intro c x; rw [h3]; exact h.num c ((hc c).1 x)
  · intro c x; rw [hc]; exact h.kern c ((hker c).1 x)
  · intro c x; rw [h2] at x; cases x
  · intro c x
    rw [hker, hr]
    rcases h.pend c ((hc c).1 x) with y | y | y
    · exact .inl y
    · exact .inr (.inr (.inr y))
    · exact .inr (.inr (.inl y))
  · intro c x
    rcases (hr c).1 x with y | y
    · exact hm (h.recs c y)
    · rw [ht, List.append_assoc]
      exact InOrder.snoc (l := [.changed c]) (List.singleton_sublist.2 (h.que c y)) (List.mem_append_left _ (List.mem_map.2 ⟨c, y, rfl⟩))
  · intro x c y z
    obtain ⟨u, v⟩ := hpid x
    rcases (hr c).1 y with w | w
    · obtain ⟨p, o⟩ := h.clear u c w z
      exact ⟨p, hm o⟩
    · rw [v c w] at z; cases z
  · intro p x; exact absurd x (hnu p)
  · intro f x; exact Nat.lt_of_lt_of_le (h.ask f ((hq f).1 x)) h4
  · intro f c _ y; exact absurd y (hnu f)
  · intro f c x y z
    rw [hr]
    rcases h.on f c (hi x) (hwo f y) hon with u | u | u
    · exact .inl u
    · exact .inr u
    · rcases hk with w | w
      · rw [w.1] at z; cases z
      · rw [w.2] at u; simp [front] at u
  · intro f c x y z
    rw [hr, h2]
    rcases h.on f c (hi x) (hwo f y) hon with u | u | u
    · exact .inl (.inl u)
    · exact .inl (.inr u)
    · rcases hk with w | w
      · rw [w.2]; exact .inr (.inr u)
      · rw [w.1] at z; cases z
  · intro f x; rw [hq]; exact h.ans f ((hw f).1 x)
  · intro f x y
    rw [hq]
    rcases hst f with u | u
    · exact h.asks f (u.1 ▸ x) (u.2 ▸ y)
    · rw [u.2] at y; cases y
  · intro f c x y z
    obtain ⟨p, o⟩ := h.done f c ((hw f).1 x) (hi y) z
    exact ⟨p, hm o⟩

/-- Nothing has happened except that the kernel has another event or that the monitor has read one. -/
theorem Data.same {t : State} (h : Data mod s) (ht : t.trace = s.trace) (h3 : t.changes = s.changes) (h4 : t.next = s.next)
    (hp : t.pid = s.pid) (hkd : t.kind = s.kind)
    (hk : ∀ c, KEv.file c ∈ t.kernel ∨ c ∈ t.queue ↔ KEv.file c ∈ s.kernel ∨ c ∈ s.queue)
    (hst : ∀ q, t.stage q = .using → s.stage q = .using) (hg : ∀ q, t.stage q ≠ .gone → s.stage q ≠ .gone)
    (hoff : ∀ q c, t.stage q = .wantObj → InOrder s.trace [.changed c, .asked q] → t.locked = false → Ev.recorded c ∈ s.trace)
    (hon : ∀ q c, t.stage q = .wantObj → InOrder s.trace [.changed c, .asked q] → t.locked = true →
      Ev.recorded c ∈ s.trace ∨ c ∈ t.queue ∨ KEv.file c ∈ front t.kernel) : Data mod t := by
  have hkq : ∀ c, KEv.file c ∈ t.kernel ∨ c ∈ t.queue → Ev.changed c ∈ s.trace := fun c x => ((hk c).1 x).elim (h.kern c) (h.que c)
  refine ⟨?_, ?_, ?_, ?_, ?_, ?_, ?_, ?_, ?_, ?_, ?_, ?_, ?_, ?_⟩
  · rw [ht, h3]; exact h.num
  · rw [ht]; exact fun c x => hkq c (.inl x)
  · rw [ht]; exact fun c x => hkq c (.inr x)
  · rw [ht]
    intro c x
    rcases h.pend c x with y | y | y
    · exact ((hk c).2 (.inl y)).imp id .inl
    · exact ((hk c).2 (.inr y)).imp id .inl
    · exact .inr (.inr y)
  · rw [ht]; exact h.recs
  · rw [ht, hp]; exact h.clear
  · rw [ht, hkd]; exact fun p x => h.using_ p (hst p x)
  · rw [ht, h4]; exact h.ask
  · rw [ht]; exact fun f c x y => h.use f c x (hst f y)
  · rw [ht]; exact fun f c x y z => hoff f c y x z
  · rw [ht]; exact fun f c x y z => hon f c y x z
  · rw [ht]; exact h.ans
  · rw [ht, hkd]; exact fun f x => h.asks f (hg f x)
  · rw [ht]; exact h.done

theorem front_append (k : List KEv) (e : KEv) {x : KEv} (h : x ∈ front k) : x ∈ front (k ++ [e]) := by
  unfold front at *
  rw [List.takeWhile_append]
  split
  · rename_i hl
    exact List.mem_append_left _ ((List.takeWhile_sublist _).subset h)
  · exact h

theorem data_read (h : Data mod s) (hL : Locks s) (hs : read mod s = some s') : Data mod s' := by
  unfold read at hs
  split at hs
  · cases hs
  · rename_i c k hk
    cases hs
    refine h.same rfl rfl rfl rfl rfl ?_ (fun _ x => x) (fun _ x => x) (fun q d x y z => h.off q d y x z) (fun q d x y z => ?_)
    · intro d
      show KEv.file d ∈ k ∨ d ∈ s.queue ++ [c] ↔ KEv.file d ∈ s.kernel ∨ d ∈ s.queue
      rw [hk, List.mem_append, List.mem_singleton, List.mem_cons, KEv.file.injEq]
      grind
    · show _ ∨ d ∈ s.queue ++ [c] ∨ KEv.file d ∈ front k
      rcases h.on q d y x z with u | u | u
      · exact .inl u
      · exact .inr (.inl (List.mem_append_left _ u))
      · rw [hk] at u
        simp only [front, List.takeWhile_cons] at u
        rw [if_pos (by simp)] at u
        rcases List.mem_cons.1 u with v | v
        · injection v with v
          exact .inr (.inl (List.mem_append_right _ (by rw [v]; simp)))
        · exact .inr (.inr v)
  · rename_i k hk
    split at hs
    · rename_i hl
      cases hs
      rcases flushQueue_cases mod (decide (s.pid = none)) { s with kernel := k } with ⟨hd, e, hb, hh⟩ | ⟨_, _, e⟩ <;> rw [e]
      · refine h.flushed (l := []) hL hl (by simp) (by simp) rfl rfl (Nat.le_refl _) (.inr ⟨rfl, hk⟩) (fun x => ⟨x, ?_⟩) (fun q => .inl ⟨rfl, rfl⟩)
        have x' : s.pid = none := x
        have := hb (by rw [x']; rfl)
        rw [this] at hh
        intro c hc
        have h2 := (Bool.or_eq_false_iff.1 hh.symm).2
        exact Bool.eq_false_iff.2 fun y => by
          have : (s.queue.any mod) = true := List.any_eq_true.2 ⟨c, hc, y⟩
          have h2' : s.queue.any mod = false := h2
          rw [h2'] at this; cases this
      · refine h.flushed (l := [.started s.next]) hL hl rfl (by simp) rfl rfl (Nat.le_succ _) (.inr ⟨rfl, hk⟩) (fun x => by cases x) (fun q => ?_)
        show upd s.stage s.next .wantSh q = _ ∧ upd s.kind s.next .auto q = _ ∨ upd s.stage s.next .wantSh q = _ ∧ upd s.kind s.next .auto q = _
        unfold upd
        split <;> simp
    · rename_i hl
      cases hs
      refine h.same rfl rfl rfl rfl rfl ?_ (fun _ x => x) (fun _ x => x) (fun q d x y z => h.off q d y x z) (fun q d x y z => absurd z hl)
      intro d; rw [hk]; simp
  · rename_i k hk
    split at hs
    · rename_i hl
      cases hs
      refine h.same rfl rfl rfl rfl rfl ?_ (fun _ x => x) (fun _ x => x) (fun q d x y z => h.off q d y x z) (fun q d x y z => ?_)
      · intro d; rw [hk]; simp
      · rcases h.on q d y x z with u | u | u
        · exact .inl u
        · exact .inr (.inl u)
        · rw [hk] at u
          simp only [front, List.takeWhile_cons] at u
          rw [if_pos (by simp)] at u
          rcases List.mem_cons.1 u with v | v
          · cases v
          · exact .inr (.inr v)
    · rename_i hl
      split at hs
      · cases hs
        refine h.same rfl rfl rfl rfl rfl ?_ (fun _ x => x) (fun _ x => x) (fun q d x y z => by cases z) (fun q d x y z => .inl ?_)
        · intro d; rw [hk]; simp
        · exact h.off q d y x (Bool.eq_false_iff.2 hl)
      · cases hs

theorem upd_eq {α : Type} {f : Nat → α} {i j : Nat} {x y : α} (h : upd f i x j = y) (hxy : x ≠ y) : f j = y := by
  unfold upd at h
  split at h
  · exact absurd h hxy
  · exact h

theorem upd_ne {α : Type} {f : Nat → α} {i j : Nat} {x y : α} (h : upd f i x j ≠ y) (hy : f i ≠ y) : f j ≠ y := by
  unfold upd at h
  split at h
  · rename_i e; rw [e]; exact hy
  · exact h

theorem data_go (h : Data mod s) (hL : Locks s) {p : Nat} (hs : go s p = some s') : Data mod s' := by
  unfold go at hs
  split at hs
  · rename_i e
    split at hs
    · cases hs
      refine h.same rfl rfl rfl rfl rfl (fun _ => Iff.rfl) (fun q x => upd_eq x (by decide)) (fun q x => upd_ne x (by rw [e]; decide))
        (fun q c x y z => h.off q c y (upd_eq x (by decide)) z) (fun q c x y z => h.on q c y (upd_eq x (by decide)) z)
    · cases hs
  · rename_i e
    cases hs
    have hon := hL.open_ p (.inl e)
    refine h.same rfl rfl rfl rfl rfl ?_ (fun q x => upd_eq x (by decide)) (fun q x => upd_ne x (by rw [e]; decide))
      (fun q c x y z => absurd (hon.1.symm.trans z) (by decide)) (fun q c x y z => ?_)
    · intro c
      show KEv.file c ∈ s.kernel ++ [.opened] ∨ c ∈ s.queue ↔ _
      simp
    · show _ ∨ _ ∨ KEv.file c ∈ front (s.kernel ++ [.opened])
      rcases h.pend c y.left with u | u | u
      · refine .inr (.inr ?_)
        have : front (s.kernel ++ [.opened]) = s.kernel := by
          unfold front
          rw [List.takeWhile_append_of_pos (fun a ha => by simpa using (hon.2 a ha).1)]
          simp
        rw [this]; exact u
      · exact .inr (.inl u)
      · exact .inl u
  · rename_i e
    split at hs
    · rename_i hl
      cases hs
      by_cases hk : s.kind p = .auto
      · refine h.extend (l := [.begun p]) (by simp [hk]) (by simp) rfl rfl rfl (Nat.le_refl _) .inl (fun q x y => ?_) (fun q x => ?_)
          (fun q x => upd_eq x (by decide)) rfl (by simp) (fun q x y => ⟨upd_ne x (by rw [e]; decide), y⟩)
        · by_cases hq : q = p
          · exact .inr (by rw [hq]; simp)
          · exact .inl ⟨(upd_other s.stage _ hq).symm.trans x, y⟩
        · by_cases hq : q = p
          · exact .inr ⟨by rw [hq]; exact e, hl.1⟩
          · exact .inl ((upd_other s.stage _ hq).symm.trans x)
      · refine h.extend (l := []) (by simp [hk]) (by simp) rfl rfl rfl (Nat.le_refl _) .inl (fun q x y => ?_) (fun q x => ?_)
          (fun q x => upd_eq x (by decide)) rfl (by simp) (fun q x y => ⟨upd_ne x (by rw [e]; decide), y⟩)
        · by_cases hq : q = p
          · exact absurd (hq ▸ y) hk
          · exact .inl ⟨(upd_other s.stage _ hq).symm.trans x, y⟩
        · by_cases hq : q = p
          · exact .inr ⟨by rw [hq]; exact e, hl.1⟩
          · exact .inl ((upd_other s.stage _ hq).symm.trans x)
    · cases hs
  · rename_i e
    split at hs
    · rename_i hk
      cases hs
      refine h.extend (l := [.ended p]) rfl (by simp) rfl rfl rfl (Nat.le_refl _) (fun _ => .inr fun c x y => ?_)
        (fun q x y => .inl ⟨upd_eq x (by decide), y⟩) (fun q x => .inl (upd_eq x (by decide))) (fun q x => upd_eq x (by decide)) rfl (by simp)
        (fun q x y => ⟨upd_ne x (by rw [e]; decide), y⟩)
      exact ⟨p, (h.using_ p e hk c x y).snoc (m := [.ended p]) (by simp)⟩
    · rename_i hk
      split at hs
      · rename_i hp
        cases hs
        refine h.extend (l := [.answered p]) rfl (by simp) rfl rfl rfl (Nat.le_refl _) .inl
          (fun q x y => .inl ⟨upd_eq x (by decide), y⟩) (fun q x => .inl (upd_eq x (by decide))) (fun q x => upd_eq x (by decide)) rfl ?_
          (fun q x y => ⟨upd_ne x (by rw [e]; decide), y⟩)
        intro f hf
        rw [List.mem_singleton] at hf
        injection hf with hf
        subst hf
        exact ⟨h.asks f (by rw [e]; decide) hk, fun c x y => h.clear hp c (h.use f c x e) y⟩
      · cases hs
        exact h.extend (l := []) (by simp) (by simp) rfl rfl rfl (Nat.le_refl _) .inl
          (fun q x y => .inl ⟨upd_eq x (by decide), y⟩) (fun q x => .inl (upd_eq x (by decide))) (fun q x => upd_eq x (by decide)) rfl (by simp)
          (fun q x y => ⟨upd_ne x (by rw [e]; decide), y⟩)
    · cases hs
      exact h.extend (l := []) (by simp) (by simp) rfl rfl rfl (Nat.le_refl _) .inl
        (fun q x y => .inl ⟨upd_eq x (by decide), y⟩) (fun q x => .inl (upd_eq x (by decide))) (fun q x => upd_eq x (by decide)) rfl (by simp)
        (fun q x y => ⟨upd_ne x (by rw [e]; decide), y⟩)
  · rename_i e
    cases hs
    refine h.same rfl rfl rfl rfl rfl ?_ (fun q x => upd_eq x (by decide)) (fun q x => upd_ne x (by rw [e]; decide))
      (fun q c x y z => h.off q c y (upd_eq x (by decide)) z) (fun q c x y z => ?_)
    · intro c
      show KEv.file c ∈ s.kernel ++ [.closed] ∨ c ∈ s.queue ↔ _
      simp
    · exact (h.on q c y (upd_eq x (by decide)) z).imp id (.imp id (front_append _ _))
  · rename_i e
    split at hs
    · cases hs
      exact h.same rfl rfl rfl rfl rfl (fun _ => Iff.rfl) (fun q x => upd_eq x (by decide)) (fun q x => upd_ne x (by rw [e]; decide))
        (fun q c x y z => h.off q c y (upd_eq x (by decide)) z) (fun q c x y z => h.on q c y (upd_eq x (by decide)) z)
    · cases hs
  · rename_i e
    cases hs
    exact h.same rfl rfl rfl rfl rfl (fun _ => Iff.rfl) (fun q x => upd_eq x (by split <;> decide)) (fun q x => upd_ne x (by rw [e]; decide))
      (fun q c x y z => h.off q c y (upd_eq x (by split <;> decide)) z) (fun q c x y z => h.on q c y (upd_eq x (by split <;> decide)) z)
  · cases hs

theorem data_launch (h : Data mod s) (hL : Locks s) (f : Bool) (hs : step mod s (.launch f) = some s') : Data mod s' := by
  have hg : s.stage s.next = .gone := by
    rcases Decidable.em (s.stage s.next = .gone) with h1 | h1
    · exact h1
    · exact absurd (hL.fresh _ h1) (Nat.lt_irrefl _)
  cases hs
  have hi : ∀ {q c}, InOrder (if f then s.trace ++ [.asked s.next] else s.trace) [.changed c, .asked q] → q ≠ s.next →
      InOrder s.trace [.changed c, .asked q] := by
    intro q c x hq
    split at x
    · exact x.first (by simpa using hq)
    · exact x
  have hlt : ∀ q, upd s.stage s.next .wantSh q ≠ .wantSh → q ≠ s.next := fun q x e => x (by rw [e]; exact upd_same _ _ _)
  have hm : ∀ {m}, InOrder s.trace m → InOrder (if f then s.trace ++ [.asked s.next] else s.trace) m := fun x => by
    split
    · exact x.more _
    · exact x
  have hs1 : ∀ e : Ev, e ∈ (if f then s.trace ++ [.asked s.next] else s.trace) ↔ e ∈ s.trace ∨ f = true ∧ e = .asked s.next := by
    intro e; split <;> simp_all
  have hc : ∀ c, Ev.changed c ∈ (if f then s.trace ++ [.asked s.next] else s.trace) ↔ Ev.changed c ∈ s.trace := fun c => by rw [hs1]; simp
  have hr : ∀ c, Ev.recorded c ∈ (if f then s.trace ++ [.asked s.next] else s.trace) ↔ Ev.recorded c ∈ s.trace := fun c => by rw [hs1]; simp
  have hw : ∀ c, Ev.answered c ∈ (if f then s.trace ++ [.asked s.next] else s.trace) ↔ Ev.answered c ∈ s.trace := fun c => by rw [hs1]; simp
  refine ⟨?_, ?_, ?_, ?_, ?_, ?_, ?_, ?_, ?_, ?_, ?_, ?_, ?_, ?_⟩
  · exact fun c x => h.num c ((hc c).1 x)
  · exact fun c x => (hc c).2 (h.kern c x)
  · exact fun c x => (hc c).2 (h.que c x)
  · exact fun c x => (h.pend c ((hc c).1 x)).imp id (.imp id (hr c).2)
  · exact fun c x => hm (h.recs c ((hr c).1 x))
  · exact fun x c y z => (h.clear x c ((hr c).1 y) z).imp fun _ o => hm o
  · intro p x y c z w
    have hp := hlt p (by rw [show upd s.stage s.next .wantSh p = .using from x]; decide)
    exact hm (h.using_ p (upd_eq x (by decide)) ((upd_other s.kind _ hp).symm.trans y) c ((hr c).1 z) w)
  · intro q x
    rcases (hs1 _).1 x with y | y
    · exact Nat.lt_succ_of_lt (h.ask q y)
    · injection y.2 with e; rw [e]; exact Nat.lt_succ_self _
  · intro q c x y
    have hp := hlt q (by rw [show upd s.stage s.next .wantSh q = .using from y]; decide)
    exact (hr c).2 (h.use q c (hi x hp) (upd_eq y (by decide)))
  · intro q c x y z
    have hp := hlt q (by rw [show upd s.stage s.next .wantSh q = .wantObj from y]; decide)
    exact (hr c).2 (h.off q c (hi x hp) (upd_eq y (by decide)) z)
  · intro q c x y z
    have hp := hlt q (by rw [show upd s.stage s.next .wantSh q = .wantObj from y]; decide)
    exact (h.on q c (hi x hp) (upd_eq y (by decide)) z).imp (hr c).2 id
  · intro q x
    exact (hs1 _).2 (.inl (h.ans q ((hw q).1 x)))
  · intro q x y
    refine (hs1 _).2 ?_
    by_cases hq : q = s.next
    · subst hq
      have y' : upd s.kind s.next (if f then Kind.flush else .other) s.next = .flush := y
      rw [upd_same] at y'
      refine .inr ⟨?_, rfl⟩
      cases f
      · cases y'
      · rfl
    · exact .inl (h.asks q (fun e => x ((upd_other s.stage _ hq).trans e)) ((upd_other s.kind _ hq).symm.trans y))
  · intro q c x y z
    have hq : q ≠ s.next := Nat.ne_of_lt (h.ask q (h.ans q ((hw q).1 x)))
    exact (h.done q c ((hw q).1 x) (hi y hq) z).imp fun _ o => hm o

theorem data_change (h : Data mod s) (hs : step mod s .change = some s') : Data mod s' := by
  cases hs
  have hi : ∀ {q c}, InOrder (s.trace ++ [.changed s.changes]) [.changed c, .asked q] → InOrder s.trace [.changed c, .asked q] := fun x => x.first (by simp)
  have hm : ∀ {m}, InOrder s.trace m → InOrder (s.trace ++ [.changed s.changes]) m := fun x => x.more _
  have hr : ∀ c, Ev.recorded c ∈ s.trace ++ [.changed s.changes] ↔ Ev.recorded c ∈ s.trace := fun c => by simp
  have hq : ∀ c, Ev.asked c ∈ s.trace ++ [.changed s.changes] ↔ Ev.asked c ∈ s.trace := fun c => by simp
  have hw : ∀ c, Ev.answered c ∈ s.trace ++ [.changed s.changes] ↔ Ev.answered c ∈ s.trace := fun c => by simp
  refine ⟨?_, ?_, ?_, ?_, ?_, ?_, ?_, ?_, ?_, ?_, ?_, ?_, ?_, ?_⟩
  · intro c x
    show c < s.changes + 1
    rcases List.mem_append.1 x with y | y
    · have := h.num c y; omega
    · rw [List.mem_singleton] at y; injection y with y; omega
  · intro c x
    rcases List.mem_append.1 x with y | y
    · exact List.mem_append_left _ (h.kern c y)
    · rw [List.mem_singleton] at y; injection y with y; rw [y]; simp
  · exact fun c x => List.mem_append_left _ (h.que c x)
  · intro c x
    rcases List.mem_append.1 x with y | y
    · exact (h.pend c y).imp (List.mem_append_left _) (.imp id (hr c).2)
    · rw [List.mem_singleton] at y; injection y with y; rw [y]; left; exact List.mem_append_right _ (by simp)
  · exact fun c x => hm (h.recs c ((hr c).1 x))
  · exact fun x c y z => (h.clear x c ((hr c).1 y) z).imp fun _ o => hm o
  · exact fun p x y c z w => hm (h.using_ p x y c ((hr c).1 z) w)
  · exact fun q x => h.ask q ((hq q).1 x)
  · exact fun q c x y => (hr c).2 (h.use q c (hi x) y)
  · exact fun q c x y z => (hr c).2 (h.off q c (hi x) y z)
  · exact fun q c x y z => (h.on q c (hi x) y z).imp (hr c).2 (.imp id (front_append _ _))
  · exact fun q x => (hq q).2 (h.ans q ((hw q).1 x))
  · exact fun q x y => (hq q).2 (h.asks q x y)
  · exact fun q c x y z => (h.done q c ((hw q).1 x) (hi y) z).imp fun _ o => hm o

theorem data_step (h : Data mod s) (hL : Locks s) (hs : step mod s a = some s') : Data mod s' := by
  cases a with
  | change => exact data_change h hs
  | read => exact data_read h hL hs
  | timeout =>
    simp only [step] at hs
    split at hs
    · rename_i hc
      cases hs
      rcases flushQueue_cases mod true s with ⟨hd, e, hb, hh⟩ | ⟨_, _, e⟩ <;> rw [e]
      · refine h.flushed (l := []) hL hc.2.2 (by simp) (by simp) rfl rfl (Nat.le_refl _) (.inl ⟨hc.2.2, rfl⟩) (fun x => ⟨x, ?_⟩) (fun q => .inl ⟨rfl, rfl⟩)
        have := hb rfl
        rw [this] at hh
        intro c hm
        have h2 := (Bool.or_eq_false_iff.1 hh.symm).2
        exact Bool.eq_false_iff.2 fun y => by
          have : (s.queue.any mod) = true := List.any_eq_true.2 ⟨c, hm, y⟩
          rw [h2] at this; cases this
      · refine h.flushed (l := [.started s.next]) hL hc.2.2 rfl (by simp) rfl rfl (Nat.le_succ _) (.inl ⟨hc.2.2, rfl⟩) (fun x => by cases x) (fun q => ?_)
        show upd s.stage s.next .wantSh q = _ ∧ upd s.kind s.next .auto q = _ ∨ upd s.stage s.next .wantSh q = _ ∧ upd s.kind s.next .auto q = _
        unfold upd
        split <;> simp
    · cases hs
  | launch f => exact data_launch h hL f hs
  | go p => exact data_go h hL hs
  | fail p =>
    simp only [step] at hs
    split at hs
    · rename_i e
      cases hs
      exact h.same rfl rfl rfl rfl rfl (fun _ => Iff.rfl) (fun q x => upd_eq x (by decide)) (fun q x => upd_ne x (by rw [e.2]; decide))
        (fun q c x y z => h.off q c y (upd_eq x (by decide)) z) (fun q c x y z => h.on q c y (upd_eq x (by decide)) z)
    · cases hs
  | take =>
    simp only [step] at hs
    split at hs
    · cases hs
      exact h.same rfl rfl rfl rfl rfl (fun _ => Iff.rfl) (fun q x => x) (fun q x => x) (fun q c x y z => h.off q c y x z) (fun q c x y z => h.on q c y x z)
    · cases hs
  | reap =>
    simp only [step] at hs
    split at hs
    · split at hs
      · rename_i p _ _
        cases hs
        exact h.extend (l := [.reaped p]) rfl (by simp) rfl rfl rfl (Nat.le_refl _) .inl (fun q x y => .inl ⟨x, y⟩) (fun q x => .inl x) (fun q x => x) rfl (by simp)
          (fun q x y => ⟨x, y⟩)
      · cases hs
    · cases hs

theorem data_init (mod : Nat → Bool) (n : Nat) : Data mod (init mod n) := by
  have hc : ∀ (l : List Nat) c, Ev.changed c ∈ l.map Ev.changed ++ l.map Ev.recorded ↔ c ∈ l := by intro l c; simp
  have hr : ∀ (l : List Nat) c, Ev.recorded c ∈ l.map Ev.changed ++ l.map Ev.recorded ↔ c ∈ l := by intro l c; simp
  have hor : ∀ c, c < n → InOrder ((List.range n).map Ev.changed ++ (List.range n).map Ev.recorded) [.changed c, .recorded c] := by
    intro c x
    exact InOrder.snoc (l := [.changed c]) (List.singleton_sublist.2 (by simpa using x)) (by simpa using x)
  have base : (List.range n).any mod = false → Data mod { changes := n, trace := (List.range n).map .changed ++ (List.range n).map .recorded } := by
    intro hany
    refine ⟨?_, ?_, ?_, ?_, ?_, ?_, ?_, ?_, ?_, ?_, ?_, ?_, ?_, ?_⟩
    · intro c x; simpa using x
    · intro c x; cases x
    · intro c x; cases x
    · intro c x; simp at x; simp [x]
    · intro c x; exact hor c (by simpa using x)
    · intro _ c x y
      have x' : c < n := by simpa using x
      rw [List.any_eq_false] at hany
      exact absurd y (hany c (List.mem_range.2 x'))
    · intro p x; cases x
    · intro f x; simp at x
    · intro f c _ x; cases x
    · intro f c _ x; cases x
    · intro f c _ x; cases x
    · intro f x; simp at x
    · intro f x; exact absurd rfl x
    · intro f c x; simp at x
  unfold init
  dsimp only
  split
  · refine ⟨?_, ?_, ?_, ?_, ?_, ?_, ?_, ?_, ?_, ?_, ?_, ?_, ?_, ?_⟩
    · intro c x; simpa [startAuto] using x
    · intro c x; cases x
    · intro c x; cases x
    · intro c x; simp [startAuto] at x; simp [startAuto, x]
    · intro c x; exact (hor c (by simpa [startAuto] using x)).more _
    · intro x; cases x
    · intro p x; exact absurd (upd_eq (i := 0) x (by decide)) (by simp)
    · intro f x; simp [startAuto] at x
    · intro f c _ x; exact absurd (upd_eq (i := 0) x (by decide)) (by simp)
    · intro f c _ x; exact absurd (upd_eq (i := 0) x (by decide)) (by simp)
    · intro f c _ x; exact absurd (upd_eq (i := 0) x (by decide)) (by simp)
    · intro f x; simp [startAuto] at x
    · intro f x y; exact absurd (upd_eq (i := 0) y (by decide)) (by simp)
    · intro f c x; simp [startAuto] at x
  · rename_i hany
    exact base (Bool.eq_false_iff.2 hany)

theorem run_inv : ∀ {l : List Act} {s s' : State}, Locks s → Data mod s → run mod s l = some s' → Locks s' ∧ Data mod s'
  | [], s, s', h1, h2, hs => by cases hs; exact ⟨h1, h2⟩
  | a :: l, s, s', h1, h2, hs => by
    simp only [run] at hs
    split at hs
    · rename_i t ht
      exact run_inv (locks_step h1 ht) (data_step h2 h1 ht) hs
    · cases hs

end Tup.AutoUpdate
