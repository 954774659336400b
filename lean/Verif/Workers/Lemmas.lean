import Verif.Workers.Model

/-! The invariant of the hand-over. -/

namespace Tup.Workers

def back (p : Nat × Bool) : Option Nat × Bool := (some p.1, p.2)

/-- A worker that is not at work: about to look, asleep, or on its way out. -/
def Rests (q : Worker) : Prop := q.pc = .idle ∨ (q.pc = .asleep ∧ q.quit = false) ∨ ((q.pc = .decided ∨ q.pc = .exited) ∧ q.quit = true)

def Quiet (q : Worker) : Prop := q.n = none ∧ q.retn = none ∧ q.given = q.worked.map (·.1) ∧ q.taken = q.worked.map back ∧ Rests q

def Pre (q : Worker) : Prop := ∃ x, q.n = some x ∧ q.retn = none ∧ q.given = q.worked.map (·.1) ++ [x] ∧ q.taken = q.worked.map back ∧
  (q.pc = .idle ∨ q.pc = .decided ∨ q.pc = .working x ∨ (q.pc = .exited ∧ q.quit = true))

/-- One result is not yet with the main thread. -/
def Owes (q : Worker) (x : Nat) (r : Bool) : Prop := ∃ l, q.worked = l ++ [(x, r)] ∧ q.given = q.worked.map (·.1) ∧ q.taken = l.map back

def Post (q : Worker) : Prop := ∃ x r, Owes q x r ∧ ((q.pc = .result r ∧ q.n = some x ∧ q.retn = none) ∨
  (q.rc = r ∧ ((q.pc = .ret1 ∧ q.n = some x ∧ q.retn = none) ∨ (q.pc = .ret2 ∧ q.n = some x ∧ q.retn = some x) ∨ (q.pc = .ret3 ∧ q.n = none ∧ q.retn = some x))))

def Done (q : Worker) : Prop := ∃ x r, Owes q x r ∧ q.rc = r ∧ q.n = none ∧ q.retn = some x ∧ Rests q

def Took (q : Worker) (y : Option Nat) : Prop := ∃ x r, Owes q x r ∧ q.rc = r ∧ q.n = none ∧ q.retn = none ∧ y = some x ∧ Rests q

structure Inv (jobs : Nat) (s : St) : Prop where
  nodup : (s.active ++ s.fin ++ s.free).Nodup
  mem : ∀ i, i ∈ s.active ++ s.fin ++ s.free ↔ i < jobs
  giving : ∀ i x, s.main = .giving i x → i ∈ s.active ∧ Quiet (s.w i)
  took : ∀ i y, s.main = .took i y → i ∈ s.free ∧ Took (s.w i) y
  active : ∀ i ∈ s.active, (∀ x, s.main ≠ .giving i x) → Pre (s.w i) ∨ Post (s.w i)
  fin : ∀ i ∈ s.fin, Done (s.w i)
  free : ∀ i ∈ s.free, (∀ y, s.main ≠ .took i y) → Quiet (s.w i)
  quit : ∀ i, (s.w i).quit = true → (∃ k, s.main = .quitting k ∧ i < k) ∨ (∃ k, s.main = .joining k) ∨ s.main = .finished
  all : (∃ k, s.main = .joining k) ∨ s.main = .finished → ∀ i < jobs, (s.w i).quit = true
  told : ∀ k, s.main = .quitting k → ∀ i < jobs, i < k → (s.w i).quit = true
  asleep : s.main = .asleep → s.fin = []
  left : ∀ k, s.main = .joining k → ∀ i < jobs, i < k → (s.w i).pc = .exited
  gone : s.main = .finished → ∀ i < jobs, (s.w i).pc = .exited
  count : s.count = s.active.length + s.fin.length
  avail : s.main = .ready → s.free ≠ []
  busy : s.main = .taking ∨ s.main = .asleep → s.active ++ s.fin ≠ []
  up : s.main ≠ .crashed

theorem inv_init {jobs : Nat} (hj : 0 < jobs) : Inv jobs (init jobs) := by
  have hn : (List.range jobs).reverse.Nodup := (List.reverse_perm _).nodup_iff.2 List.nodup_range
  have hz : List.range jobs ≠ [] := by simp; omega
  constructor <;> simp [init, hn, Quiet, Rests, hz]

theorem set_self (s : St) (i : Nat) (q : Worker) : (set s i q).w i = q := by simp [set]
theorem set_ne (s : St) {i k : Nat} (q : Worker) (h : k ≠ i) : (set s i q).w k = s.w k := by simp [set, h]

theorem signal_quiet {q : Worker} {x : Nat} (h : Quiet q) (hq : q.quit = false) :
    Pre (signal { q with n := some x, rc := false, given := q.given ++ [x] }) := by
  obtain ⟨h1, h2, h3, h4, h5⟩ := h
  unfold signal
  rcases h5 with h5 | ⟨h5, _⟩ | ⟨_, h6⟩
  · rw [if_neg (by simp [h5])]
    exact ⟨x, rfl, h2, by simp [h3], h4, .inl h5⟩
  · rw [if_pos (by simp [h5])]
    exact ⟨x, rfl, h2, by simp [h3], h4, .inl rfl⟩
  · rw [hq] at h6; cases h6

theorem rests_signal {q : Worker} (h : Rests q) : Rests (signal { q with quit := true }) := by
  unfold signal Rests
  rcases h with h | ⟨h, _⟩ | ⟨h | h, h'⟩ <;> simp [h]

theorem owes_signal {q : Worker} {x : Nat} {r : Bool} (h : Owes q x r) : Owes (signal { q with quit := true }) x r := by
  unfold signal; split <;> exact h

theorem quiet_signal {q : Worker} (h : Quiet q) : Quiet (signal { q with quit := true }) := by
  obtain ⟨h1, h2, h3, h4, h5⟩ := h
  have := rests_signal h5
  refine ⟨?_, ?_, ?_, ?_, this⟩ <;> unfold signal <;> split <;> assumption

theorem done_signal {q : Worker} (h : Done q) : Done (signal { q with quit := true }) := by
  obtain ⟨x, r, h0, h1, h2, h3, h5⟩ := h
  refine ⟨x, r, owes_signal h0, ?_, ?_, ?_, rests_signal h5⟩ <;> unfold signal <;> split <;> assumption

theorem pre_signal {q : Worker} (h : Pre q) : Pre (signal { q with quit := true }) := by
  obtain ⟨x, h1, h2, h3, h4, h5⟩ := h
  have hpc : q.pc ≠ .asleep := by rcases h5 with h | h | h | ⟨h, _⟩ <;> rw [h] <;> intro h <;> cases h
  unfold signal
  rw [if_neg hpc]
  exact ⟨x, h1, h2, h3, h4, by rcases h5 with h | h | h | ⟨h, _⟩ <;> simp [h]⟩

theorem post_signal {q : Worker} (h : Post q) : Post (signal { q with quit := true }) := by
  obtain ⟨x, r, h0, h5⟩ := h
  have hpc : q.pc ≠ .asleep := by
    rcases h5 with ⟨h, _⟩ | ⟨_, ⟨h, _⟩ | ⟨h, _⟩ | ⟨h, _⟩⟩ <;> rw [h] <;> intro h <;> cases h
  unfold signal
  rw [if_neg hpc]
  exact ⟨x, r, h0, h5⟩

theorem signal_quit (q : Worker) : (signal { q with quit := true }).quit = true := by unfold signal; split <;> rfl

theorem signal_exited {q : Worker} (h : q.pc = .exited) : (signal { q with quit := true }).pc = .exited := by
  unfold signal; rw [if_neg (by simp [h])]; exact h

/-- Worker `i` changes and keeps its place in the lists, and the main thread stays where it is. -/
theorem inv_set {jobs : Nat} {s : St} (h : Inv jobs s) {i : Nat} {q : Worker} (hq : q.quit = (s.w i).quit)
    (hx : (s.w i).pc = .exited → q.pc = .exited)
    (f1 : Quiet (s.w i) → Quiet q) (f2 : Pre (s.w i) ∨ Post (s.w i) → Pre q ∨ Post q) (f3 : Done (s.w i) → Done q)
    (f4 : ∀ y, Took (s.w i) y → Took q y) : Inv jobs (set s i q) := by
  have keep : ∀ {P : Worker → Prop} k, (P (s.w i) → P q) → P (s.w k) → P ((set s i q).w k) := by
    intro P k hP h
    by_cases e : k = i
    · subst e; rw [set_self]; exact hP h
    · rw [set_ne _ _ e]; exact h
  have hqk : ∀ k, ((set s i q).w k).quit = (s.w k).quit := by
    intro k
    by_cases e : k = i
    · subst e; rw [set_self]; exact hq
    · rw [set_ne _ _ e]
  exact {
    nodup := h.nodup
    mem := h.mem
    giving := fun k x hm => ⟨(h.giving k x hm).1, keep k f1 (h.giving k x hm).2⟩
    took := fun k y hm => ⟨(h.took k y hm).1, keep (P := fun q => Took q y) k (f4 y) (h.took k y hm).2⟩
    active := fun k hk hn => keep (P := fun q => Pre q ∨ Post q) k f2 (h.active k hk hn)
    fin := fun k hk => keep k f3 (h.fin k hk)
    free := fun k hk hn => keep k f1 (h.free k hk hn)
    quit := fun k hk => h.quit k (by rw [← hqk]; exact hk)
    all := fun hm k hk => by rw [hqk]; exact h.all hm k hk
    told := fun j hm k hk hj => by rw [hqk]; exact h.told j hm k hk hj
    asleep := h.asleep
    left := fun j hm k hk hj => keep (P := fun q => q.pc = .exited) k hx (h.left j hm k hk hj)
    gone := fun hm k hk => keep (P := fun q => q.pc = .exited) k hx (h.gone hm k hk)
    count := h.count
    avail := h.avail
    busy := h.busy
    up := h.up }

/-- Where a worker can be. -/
theorem place {jobs : Nat} {s : St} (h : Inv jobs s) {i : Nat} (hi : i < jobs) :
    Quiet (s.w i) ∨ (i ∈ s.active ∧ (∀ x, s.main ≠ .giving i x) ∧ (Pre (s.w i) ∨ Post (s.w i))) ∨ Done (s.w i) ∨ ∃ y, Took (s.w i) y := by
  have := (h.mem i).2 hi
  simp only [List.mem_append] at this
  rcases this with (ha | hf) | hr
  · by_cases hg : ∃ x, s.main = .giving i x
    · obtain ⟨x, hg⟩ := hg
      exact .inl (h.giving i x hg).2
    · exact .inr (.inl ⟨ha, fun x hx => hg ⟨x, hx⟩, h.active i ha (fun x hx => hg ⟨x, hx⟩)⟩)
  · exact .inr (.inr (.inl (h.fin i hf)))
  · by_cases ht : ∃ y, s.main = .took i y
    · obtain ⟨y, ht⟩ := ht
      exact .inr (.inr (.inr ⟨y, (h.took i y ht).2⟩))
    · exact .inl (h.free i hr (fun y hy => ht ⟨y, hy⟩))

/-- Steps of a worker that stays in its place. -/
theorem inv_local {jobs : Nat} {s : St} (h : Inv jobs s) {i : Nat} {r : Bool} {s' : St} (hs : workerStep s i r = some s')
    (h3 : (s.w i).pc ≠ .ret3) (hi : i < jobs) : Inv jobs s' ∧ (s.w i).pc ≠ .crashed ∧ (s'.w i).pc ≠ .crashed := by
  unfold workerStep at hs
  cases hpc : (s.w i).pc with
  | idle =>
    simp only [hpc] at hs
    cases hs
    refine ⟨?_, by simp, ?_⟩
    · refine inv_set h rfl (by rw [hpc]; intro h; cases h) ?_ ?_ ?_ ?_
      · rintro ⟨a, b, c, d, e⟩
        refine ⟨a, b, c, d, ?_⟩
        cases hq : (s.w i).quit
        · exact .inr (.inl ⟨by simp [a], rfl⟩)
        · exact .inr (.inr ⟨.inl (by simp), rfl⟩)
      · rintro (⟨x, a, b, c, d, e⟩ | ⟨x, r, a, b⟩)
        · exact .inl ⟨x, a, b, c, d, .inr (.inl (by simp [a]))⟩
        · rw [hpc] at b; simp at b
      · rintro ⟨x, r, a, b, c, d, e⟩
        refine ⟨x, r, a, b, c, d, ?_⟩
        cases hq : (s.w i).quit
        · exact .inr (.inl ⟨by simp [c], rfl⟩)
        · exact .inr (.inr ⟨.inl (by simp), rfl⟩)
      · rintro y ⟨x, r, a, b, c, d, e, f⟩
        refine ⟨x, r, a, b, c, d, e, ?_⟩
        cases hq : (s.w i).quit
        · exact .inr (.inl ⟨by simp [c], rfl⟩)
        · exact .inr (.inr ⟨.inl (by simp), rfl⟩)
    · rw [set_self]; simp only; split <;> simp
  | asleep => simp only [hpc] at hs; cases hs
  | decided =>
    simp only [hpc] at hs
    cases hq : (s.w i).quit with
    | true =>
      simp only [hq, if_true] at hs
      cases hs
      refine ⟨?_, by simp, by rw [set_self]; simp⟩
      refine inv_set h (by simp [hq]) (fun _ => rfl) ?_ ?_ ?_ ?_
      · rintro ⟨a, b, c, d, e⟩
        exact ⟨a, b, c, d, .inr (.inr ⟨.inr rfl, rfl⟩)⟩
      · rintro (⟨x, a, b, c, d, e⟩ | ⟨x, r, a, b⟩)
        · exact .inl ⟨x, a, b, c, d, .inr (.inr (.inr ⟨rfl, rfl⟩))⟩
        · rw [hpc] at b; simp at b
      · rintro ⟨x, r, a, b, c, d, e⟩
        exact ⟨x, r, a, b, c, d, .inr (.inr ⟨.inr rfl, rfl⟩)⟩
      · rintro y ⟨x, r, a, b, c, d, e, f⟩
        exact ⟨x, r, a, b, c, d, e, .inr (.inr ⟨.inr rfl, rfl⟩)⟩
    | false =>
      simp only [hq, Bool.false_eq_true, if_false] at hs
      have nr : ¬ Rests (s.w i) := by
        rintro (e | ⟨e, _⟩ | ⟨_, e⟩)
        · rw [hpc] at e; cases e
        · rw [hpc] at e; cases e
        · rw [hq] at e; cases e
      rcases place h hi with hp | ⟨_, _, hp⟩ | hp | ⟨y, hp⟩
      · exact absurd hp.2.2.2.2 nr
      · rcases hp with ⟨x, a, b, c, d, e⟩ | ⟨x, r, a, b⟩
        · simp only [a] at hs
          cases hs
          refine ⟨?_, by simp, by rw [set_self]; simp⟩
          refine inv_set h (by simp [hq]) (by rw [hpc]; intro h; cases h) ?_ ?_ ?_ ?_
          · exact fun hp => absurd hp.2.2.2.2 nr
          · exact fun _ => .inl ⟨x, rfl, b, c, d, .inr (.inr (.inl rfl))⟩
          · rintro ⟨_, _, _, _, _, _, e⟩; exact absurd e nr
          · rintro _ ⟨_, _, _, _, _, _, _, e⟩; exact absurd e nr
        · rw [hpc] at b; simp at b
      · obtain ⟨_, _, _, _, _, _, e⟩ := hp; exact absurd e nr
      · obtain ⟨_, _, _, _, _, _, _, e⟩ := hp; exact absurd e nr
  | working x =>
    simp only [hpc] at hs
    cases hs
    have nr : ¬ Rests (s.w i) := by
      rintro (e | ⟨e, _⟩ | ⟨e | e, _⟩) <;> rw [hpc] at e <;> cases e
    refine ⟨?_, by simp, by rw [set_self]; simp⟩
    refine inv_set h rfl (by rw [hpc]; intro h; cases h) ?_ ?_ ?_ ?_
    · exact fun hp => absurd hp.2.2.2.2 nr
    · rintro (⟨y, a, b, c, d, e⟩ | ⟨y, r, a, b⟩)
      · have : y = x := by rw [hpc] at e; simp at e; exact e.symm
        subst this
        exact .inr ⟨y, r, ⟨(s.w i).worked, rfl, by simp [c], d⟩, .inl ⟨rfl, a, b⟩⟩
      · rw [hpc] at b; simp at b
    · rintro ⟨_, _, _, _, _, _, e⟩; exact absurd e nr
    · rintro _ ⟨_, _, _, _, _, _, _, e⟩; exact absurd e nr
  | result r' =>
    simp only [hpc] at hs
    cases hs
    have nr : ¬ Rests (s.w i) := by
      rintro (e | ⟨e, _⟩ | ⟨e | e, _⟩) <;> rw [hpc] at e <;> cases e
    refine ⟨?_, by simp, by rw [set_self]; simp⟩
    refine inv_set h rfl (by rw [hpc]; intro h; cases h) ?_ ?_ ?_ ?_
    · exact fun hp => absurd hp.2.2.2.2 nr
    · rintro (⟨y, a, b, c, d, e⟩ | ⟨y, r, a, b⟩)
      · rw [hpc] at e; simp at e
      · rw [hpc] at b; simp at b
        obtain ⟨rfl, b, c⟩ := b
        exact .inr ⟨y, r', a, .inr ⟨rfl, .inl ⟨rfl, b, c⟩⟩⟩
    · rintro ⟨_, _, _, _, _, _, e⟩; exact absurd e nr
    · rintro _ ⟨_, _, _, _, _, _, _, e⟩; exact absurd e nr
  | ret1 =>
    simp only [hpc] at hs
    cases hs
    have nr : ¬ Rests (s.w i) := by
      rintro (e | ⟨e, _⟩ | ⟨e | e, _⟩) <;> rw [hpc] at e <;> cases e
    refine ⟨?_, by simp, by rw [set_self]; simp⟩
    refine inv_set h rfl (by rw [hpc]; intro h; cases h) ?_ ?_ ?_ ?_
    · exact fun hp => absurd hp.2.2.2.2 nr
    · rintro (⟨y, a, b, c, d, e⟩ | ⟨y, r, a, b⟩)
      · rw [hpc] at e; simp at e
      · rw [hpc] at b; simp at b
        obtain ⟨b1, b, c⟩ := b
        exact .inr ⟨y, r, a, .inr ⟨b1, .inr (.inl ⟨rfl, b, b⟩)⟩⟩
    · rintro ⟨_, _, _, _, _, _, e⟩; exact absurd e nr
    · rintro _ ⟨_, _, _, _, _, _, _, e⟩; exact absurd e nr
  | ret2 =>
    simp only [hpc] at hs
    cases hs
    have nr : ¬ Rests (s.w i) := by
      rintro (e | ⟨e, _⟩ | ⟨e | e, _⟩) <;> rw [hpc] at e <;> cases e
    refine ⟨?_, by simp, by rw [set_self]; simp⟩
    refine inv_set h rfl (by rw [hpc]; intro h; cases h) ?_ ?_ ?_ ?_
    · exact fun hp => absurd hp.2.2.2.2 nr
    · rintro (⟨y, a, b, c, d, e⟩ | ⟨y, r, a, b⟩)
      · rw [hpc] at e; simp at e
      · rw [hpc] at b; simp at b
        obtain ⟨b1, b, c⟩ := b
        exact .inr ⟨y, r, a, .inr ⟨b1, .inr (.inr ⟨rfl, rfl, c⟩)⟩⟩
    · rintro ⟨_, _, _, _, _, _, e⟩; exact absurd e nr
    · rintro _ ⟨_, _, _, _, _, _, _, e⟩; exact absurd e nr
  | ret3 => exact absurd hpc h3
  | exited => simp only [hpc] at hs; cases hs
  | crashed => simp only [hpc] at hs; cases hs

theorem set_same (s : St) (i : Nat) : set s i (s.w i) = s := by
  unfold set
  congr
  funext k
  split
  · rename_i h; rw [h]
  · rfl

/-- A worker puts itself on the list of those that are done. -/
theorem inv_ret {jobs : Nat} {s : St} (h : Inv jobs s) {i : Nat} (hpc : (s.w i).pc = .ret3) (hi : i < jobs) :
    Inv jobs { set s i { s.w i with pc := .idle } with active := s.active.erase i, fin := i :: s.fin, main := if s.main = .asleep then .taking else s.main } := by
  have nr : ¬ Rests (s.w i) := by
    rintro (e | ⟨e, _⟩ | ⟨e | e, _⟩) <;> rw [hpc] at e <;> cases e
  obtain ⟨ha, hng, hp⟩ : i ∈ s.active ∧ (∀ x, s.main ≠ .giving i x) ∧ (Pre (s.w i) ∨ Post (s.w i)) := by
    rcases place h hi with hp | hp | hp | ⟨y, hp⟩
    · exact absurd hp.2.2.2.2 nr
    · exact hp
    · obtain ⟨_, _, _, _, _, _, e⟩ := hp; exact absurd e nr
    · obtain ⟨_, _, _, _, _, _, _, e⟩ := hp; exact absurd e nr
  have hd : Done { s.w i with pc := .idle } := by
    rcases hp with ⟨y, a, b, c, d, e⟩ | ⟨y, r, a, b⟩
    · rw [hpc] at e; simp at e
    · rw [hpc] at b; simp at b
      exact ⟨y, r, a, b.1, b.2.1, b.2.2, .inl rfl⟩
  have hnd := h.nodup
  have hperm : (s.active.erase i ++ (i :: s.fin) ++ s.free).Perm (s.active ++ s.fin ++ s.free) := by
    refine List.Perm.append_right _ ?_
    refine List.perm_middle.trans ?_
    exact List.Perm.append_right _ (List.perm_cons_erase ha).symm
  have hna : i ∉ s.active.erase i := fun hm => by
    have := (hperm.nodup_iff.2 hnd)
    rw [List.append_assoc] at this
    exact (List.nodup_append.1 this).2.2 i hm i (by simp) rfl
  have hnf : i ∉ s.free := fun hm => (List.nodup_append.1 hnd).2.2 i (by simp [ha]) i hm rfl
  have hnfin : i ∉ s.fin := fun hm => (List.nodup_append.1 (List.nodup_append.1 hnd).1).2.2 i ha i hm rfl
  have hm : ∀ {m : Main}, m ≠ .taking → ((if s.main = .asleep then .taking else s.main) = m ↔ s.main = m ∧ m ≠ .asleep) := by
    intro m hm
    by_cases e : s.main = .asleep
    · rw [if_pos e, e]
      exact ⟨fun h => absurd h.symm hm, fun h => absurd h.1.symm h.2⟩
    · rw [if_neg e]
      exact ⟨fun h => ⟨h, fun h' => e (h.trans h')⟩, fun h => h.1⟩
  have hqk : ∀ k, ((set s i { s.w i with pc := .idle }).w k).quit = (s.w k).quit := by
    intro k
    by_cases e : k = i
    · subst e; rw [set_self]
    · rw [set_ne _ _ e]
  refine { nodup := hperm.nodup_iff.2 hnd, mem := fun k => (hperm.mem_iff).trans (h.mem k), giving := ?_, took := ?_, active := ?_, fin := ?_, free := ?_, quit := ?_, all := ?_, told := ?_, asleep := ?_, left := ?_, gone := ?_, count := ?_, avail := ?_, busy := (by simp), up := ?_ }
  · intro k x hk
    have hk := ((hm (by intro h; cases h)).1 hk).1
    have hki : k ≠ i := fun e => hng x (e ▸ hk)
    have := h.giving k x hk
    exact ⟨(List.mem_erase_of_ne hki).2 this.1, by rw [set_ne _ _ hki]; exact this.2⟩
  · intro k y hk
    have hk := ((hm (by intro h; cases h)).1 hk).1
    have := h.took k y hk
    have hki : k ≠ i := fun e => hnf (e ▸ this.1)
    exact ⟨this.1, by rw [set_ne _ _ hki]; exact this.2⟩
  · intro k hk hn
    have hki : k ≠ i := fun e => hna (e ▸ hk)
    show Pre ((set s i _).w k) ∨ Post ((set s i _).w k)
    rw [set_ne _ _ hki]
    exact h.active k (List.mem_of_mem_erase hk) (fun x hx => hn x ((hm (by intro h; cases h)).2 ⟨hx, by intro h; cases h⟩))
  · intro k hk
    rcases List.mem_cons.1 hk with rfl | hk
    · show Done ((set s k _).w k)
      rw [set_self]; exact hd
    · have hki : k ≠ i := fun e => hnfin (e ▸ hk)
      show Done ((set s i _).w k)
      rw [set_ne _ _ hki]; exact h.fin k hk
  · intro k hk hn
    have hki : k ≠ i := fun e => hnf (e ▸ hk)
    show Quiet ((set s i _).w k)
    rw [set_ne _ _ hki]
    exact h.free k hk (fun x hx => hn x ((hm (by intro h; cases h)).2 ⟨hx, by intro h; cases h⟩))
  · intro k hk
    have hk : ((set s i { s.w i with pc := .idle }).w k).quit = true := hk
    rw [hqk] at hk
    rcases h.quit k hk with ⟨j, h1, h2⟩ | ⟨j, h1⟩ | h1
    · exact .inl ⟨j, (hm (by intro h; cases h)).2 ⟨h1, by intro h; cases h⟩, h2⟩
    · exact .inr (.inl ⟨j, (hm (by intro h; cases h)).2 ⟨h1, by intro h; cases h⟩⟩)
    · exact .inr (.inr ((hm (by intro h; cases h)).2 ⟨h1, by intro h; cases h⟩))
  · intro hj k hk
    show ((set s i { s.w i with pc := .idle }).w k).quit = true
    rw [hqk]
    refine h.all ?_ k hk
    rcases hj with ⟨j, hj⟩ | hj
    · exact .inl ⟨j, ((hm (by intro h; cases h)).1 hj).1⟩
    · exact .inr ((hm (by intro h; cases h)).1 hj).1
  · intro j hj k hk hlt
    show ((set s i { s.w i with pc := .idle }).w k).quit = true
    rw [hqk]
    exact h.told j ((hm (by intro h; cases h)).1 hj).1 k hk hlt
  · intro hj
    exact absurd rfl ((hm (by intro h; cases h)).1 hj).2
  · intro j hj k hk hlt
    have := h.left j ((hm (by intro h; cases h)).1 hj).1 k hk hlt
    have hki : k ≠ i := by rintro rfl; rw [hpc] at this; cases this
    show ((set s i _).w k).pc = .exited
    rw [set_ne _ _ hki]; exact this
  · intro hj k hk
    have := h.gone ((hm (by intro h; cases h)).1 hj).1 k hk
    have hki : k ≠ i := by rintro rfl; rw [hpc] at this; cases this
    show ((set s i _).w k).pc = .exited
    rw [set_ne _ _ hki]; exact this
  · have := List.length_pos_of_mem ha
    show s.count = (s.active.erase i).length + (s.fin.length + 1)
    rw [h.count, List.length_erase_of_mem ha]; omega
  · intro hj
    exact h.avail ((hm (by intro h; cases h)).1 hj).1
  · intro hj
    exact h.up ((hm (by intro h; cases h)).1 hj).1

theorem inv_main {jobs : Nat} (hj : 0 < jobs) {s : St} (h : Inv jobs s) {c : Wish} {s' : St} (hs : mainStep jobs s c = some s') : Inv jobs s' := by
  unfold mainStep at hs
  have noquit : (∀ k, s.main ≠ .quitting k) → (∀ k, s.main ≠ .joining k) → s.main ≠ .finished → ∀ i, (s.w i).quit = false := by
    intro h1 h2 h3 i
    cases hq : (s.w i).quit with
    | false => rfl
    | true =>
      rcases h.quit i hq with ⟨k, hk, _⟩ | ⟨k, hk⟩ | hk
      · exact absurd hk (h1 k)
      · exact absurd hk (h2 k)
      · exact absurd hk h3
  cases hm : s.main with
  | ready =>
    have nq := noquit (by simp [hm]) (by simp [hm]) (by simp [hm])
    simp only [hm] at hs
    cases c with
    | give x =>
      simp only at hs
      cases hf : s.free with
      | nil => simp only [hf] at hs; exact absurd hf (h.avail hm)
      | cons i l =>
        simp only [hf] at hs
        cases hs
        have hperm : (i :: s.active ++ s.fin ++ l).Perm (s.active ++ s.fin ++ s.free) := by
          rw [hf]
          exact (List.perm_middle (a := i) (l₁ := s.active ++ s.fin) (l₂ := l)).symm
        have hq : Quiet (s.w i) := h.free i (by simp [hf]) (by simp [hm])
        refine { nodup := hperm.nodup_iff.2 h.nodup, mem := fun k => (hperm.mem_iff).trans (h.mem k), giving := ?_, took := (by simp), active := ?_, fin := h.fin, free := ?_, quit := ?_, all := (by simp), told := (by simp), asleep := (by simp), left := (by simp), gone := (by simp), count := (by simp [h.count]; omega), avail := (by simp), busy := (by simp), up := (by simp) }
        · intro k y hk
          cases hk
          exact ⟨by simp, hq⟩
        · intro k hk hn
          rcases List.mem_cons.1 hk with rfl | hk
          · exact absurd rfl (hn x)
          · exact h.active k hk (by simp [hm])
        · intro k hk _
          exact h.free k (by rw [hf]; exact List.mem_cons_of_mem _ hk) (by simp [hm])
        · intro k hk
          have : (s.w k).quit = true := hk
          rw [nq k] at this; cases this
    | skip =>
      cases hs
      refine { nodup := h.nodup, mem := h.mem, giving := (by simp), took := (by simp), active := fun k hk _ => h.active k hk (by simp [hm]), fin := h.fin, free := fun k hk _ => h.free k hk (by simp [hm]), quit := ?_, all := (by simp), told := (by simp), asleep := (by simp), left := (by simp), gone := (by simp), count := h.count, avail := (by simp), busy := (by simp), up := (by simp) }
      intro k hk
      have : (s.w k).quit = true := hk
      rw [nq k] at this; cases this
    | quit =>
      cases hs
      refine { nodup := h.nodup, mem := h.mem, giving := (by simp), took := (by simp), active := fun k hk _ => h.active k hk (by simp [hm]), fin := h.fin, free := fun k hk _ => h.free k hk (by simp [hm]), quit := ?_, all := (by simp), told := ?_, asleep := (by simp), left := (by simp), gone := (by simp), count := h.count, avail := (by simp), busy := (by simp), up := (by simp) }
      · intro k hk
        have : (s.w k).quit = true := hk
        rw [nq k] at this; cases this
      · intro k hk i _ hik
        cases hk; omega
  | giving i x =>
    have nq := noquit (by simp [hm]) (by simp [hm]) (by simp [hm])
    simp only [hm] at hs
    cases hs
    obtain ⟨ha, hq⟩ := h.giving i x hm
    have hnd := h.nodup
    have hnf : i ∉ s.free := fun hm => (List.nodup_append.1 hnd).2.2 i (by simp [ha]) i hm rfl
    have hnfin : i ∉ s.fin := fun hm => (List.nodup_append.1 (List.nodup_append.1 hnd).1).2.2 i ha i hm rfl
    refine { nodup := h.nodup, mem := h.mem, giving := (by simp), took := (by simp), active := ?_, fin := ?_, free := ?_, quit := ?_, all := (by simp), told := (by simp), asleep := (by simp), left := (by simp), gone := (by simp), count := h.count, avail := (by simp), busy := (by simp), up := (by simp) }
    · intro k hk _
      by_cases e : k = i
      · subst e
        show Pre ((set s k _).w k) ∨ _
        rw [set_self]; exact .inl (signal_quiet hq (nq k))
      · show Pre ((set s i _).w k) ∨ Post ((set s i _).w k)
        rw [set_ne _ _ e]
        refine h.active k hk (fun y hy => ?_)
        rw [hm] at hy; cases hy; exact e rfl
    · intro k hk
      have e : k ≠ i := fun e => hnfin (e ▸ hk)
      show Done ((set s i _).w k)
      rw [set_ne _ _ e]; exact h.fin k hk
    · intro k hk _
      have e : k ≠ i := fun e => hnf (e ▸ hk)
      show Quiet ((set s i _).w k)
      rw [set_ne _ _ e]; exact h.free k hk (by simp [hm])
    · intro k hk
      by_cases e : k = i
      · subst e
        have hk : ((set s k (signal { s.w k with n := some x, rc := false, given := (s.w k).given ++ [x] })).w k).quit = true := hk
        rw [set_self] at hk
        have hq' : (s.w k).quit = true := by
          unfold signal at hk
          split at hk <;> exact hk
        rw [nq k] at hq'; cases hq'
      · have hk : ((set s i (signal { s.w i with n := some x, rc := false, given := (s.w i).given ++ [x] })).w k).quit = true := hk
        rw [set_ne _ _ e, nq k] at hk; cases hk
  | check =>
    have nq := noquit (by simp [hm]) (by simp [hm]) (by simp [hm])
    simp only [hm] at hs
    have hq : ∀ {P : Nat → Prop} k, (s.w k).quit = true → P k := by
      intro P k hk; rw [nq k] at hk; cases hk
    split at hs
    · rename_i hb
      cases hs
      refine { nodup := h.nodup, mem := h.mem, giving := (by simp), took := (by simp), active := fun k hk _ => h.active k hk (by simp [hm]), fin := h.fin, free := fun k hk _ => h.free k hk (by simp [hm]), quit := fun k hk => hq (P := fun _ => _) k hk, all := (by simp), told := (by simp), asleep := (by simp), left := (by simp), gone := (by simp), count := h.count, avail := (by simp), busy := ?_, up := (by simp) }
      intro _ he
      have he : s.active ++ s.fin = [] := he
      rcases hb with hb | ⟨_, hb⟩
      · have := (h.mem 0).2 hj
        rw [he, hb] at this; cases this
      · rw [h.count] at hb
        simp at he
        simp [he] at hb
    · rename_i hb
      cases hs
      exact { nodup := h.nodup, mem := h.mem, giving := (by simp), took := (by simp), active := fun k hk _ => h.active k hk (by simp [hm]), fin := h.fin, free := fun k hk _ => h.free k hk (by simp [hm]), quit := fun k hk => hq (P := fun _ => _) k hk, all := (by simp), told := (by simp), asleep := (by simp), left := (by simp), gone := (by simp), count := h.count, avail := fun _ e => hb (.inl e), busy := (by simp), up := (by simp) }
  | taking =>
    have nq := noquit (by simp [hm]) (by simp [hm]) (by simp [hm])
    simp only [hm] at hs
    cases hf : s.fin with
    | nil =>
      simp only [hf] at hs
      cases hs
      refine { nodup := hf ▸ h.nodup, mem := hf ▸ h.mem, giving := (by simp), took := (by simp), active := fun k hk _ => h.active k hk (by simp [hm]), fin := (by simp), free := fun k hk _ => h.free k hk (by simp [hm]), quit := ?_, all := (by simp), told := (by simp), asleep := fun _ => rfl, left := (by simp), gone := (by simp), count := (by simp [h.count, hf]), avail := (by simp), busy := (by have := h.busy (.inl hm); rw [hf] at this; simpa using this), up := (by simp) }
      intro k hk
      have : (s.w k).quit = true := hk
      rw [nq k] at this; cases this
    | cons i l =>
      simp only [hf] at hs
      cases hs
      have hperm : (s.active ++ l ++ i :: s.free).Perm (s.active ++ s.fin ++ s.free) := by
        rw [hf]
        refine List.perm_middle.trans ?_
        refine ((List.perm_middle (a := i) (l₁ := s.active) (l₂ := l)).append_right s.free).symm.trans ?_ |>.trans (List.Perm.refl _)
        exact List.Perm.refl _
      have hd := h.fin i (by simp [hf])
      have hnd := h.nodup
      rw [hf] at hnd
      have hna : i ∉ s.active := fun hm => (List.nodup_append.1 (List.nodup_append.1 hnd).1).2.2 i hm i (by simp) rfl
      have hnl : i ∉ l := (List.nodup_cons.1 (List.nodup_append.1 (List.nodup_append.1 hnd).1).2.1).1
      have hnf : i ∉ s.free := fun hm => (List.nodup_append.1 hnd).2.2 i (by simp) i hm rfl
      refine { nodup := hperm.nodup_iff.2 h.nodup, mem := fun k => (hperm.mem_iff).trans (h.mem k), giving := (by simp), took := ?_, active := ?_, fin := ?_, free := ?_, quit := ?_, all := (by simp), told := (by simp), asleep := (by simp), left := (by simp), gone := (by simp), count := (by show s.count - 1 = s.active.length + l.length; rw [h.count, hf, List.length_cons]; omega), avail := (by simp), busy := (by simp), up := (by simp) }
      · intro k y hk
        cases hk
        refine ⟨by simp, ?_⟩
        show Took ((set s i _).w i) _
        rw [set_self]
        obtain ⟨x, r, a, b, c, d, e⟩ := hd
        exact ⟨x, r, a, b, c, rfl, d, e⟩
      · intro k hk _
        have e : k ≠ i := fun e => hna (e ▸ hk)
        show Pre ((set s i _).w k) ∨ Post ((set s i _).w k)
        rw [set_ne _ _ e]; exact h.active k hk (by simp [hm])
      · intro k hk
        have e : k ≠ i := fun e => hnl (e ▸ hk)
        show Done ((set s i _).w k)
        rw [set_ne _ _ e]; exact h.fin k (by rw [hf]; exact List.mem_cons_of_mem _ hk)
      · intro k hk hn
        rcases List.mem_cons.1 hk with rfl | hk
        · exact absurd rfl (hn _)
        · have e : k ≠ i := fun e => hnf (e ▸ hk)
          show Quiet ((set s i _).w k)
          rw [set_ne _ _ e]; exact h.free k hk (by simp [hm])
      · intro k hk
        have hk : ((set s i { s.w i with retn := none }).w k).quit = true := hk
        have : (s.w k).quit = true := by
          by_cases e : k = i
          · subst e; rw [set_self] at hk; exact hk
          · rw [set_ne _ _ e] at hk; exact hk
        rw [nq k] at this; cases this
  | asleep => simp only [hm] at hs; cases hs
  | took i y =>
    have nq := noquit (by simp [hm]) (by simp [hm]) (by simp [hm])
    simp only [hm] at hs
    cases hs
    obtain ⟨hfr, ht⟩ := h.took i y hm
    have hnd := h.nodup
    have hna : i ∉ s.active := fun hm => (List.nodup_append.1 hnd).2.2 i (by simp [hm]) i hfr rfl
    have hnl : i ∉ s.fin := fun hm => (List.nodup_append.1 hnd).2.2 i (by simp [hm]) i hfr rfl
    refine { nodup := h.nodup, mem := h.mem, giving := (by simp), took := (by simp), active := ?_, fin := ?_, free := ?_, quit := ?_, all := (by simp), told := (by simp), asleep := (by simp), left := (by simp), gone := (by simp), count := h.count, avail := (by simp), busy := (by simp), up := (by simp) }
    · intro k hk _
      have e : k ≠ i := fun e => hna (e ▸ hk)
      show Pre ((set s i _).w k) ∨ Post ((set s i _).w k)
      rw [set_ne _ _ e]; exact h.active k hk (by simp [hm])
    · intro k hk
      have e : k ≠ i := fun e => hnl (e ▸ hk)
      show Done ((set s i _).w k)
      rw [set_ne _ _ e]; exact h.fin k hk
    · intro k hk _
      by_cases e : k = i
      · subst e
        show Quiet ((set s k _).w k)
        rw [set_self]
        obtain ⟨x, r, ⟨l, a1, a2, a3⟩, b, c, d, e, f⟩ := ht
        refine ⟨c, d, a2, ?_, f⟩
        simp only [a1, a3, b, e, List.map_append, List.map_cons, List.map_nil, back]
      · show Quiet ((set s i _).w k)
        rw [set_ne _ _ e]
        refine h.free k hk (fun z hz => ?_)
        rw [hm] at hz; cases hz; exact e rfl
    · intro k hk
      have hk : ((set s i { s.w i with taken := (s.w i).taken ++ [(y, (s.w i).rc)] }).w k).quit = true := hk
      have : (s.w k).quit = true := by
        by_cases e : k = i
        · subst e; rw [set_self] at hk; exact hk
        · rw [set_ne _ _ e] at hk; exact hk
      rw [nq k] at this; cases this
  | quitting j =>
    simp only [hm] at hs
    split at hs
    · rename_i hj
      cases hs
      have keep : ∀ {P : Worker → Prop}, (∀ q, P q → P (signal { q with quit := true })) → ∀ k, P (s.w k) →
          P ((set s j (signal { s.w j with quit := true })).w k) := by
        intro P hP k h
        by_cases e : k = j
        · subst e; rw [set_self]; exact hP _ h
        · rw [set_ne _ _ e]; exact h
      refine { nodup := h.nodup, mem := h.mem, giving := (by simp), took := (by simp), active := ?_, fin := ?_, free := ?_, quit := ?_, all := (by simp), told := ?_, asleep := (by simp), left := (by simp), gone := (by simp), count := h.count, avail := (by simp), busy := (by simp), up := (by simp) }
      · intro k hk _
        exact keep (P := fun q => Pre q ∨ Post q) (fun q hq => hq.imp pre_signal post_signal) k (h.active k hk (by simp [hm]))
      · exact fun k hk => keep (fun q => done_signal) k (h.fin k hk)
      · exact fun k hk _ => keep (fun q => quiet_signal) k (h.free k hk (by simp [hm]))
      · intro k hk
        refine .inl ⟨j + 1, rfl, ?_⟩
        by_cases e : k = j
        · omega
        · have hk : ((set s j (signal { s.w j with quit := true })).w k).quit = true := hk
          rw [set_ne _ _ e] at hk
          rcases h.quit k hk with ⟨m, h1, h2⟩ | ⟨m, h1⟩ | h1
          · rw [hm] at h1; cases h1; omega
          · rw [hm] at h1; cases h1
          · rw [hm] at h1; cases h1
      · intro m hm' k hk hlt
        cases hm'
        by_cases e : k = j
        · subst e
          show ((set s k _).w k).quit = true
          rw [set_self]; exact signal_quit _
        · exact keep (P := fun q => q.quit = true) (fun q _ => signal_quit q) k (h.told j hm k hk (by omega))
    · rename_i hj
      cases hs
      refine { nodup := h.nodup, mem := h.mem, giving := (by simp), took := (by simp), active := fun k hk _ => h.active k hk (by simp [hm]), fin := h.fin, free := fun k hk _ => h.free k hk (by simp [hm]), quit := fun _ _ => .inr (.inl ⟨0, rfl⟩), all := fun _ k hk => h.told j hm k hk (by omega), told := (by simp), asleep := (by simp), left := ?_, gone := (by simp), count := h.count, avail := (by simp), busy := (by simp), up := (by simp) }
      intro m hm' k hk hlt
      cases hm'; omega
  | joining j =>
    simp only [hm] at hs
    split at hs
    · rename_i hj
      split at hs
      · rename_i hx
        cases hs
        refine { nodup := h.nodup, mem := h.mem, giving := (by simp), took := (by simp), active := fun k hk _ => h.active k hk (by simp [hm]), fin := h.fin, free := fun k hk _ => h.free k hk (by simp [hm]), quit := fun _ _ => .inr (.inl ⟨_, rfl⟩), all := fun _ => h.all (.inl ⟨_, hm⟩), told := (by simp), asleep := (by simp), left := ?_, gone := (by simp), count := h.count, avail := (by simp), busy := (by simp), up := (by simp) }
        intro m hm' k hk hlt
        cases hm'
        by_cases e : k = j
        · subst e; exact hx
        · exact h.left j hm k hk (by omega)
      · cases hs
    · rename_i hj
      cases hs
      exact { nodup := h.nodup, mem := h.mem, giving := (by simp), took := (by simp), active := fun k hk _ => h.active k hk (by simp [hm]), fin := h.fin, free := fun k hk _ => h.free k hk (by simp [hm]), quit := fun _ _ => .inr (.inr rfl), all := fun _ => h.all (.inl ⟨_, hm⟩), told := (by simp), asleep := (by simp), left := (by simp), gone := fun _ k hk => h.left j hm k hk (by omega), count := h.count, avail := (by simp), busy := (by simp), up := (by simp) }
  | finished => simp only [hm] at hs; cases hs
  | crashed => simp only [hm] at hs; cases hs

theorem inv_step {jobs : Nat} (hj : 0 < jobs) {s : St} (h : Inv jobs s) {o : Op} {s' : St} (hs : step jobs s o = some s') : Inv jobs s' := by
  cases o with
  | main c => exact inv_main hj h hs
  | worker i r =>
    simp only [step] at hs
    split at hs
    · rename_i hi
      by_cases h3 : (s.w i).pc = .ret3
      · unfold workerStep at hs
        simp only [h3] at hs
        cases hs
        exact inv_ret h h3 hi
      · exact (inv_local h hs h3 hi).1
    · cases hs
  | wake i =>
    simp only [step] at hs
    split at hs
    · rename_i hp
      obtain ⟨_, hp⟩ := hp
      cases hs
      refine inv_set h rfl (by rw [hp]; intro h; cases h) ?_ ?_ ?_ ?_
      · rintro ⟨a, b, c, d, e⟩; exact ⟨a, b, c, d, .inl rfl⟩
      · rintro (⟨x, a, b, c, d, e⟩ | ⟨x, r, a, b⟩)
        · rw [hp] at e; simp at e
        · rw [hp] at b; simp at b
      · rintro ⟨x, r, a, b, c, d, e⟩; exact ⟨x, r, a, b, c, d, .inl rfl⟩
      · rintro y ⟨x, r, a, b, c, d, e, f⟩; exact ⟨x, r, a, b, c, d, e, .inl rfl⟩
    · cases hs
  | wakeMain =>
    simp only [step] at hs
    split at hs
    · rename_i hm
      cases hs
      refine { nodup := h.nodup, mem := h.mem, giving := (by simp), took := (by simp), active := fun k hk _ => h.active k hk (by simp [hm]), fin := h.fin, free := fun k hk _ => h.free k hk (by simp [hm]), quit := ?_, all := (by simp), told := (by simp), asleep := (by simp), left := (by simp), gone := (by simp), count := h.count, avail := (by simp), busy := fun _ => h.busy (.inr hm), up := (by simp) }
      intro k hk
      rcases h.quit k hk with ⟨m, h1, _⟩ | ⟨m, h1⟩ | h1 <;> rw [hm] at h1 <;> cases h1
    · cases hs

theorem inv_run {jobs : Nat} (hj : 0 < jobs) {s s' : St} {l : List Op} (h : Inv jobs s) (hr : run jobs s l = some s') : Inv jobs s' := by
  induction l generalizing s with
  | nil => cases hr; exact h
  | cons o l ih =>
    simp only [run] at hr
    cases hs : step jobs s o with
    | none => rw [hs] at hr; cases hr
    | some s1 =>
      rw [hs] at hr
      exact ih (inv_step hj h hs) hr

/-- How many steps a worker can take on its own. -/
def rank (q : Worker) : Nat :=
  match q.pc with
  | .idle => if q.quit then 2 else if q.n = none then 1 else 10
  | .decided => if q.quit then 1 else 9
  | .working _ => 8
  | .result _ => 7
  | .ret1 => 6
  | .ret2 => 5
  | .ret3 => 4
  | .asleep => 0
  | .exited => 0
  | .crashed => 0

def total (jobs : Nat) (s : St) : Nat := ((List.range jobs).map (fun i => rank (s.w i))).sum

theorem rank_le (q : Worker) : rank q ≤ 10 := by
  unfold rank
  split <;> (repeat' split) <;> omega

theorem sum_le (f : Nat → Nat) (b n : Nat) (h : ∀ i, f i ≤ b) : ((List.range n).map f).sum ≤ b * n := by
  induction n with
  | zero => simp
  | succ n ih =>
    simp only [List.range_succ, List.map_append, List.sum_append, List.map_cons, List.map_nil, List.sum_cons, List.sum_nil]
    have := h n
    rw [Nat.mul_succ]; omega

theorem sum_eq {f g : Nat → Nat} {n : Nat} (h : ∀ k < n, g k = f k) : ((List.range n).map g).sum = ((List.range n).map f).sum := by
  congr 1
  apply List.map_congr_left
  intro k hk
  exact h k (List.mem_range.1 hk)

theorem sum_lt {f g : Nat → Nat} {n i : Nat} (hi : i < n) (h1 : g i < f i) (h2 : ∀ k, k ≠ i → g k = f k) :
    ((List.range n).map g).sum < ((List.range n).map f).sum := by
  induction n with
  | zero => omega
  | succ n ih =>
    simp only [List.range_succ, List.map_append, List.sum_append, List.map_cons, List.map_nil, List.sum_cons, List.sum_nil]
    by_cases e : i = n
    · subst e
      have := sum_eq (f := f) (g := g) (n := i) (fun k hk => h2 k (by omega))
      omega
    · have := ih (by omega)
      have := h2 n (fun h => e h.symm)
      omega

theorem total_lt {jobs : Nat} {s : St} (h : Inv jobs s) {i : Nat} {r : Bool} {s' : St} (hi : i < jobs) (hs : workerStep s i r = some s') : total jobs s' < total jobs s := by
  have key : ∀ q, rank q < rank (s.w i) → s'.w = (set s i q).w → total jobs s' < total jobs s := by
    intro q hq e
    unfold total
    rw [e]
    refine sum_lt hi ?_ ?_
    · show rank ((set s i q).w i) < _
      rw [set_self]; exact hq
    · intro k hk
      show rank ((set s i q).w k) = _
      rw [set_ne _ _ hk]
  unfold workerStep at hs
  cases hpc : (s.w i).pc with
  | idle =>
    simp only [hpc] at hs
    cases hs
    refine key _ ?_ rfl
    cases hq : (s.w i).quit <;> cases hn : (s.w i).n <;> simp [rank, hpc, hq, hn]
  | asleep => simp only [hpc] at hs; cases hs
  | decided =>
    simp only [hpc] at hs
    split at hs
    · rename_i hq
      cases hs
      exact key _ (by simp [rank, hpc, hq]) rfl
    · rename_i hq
      split at hs
      · cases hs
        exact key _ (by simp [rank, hpc, hq]) rfl
      · cases hs
        exact key _ (by simp [rank, hpc, hq]) rfl
  | working x => simp only [hpc] at hs; cases hs; exact key _ (by simp [rank, hpc]) rfl
  | result x => simp only [hpc] at hs; cases hs; exact key _ (by simp [rank, hpc]) rfl
  | ret1 => simp only [hpc] at hs; cases hs; exact key _ (by simp [rank, hpc]) rfl
  | ret2 => simp only [hpc] at hs; cases hs; exact key _ (by simp [rank, hpc]) rfl
  | ret3 =>
    have hn : (s.w i).n = none := by
      rcases place h hi with hp | ⟨_, _, ⟨y, a, b, c, d, e⟩ | ⟨y, r, a, b⟩⟩ | hp | ⟨y, hp⟩
      · exact hp.1
      · rw [hpc] at e; simp at e
      · rw [hpc] at b; simp at b; exact b.2.1
      · obtain ⟨_, _, _, _, e, _⟩ := hp; exact e
      · obtain ⟨_, _, _, _, e, _⟩ := hp; exact e
    simp only [hpc] at hs; cases hs
    refine key _ ?_ rfl
    simp only [rank, hpc, hn]
    split <;> simp
  | exited => simp only [hpc] at hs; cases hs
  | crashed => simp only [hpc] at hs; cases hs

theorem not_crashed {jobs : Nat} {s : St} (h : Inv jobs s) {i : Nat} (hi : i < jobs) : (s.w i).pc ≠ .crashed := by
  intro hpc
  have nr : ¬ Rests (s.w i) := by
    rintro (e | ⟨e, _⟩ | ⟨e | e, _⟩) <;> rw [hpc] at e <;> cases e
  rcases place h hi with hp | ⟨_, _, ⟨y, a, b, c, d, e⟩ | ⟨y, r, a, b⟩⟩ | hp | ⟨y, hp⟩
  · exact nr hp.2.2.2.2
  · rw [hpc] at e; simp at e
  · rw [hpc] at b; simp at b
  · obtain ⟨_, _, _, _, _, _, e⟩ := hp; exact nr e
  · obtain ⟨_, _, _, _, _, _, _, e⟩ := hp; exact nr e

/-- A worker that sleeps has nothing to do. -/
theorem asleep_idle {jobs : Nat} {s : St} (h : Inv jobs s) {i : Nat} (hi : i < jobs) (hpc : (s.w i).pc = .asleep) : (s.w i).n = none ∧ (s.w i).quit = false := by
  have nr : Rests (s.w i) → (s.w i).quit = false := by
    rintro (e | ⟨_, e⟩ | ⟨e | e, _⟩)
    · rw [hpc] at e; cases e
    · exact e
    · rw [hpc] at e; cases e
    · rw [hpc] at e; cases e
  rcases place h hi with hp | ⟨_, _, ⟨y, a, b, c, d, e⟩ | ⟨y, r, a, b⟩⟩ | hp | ⟨y, hp⟩
  · exact ⟨hp.1, nr hp.2.2.2.2⟩
  · rw [hpc] at e; simp at e
  · rw [hpc] at b; simp at b
  · obtain ⟨_, _, _, _, e1, _, e⟩ := hp; exact ⟨e1, nr e⟩
  · obtain ⟨_, _, _, _, e1, _, _, e⟩ := hp; exact ⟨e1, nr e⟩

/-- A worker that neither sleeps nor has ended can go on. -/
theorem can_step {jobs : Nat} {s : St} (h : Inv jobs s) {i : Nat} (hi : i < jobs) (h1 : (s.w i).pc ≠ .asleep) (h2 : (s.w i).pc ≠ .exited) (r : Bool) :
    (step jobs s (.worker i r)).isSome := by
  have h3 := not_crashed h hi
  simp only [step, if_pos hi, workerStep]
  cases hpc : (s.w i).pc <;> simp_all
  split
  · rfl
  · split <;> rfl

end Tup.Workers
