import Verif.AutoUpdate.Wait

namespace Tup.AutoUpdate

variable {mod : Nat → Bool} {s s' t : State} {a : Act} {l l' : List Act}

theorem run_cons (h : step mod s a = some t) : run mod s (a :: l) = run mod t l := by simp only [run, h]

theorem run_append (h : run mod s l = some t) : run mod s (l ++ l') = run mod t l' := by
  induction l generalizing s with
  | nil => cases h; rfl
  | cons a l ih =>
    simp only [run] at h
    split at h
    · rename_i u hu
      rw [List.cons_append, run_cons hu]
      exact ih h
    · cases h

/-- Only a `tup flush` that is on its way out tries again. -/
def Tries (s : State) : Prop :=
  ∀ p, s.again p = true → s.kind p = .flush ∧ (s.stage p = .closing ∨ s.stage p = .wantTri ∨ s.stage p = .unSh)

theorem tries_step (h : Tries s) (hs : step mod s a = some s') : Tries s' := by
  have hnew : ∀ (k : Kind) (x : Stage) (p : Nat), upd s.again s.next false p = true → upd s.kind s.next k p = .flush ∧
      (upd s.stage s.next x p = .closing ∨ upd s.stage s.next x p = .wantTri ∨ upd s.stage s.next x p = .unSh) := by
    intro k x p hp
    by_cases hq : p = s.next
    · rw [hq, upd_same] at hp; cases hp
    · rw [upd_other s.again _ hq] at hp
      rw [upd_other s.kind _ hq, upd_other s.stage _ hq]
      exact h p hp
  have hfl : ∀ (b : Bool) (u : State), u.again = s.again → u.kind = s.kind → u.stage = s.stage → u.next = s.next → Tries (flushQueue mod b u) := by
    intro b u h1 h2 h3 h4
    rcases flushQueue_cases mod b u with ⟨_, e, _, _⟩ | ⟨_, _, e⟩ <;> rw [e]
    · intro p hp
      show u.kind p = _ ∧ (u.stage p = _ ∨ u.stage p = _ ∨ u.stage p = _)
      rw [h2, h3]
      exact h p (by rw [← h1]; exact hp)
    · intro p hp
      show upd u.kind u.next .auto p = _ ∧ (upd u.stage u.next .wantSh p = _ ∨ upd u.stage u.next .wantSh p = _ ∨ upd u.stage u.next .wantSh p = _)
      have hp' : upd u.again u.next false p = true := hp
      rw [h1, h4] at hp'
      rw [h2, h3, h4]
      exact hnew _ _ p hp'
  cases a with
  | change => cases hs; exact h
  | read =>
    simp only [step, read] at hs
    split at hs
    · cases hs
    · cases hs; exact h
    · split at hs
      · rename_i k _ _
        cases hs
        exact hfl (decide (s.pid = none)) { s with kernel := k } rfl rfl rfl rfl
      · cases hs; exact h
    · split at hs
      · cases hs; exact h
      · split at hs
        · cases hs; exact h
        · cases hs
  | timeout =>
    simp only [step] at hs
    split at hs
    · cases hs; exact hfl true s rfl rfl rfl rfl
    · cases hs
  | launch f => cases hs; exact hnew _ _
  | go q =>
    have key : ∀ {x : Stage} {u : State}, u.again = s.again → u.kind = s.kind → u.stage = upd s.stage q x →
        ((s.stage q = .closing ∨ s.stage q = .wantTri ∨ s.stage q = .unSh) → (x = .closing ∨ x = .wantTri ∨ x = .unSh)) → Tries u := by
      intro x u e1 e2 e3 hx p hp
      rw [e1] at hp
      obtain ⟨h1, h2⟩ := h p hp
      rw [e2, e3]
      refine ⟨h1, ?_⟩
      unfold upd
      split
      · rename_i e; subst e; exact hx h2
      · exact h2
    simp only [step, go] at hs
    split at hs
    · rename_i e
      split at hs
      · cases hs; exact key rfl rfl rfl (fun x => by rw [e] at x; simp at x)
      · cases hs
    · rename_i e
      cases hs; exact key rfl rfl rfl (fun x => by rw [e] at x; simp at x)
    · rename_i e
      split at hs
      · cases hs; exact key rfl rfl rfl (fun x => by rw [e] at x; simp at x)
      · cases hs
    · rename_i e
      split at hs
      · cases hs; exact key rfl rfl rfl (fun x => by rw [e] at x; simp at x)
      · rename_i hk
        split at hs
        · cases hs; exact key rfl rfl rfl (fun x => by rw [e] at x; simp at x)
        · cases hs
          intro p hp
          by_cases hq : p = q
          · rw [hq]; exact ⟨hk, .inl (upd_same _ _ _)⟩
          · have := h p ((upd_other s.again _ hq).symm.trans hp)
            refine ⟨this.1, ?_⟩
            show upd s.stage q .closing p = _ ∨ upd s.stage q .closing p = _ ∨ upd s.stage q .closing p = _
            rw [upd_other s.stage _ hq]; exact this.2
      · cases hs; exact key rfl rfl rfl (fun x => by rw [e] at x; simp at x)
    · cases hs; exact key rfl rfl rfl (fun _ => .inr (.inl rfl))
    · split at hs
      · cases hs; exact key rfl rfl rfl (fun _ => .inr (.inr rfl))
      · cases hs
    · cases hs
      intro p hp
      by_cases hq : p = q
      · have hp' : upd s.again q false p = true := hp
        rw [hq, upd_same] at hp'; cases hp'
      · have := h p ((upd_other s.again _ hq).symm.trans hp)
        refine ⟨this.1, ?_⟩
        show upd s.stage q _ p = _ ∨ upd s.stage q _ p = _ ∨ upd s.stage q _ p = _
        rw [upd_other s.stage _ hq]; exact this.2
    · cases hs
  | fail p =>
    simp only [step] at hs
    split at hs
    · rename_i e
      cases hs
      intro q hq
      have := h q hq
      refine ⟨this.1, ?_⟩
      have hne : q ≠ p := fun x => by rw [x, e.2] at this; simp at this
      show upd s.stage p _ q = _ ∨ upd s.stage p _ q = _ ∨ upd s.stage p _ q = _
      rw [upd_other s.stage _ hne]; exact this.2
    · cases hs
  | take =>
    simp only [step] at hs
    split at hs
    · cases hs; exact h
    · cases hs
  | reap =>
    simp only [step] at hs
    split at hs
    · split at hs
      · cases hs; exact h
      · cases hs
    · cases hs

theorem tries_init (mod : Nat → Bool) (n : Nat) : Tries (init mod n) := by
  unfold init
  dsimp only
  split
  · intro p hp
    exact absurd (upd_eq (i := 0) hp (by decide)) (by simp)
  · intro p hp; cases hp

/-- A `tup flush` that was called and has not got its answer is still there. -/
def Asked (s : State) : Prop :=
  ∀ f, Ev.asked f ∈ s.trace → s.kind f = .flush ∧ f < s.next ∧
    (Ev.answered f ∈ s.trace ∨ (s.stage f ≠ .gone ∧ (s.stage f = .closing ∨ s.stage f = .wantTri ∨ s.stage f = .unSh → s.again f = true)))

theorem Asked.more {t : State} (h : Asked s) {m : List Ev} (ht : t.trace = s.trace ++ m) (hm : ∀ f, Ev.asked f ∉ m) (h1 : s.next ≤ t.next)
    (h2 : ∀ f, f < s.next → t.kind f = s.kind f)
    (h3 : ∀ f, f < s.next → s.kind f = .flush → s.stage f ≠ .gone → Ev.answered f ∉ s.trace →
      (s.stage f = .closing ∨ s.stage f = .wantTri ∨ s.stage f = .unSh → s.again f = true) →
      Ev.answered f ∈ t.trace ∨ (t.stage f ≠ .gone ∧ (t.stage f = .closing ∨ t.stage f = .wantTri ∨ t.stage f = .unSh → t.again f = true))) :
    Asked t := by
  intro f hf
  rw [ht, List.mem_append] at hf
  rcases hf with hf | hf
  · obtain ⟨a, b, c⟩ := h f hf
    refine ⟨(h2 f b).trans a, Nat.lt_of_lt_of_le b h1, ?_⟩
    by_cases hy : Ev.answered f ∈ s.trace
    · exact .inl (by rw [ht]; exact List.mem_append_left _ hy)
    · rcases c with c | c
      · exact absurd c hy
      · exact h3 f b a c.1 hy c.2
  · exact absurd hf (hm f)

theorem Asked.flush (h : Asked s) (b : Bool) : Asked (flushQueue mod b s) := by
  rcases flushQueue_cases mod b s with ⟨_, e, _, _⟩ | ⟨_, _, e⟩ <;> rw [e]
  · exact h.more (m := s.queue.map .recorded) rfl (by simp) (Nat.le_refl _) (fun _ _ => rfl) (fun f _ _ x _ y => .inr ⟨x, y⟩)
  · refine h.more (m := s.queue.map .recorded ++ [.started s.next]) (by simp [startAuto]) (by simp) (Nat.le_succ _) (fun f x => upd_other s.kind _ (Nat.ne_of_lt x))
      (fun f x _ y _ z => .inr ?_)
    show upd s.stage s.next .wantSh f ≠ _ ∧ (upd s.stage s.next .wantSh f = _ ∨ upd s.stage s.next .wantSh f = _ ∨ upd s.stage s.next .wantSh f = _ →
      upd s.again s.next false f = true)
    rw [upd_other s.stage _ (Nat.ne_of_lt x), upd_other s.again _ (Nat.ne_of_lt x)]
    exact ⟨y, z⟩

theorem asked_step (h : Asked s) (hs : step mod s a = some s') : Asked s' := by
  have same : ∀ {u : State}, u.trace = s.trace → u.next = s.next → u.kind = s.kind → u.stage = s.stage → u.again = s.again → Asked u := by
    intro u h1 h2 h3 h4 h5
    unfold Asked
    rw [h1, h2, h3, h4, h5]; exact h
  cases a with
  | change => cases hs; exact h.more (m := [.changed s.changes]) rfl (by simp) (Nat.le_refl _) (fun _ _ => rfl) (fun f _ _ x _ y => .inr ⟨x, y⟩)
  | read =>
    simp only [step, read] at hs
    split at hs
    · cases hs
    · cases hs; exact h
    · split at hs
      · rename_i k _ _
        cases hs
        have h0 : Asked { s with kernel := k } := h
        exact h0.flush (decide (s.pid = none))
      · cases hs; exact h
    · split at hs
      · cases hs; exact h
      · split at hs
        · cases hs; exact h
        · cases hs
  | timeout =>
    simp only [step] at hs
    split at hs
    · cases hs; exact h.flush true
    · cases hs
  | launch f =>
    cases hs
    intro q hq
    by_cases e : q = s.next
    · subst e
      have hf : f = true := by
        cases f
        · exact absurd (h _ hq).2.1 (Nat.lt_irrefl _)
        · rfl
      show upd s.kind s.next (if f then Kind.flush else .other) s.next = _ ∧ _ < s.next + 1 ∧ (_ ∨ (upd s.stage s.next .wantSh s.next ≠ _ ∧
        (upd s.stage s.next .wantSh s.next = _ ∨ upd s.stage s.next .wantSh s.next = _ ∨ upd s.stage s.next .wantSh s.next = _ → _)))
      rw [upd_same, upd_same, hf]
      exact ⟨rfl, Nat.lt_succ_self _, .inr ⟨by decide, by simp⟩⟩
    · have hq' : Ev.asked q ∈ s.trace := by
        have hq2 : Ev.asked q ∈ (if f then s.trace ++ [Ev.asked s.next] else s.trace) := hq
        split at hq2
        · rcases List.mem_append.1 hq2 with x | x
          · exact x
          · rw [List.mem_singleton] at x; injection x with x; exact absurd x e
        · exact hq2
      obtain ⟨a, b, c⟩ := h q hq'
      show upd s.kind s.next _ q = _ ∧ q < s.next + 1 ∧ (Ev.answered q ∈ (if f then s.trace ++ [Ev.asked s.next] else s.trace) ∨ (upd s.stage s.next .wantSh q ≠ _ ∧
        (upd s.stage s.next .wantSh q = _ ∨ upd s.stage s.next .wantSh q = _ ∨ upd s.stage s.next .wantSh q = _ → upd s.again s.next false q = true)))
      rw [upd_other s.kind _ e, upd_other s.stage _ e, upd_other s.again _ e]
      refine ⟨a, Nat.lt_succ_of_lt b, c.imp (fun x => ?_) id⟩
      split
      · exact List.mem_append_left _ x
      · exact x
  | go q =>
    have key : ∀ {x : Stage} {u : State} {m : List Ev}, u.trace = s.trace ++ m → (∀ f, Ev.asked f ∉ m) → u.next = s.next → u.kind = s.kind → u.stage = upd s.stage q x →
        u.again = s.again →
        (s.kind q = .flush → (s.stage q = .closing ∨ s.stage q = .wantTri ∨ s.stage q = .unSh → s.again q = true) →
          Ev.answered q ∈ m ∨ x ≠ .gone ∧ (x = .closing ∨ x = .wantTri ∨ x = .unSh → s.again q = true)) → Asked u := by
      intro x u m e1 e2 e3 e4 e5 e6 hx
      refine h.more e1 e2 (Nat.le_of_eq e3.symm) (fun f _ => by rw [e4]) ?_
      intro f _ hk hg _ hc
      rw [e5, e6]
      by_cases hf : f = q
      · subst hf
        rw [upd_same]
        rcases hx hk hc with y | y
        · exact .inl (by rw [e1]; exact List.mem_append_right _ y)
        · exact .inr y
      · rw [upd_other s.stage _ hf]
        exact .inr ⟨hg, hc⟩
    simp only [step, go] at hs
    split at hs
    · split at hs
      · cases hs; exact key (m := []) (by simp) (by simp) rfl rfl rfl rfl (fun _ _ => .inr ⟨by decide, by simp⟩)
      · cases hs
    · cases hs; exact key (m := []) (by simp) (by simp) rfl rfl rfl rfl (fun _ _ => .inr ⟨by decide, by simp⟩)
    · split at hs
      · cases hs
        by_cases hk : s.kind q = .auto
        · exact key (m := [.begun q]) (by simp [hk]) (by simp) rfl rfl rfl rfl (fun _ _ => .inr ⟨by decide, by simp⟩)
        · exact key (m := []) (by simp [hk]) (by simp) rfl rfl rfl rfl (fun _ _ => .inr ⟨by decide, by simp⟩)
      · cases hs
    · split at hs
      · rename_i hk
        cases hs; exact key (m := [.ended q]) rfl (by simp) rfl rfl rfl rfl (fun x => by rw [hk] at x; cases x)
      · split at hs
        · cases hs; exact key (m := [.answered q]) rfl (by simp) rfl rfl rfl rfl (fun _ _ => .inl (by simp))
        · cases hs
          refine h.more (m := []) (by simp) (by simp) (Nat.le_refl _) (fun _ _ => rfl) ?_
          intro f _ hk hg _ hc
          refine .inr ?_
          show upd s.stage q .closing f ≠ _ ∧ (upd s.stage q .closing f = _ ∨ upd s.stage q .closing f = _ ∨ upd s.stage q .closing f = _ → upd s.again q true f = true)
          by_cases hf : f = q
          · subst hf
            rw [upd_same, upd_same]
            exact ⟨by decide, fun _ => rfl⟩
          · rw [upd_other s.stage _ hf, upd_other s.again _ hf]; exact ⟨hg, hc⟩
      · rename_i hk
        cases hs; exact key (m := []) (by simp) (by simp) rfl rfl rfl rfl (fun x => by rw [hk] at x; cases x)
    · rename_i e
      cases hs; exact key (m := []) (by simp) (by simp) rfl rfl rfl rfl (fun _ x => .inr ⟨by decide, fun _ => x (.inl e)⟩)
    · rename_i e
      split at hs
      · cases hs; exact key (m := []) (by simp) (by simp) rfl rfl rfl rfl (fun _ x => .inr ⟨by decide, fun _ => x (.inr (.inl e))⟩)
      · cases hs
    · rename_i e
      cases hs
      refine h.more (m := []) (by simp) (by simp) (Nat.le_refl _) (fun _ _ => rfl) ?_
      intro f _ hk hg _ hc
      refine .inr ?_
      show upd s.stage q _ f ≠ _ ∧ (upd s.stage q _ f = _ ∨ upd s.stage q _ f = _ ∨ upd s.stage q _ f = _ → upd s.again q false f = true)
      by_cases hf : f = q
      · subst hf
        rw [upd_same, upd_same, hc (.inr (.inr e))]
        exact ⟨by decide, by simp⟩
      · rw [upd_other s.stage _ hf, upd_other s.again _ hf]; exact ⟨hg, hc⟩
    · cases hs
  | fail p =>
    simp only [step] at hs
    split at hs
    · rename_i e
      cases hs
      refine h.more (m := []) (by simp) (by simp) (Nat.le_refl _) (fun _ _ => rfl) ?_
      intro f _ hk hg _ hc
      have hne : f ≠ p := fun x => by rw [x, e.1] at hk; cases hk
      refine .inr ?_
      show upd s.stage p _ f ≠ _ ∧ (upd s.stage p _ f = _ ∨ upd s.stage p _ f = _ ∨ upd s.stage p _ f = _ → _)
      rw [upd_other s.stage _ hne]
      exact ⟨hg, hc⟩
    · cases hs
  | take =>
    simp only [step] at hs
    split at hs
    · cases hs; exact h
    · cases hs
  | reap =>
    simp only [step] at hs
    split at hs
    · split at hs
      · rename_i p _ _
        cases hs; exact h.more (m := [.reaped p]) rfl (by simp) (Nat.le_refl _) (fun _ _ => rfl) (fun f _ _ x _ y => .inr ⟨x, y⟩)
      · cases hs
    · cases hs

theorem asked_init (mod : Nat → Bool) (n : Nat) : Asked (init mod n) := by
  unfold init
  dsimp only
  split
  · intro f hf; simp [startAuto] at hf
  · intro f hf; simp at hf

/-- All of what is known about a state that can be reached. -/
structure Good (mod : Nat → Bool) (s : State) : Prop where
  locks : Locks s
  data : Data mod s
  tries : Tries s
  asked : Asked s

theorem good_step (h : Good mod s) (hs : step mod s a = some s') : Good mod s' :=
  ⟨locks_step h.locks hs, data_step h.data h.locks hs, tries_step h.tries hs, asked_step h.asked hs⟩

theorem good_run : ∀ {l : List Act} {s s' : State}, Good mod s → run mod s l = some s' → Good mod s'
  | [], s, s', h, hs => by cases hs; exact h
  | a :: l, s, s', h, hs => by
    simp only [run] at hs
    split at hs
    · rename_i t ht
      exact good_run (good_step h ht) hs
    · cases hs

theorem good_init (mod : Nat → Bool) (n : Nat) : Good mod (init mod n) :=
  ⟨locks_init mod n, data_init mod n, tries_init mod n, asked_init mod n⟩

theorem mono_step (h : step mod s a = some s') : ∃ m, s'.trace = s.trace ++ m := by
  have hf : ∀ (b : Bool) (u : State), ∃ m, (flushQueue mod b u).trace = u.trace ++ m := by
    intro b u
    rcases flushQueue_cases mod b u with ⟨_, e, _, _⟩ | ⟨_, _, e⟩ <;> rw [e]
    · exact ⟨_, rfl⟩
    · exact ⟨u.queue.map .recorded ++ [.started u.next], by simp [startAuto]⟩
  cases a with
  | change => cases h; exact ⟨_, rfl⟩
  | read =>
    simp only [step, read] at h
    repeat' split at h
    all_goals cases h
    · exact ⟨[], by simp⟩
    · rename_i k _ _
      exact hf (decide (s.pid = none)) { s with kernel := k }
    · exact ⟨[], by simp⟩
    · exact ⟨[], by simp⟩
    · exact ⟨[], by simp⟩
  | timeout =>
    simp only [step] at h
    split at h
    · cases h; exact hf true s
    · cases h
  | launch f =>
    cases h
    cases f
    · exact ⟨[], by simp⟩
    · exact ⟨_, rfl⟩
  | go p =>
    simp only [step, go] at h
    repeat' split at h
    all_goals cases h
    all_goals first
      | exact ⟨[], (List.append_nil _).symm⟩
      | exact ⟨_, rfl⟩
      | (by_cases hk : s.kind p = .auto
         · exact ⟨[.begun p], by simp [hk]⟩
         · exact ⟨[], by simp [hk]⟩)
  | fail p =>
    simp only [step] at h
    split at h
    · cases h; exact ⟨[], by simp⟩
    · cases h
  | take =>
    simp only [step] at h
    split at h
    · cases h; exact ⟨[], by simp⟩
    · cases h
  | reap =>
    simp only [step] at h
    split at h
    · split at h
      · cases h; exact ⟨_, rfl⟩
      · cases h
    · cases h

theorem mono_run {e : Ev} : ∀ {l : List Act} {s s' : State}, run mod s l = some s' → e ∈ s.trace → e ∈ s'.trace
  | [], s, s', h, he => by cases h; exact he
  | a :: l, s, s', h, he => by
    simp only [run] at h
    split at h
    · rename_i t ht
      obtain ⟨m, hm⟩ := mono_step ht
      exact mono_run h (by rw [hm]; exact List.mem_append_left _ he)
    · cases h

theorem Quietly.append (h : Quietly l) (h' : Quietly l') : Quietly (l ++ l') := fun a ha =>
  (List.mem_append.1 ha).elim (h a) (h' a)

theorem Quietly.noFail (h : Quietly l) : NoFail l := fun p hp => by
  rcases h _ hp with x | x | ⟨_, x⟩ <;> cases x

/-- The monitor can read an event if there is one. -/
theorem read_one (hL : Locks s) {e : KEv} {k : List KEv} (hk : s.kernel = e :: k) :
    ∃ t, step mod s .read = some t ∧ t.kernel = k ∧ t.sh = s.sh ∧ ∀ p, s.stage p ≠ .gone → t.stage p = s.stage p := by
  simp only [step, read, hk]
  cases e with
  | file c => exact ⟨_, rfl, rfl, rfl, fun _ _ => rfl⟩
  | opened =>
    dsimp only
    split
    · refine ⟨_, rfl, ?_, ?_, ?_⟩
      all_goals
        rcases flushQueue_cases mod (decide (s.pid = none)) { s with kernel := k } with ⟨_, e, _, _⟩ | ⟨_, _, e⟩ <;> rw [e] <;> try rfl
      · intro p _; rfl
      · intro p hp; exact upd_other s.stage _ (Nat.ne_of_lt (hL.fresh p hp))
    · exact ⟨_, rfl, rfl, rfl, fun _ _ => rfl⟩
  | closed =>
    dsimp only
    split
    · exact ⟨_, rfl, rfl, rfl, fun _ _ => rfl⟩
    · have hu : s.user = none := by
        cases hu : s.user with
        | none => rfl
        | some q =>
          have := (hL.use q (.inl ((hL.user q).2 hu))).2 .closed (by rw [hk]; simp)
          exact absurd rfl this.2
      rw [if_pos hu]
      exact ⟨_, rfl, rfl, rfl, fun _ _ => rfl⟩

theorem drain : ∀ {k : List KEv} {s : State}, Good mod s → s.kernel = k →
    ∃ l t, Quietly l ∧ run mod s l = some t ∧ t.kernel = [] ∧ t.sh = s.sh ∧ ∀ p, s.stage p ≠ .gone → t.stage p = s.stage p
  | [], s, _, hk => ⟨[], s, by simp [Quietly], rfl, hk, rfl, fun _ _ => rfl⟩
  | e :: k, s, h, hk => by
    obtain ⟨t, ht, h1, h2, h3⟩ := read_one (mod := mod) h.locks hk
    obtain ⟨l, u, hl, hu, h4, h5, h6⟩ := drain (good_step h ht) h1
    refine ⟨.read :: l, u, ?_, (run_cons ht).trans hu, h4, h5.trans h2, fun p hp => ?_⟩
    · intro a ha
      rcases List.mem_cons.1 ha with x | x
      · exact .inl x
      · exact hl a x
    · rw [h6 p (by rw [h3 p hp]; exact hp), h3 p hp]

def rank : Stage → Nat
  | .openObj => 6 | .wantObj => 5 | .using => 4 | .closing => 3 | .wantTri => 2 | .unSh => 1 | _ => 0

/-- The process that has the shared lock can go on. -/
theorem advance (h : Good mod s) (hk : s.kernel = []) {p : Nat} (hp : s.sh = some p) :
    ∃ t, step mod s (.go p) = some t ∧ (t.sh = none ∨ t.sh = some p ∧ t.stage p ≠ .gone ∧ rank (t.stage p) < rank (s.stage p)) := by
  have hL := h.locks
  have hh := (hL.holds p).2 hp
  simp only [step, go]
  cases e : s.stage p with
  | gone => exact absurd e hh.1
  | wantSh => exact absurd e hh.2
  | openObj => exact ⟨_, rfl, .inr ⟨hp, by simp [upd_same], by simp [upd_same, rank]⟩⟩
  | wantObj =>
    have hoff : Off s := by
      rcases hL.want p e with x | x
      · obtain ⟨_, a, b, y, _⟩ := x
        rw [hk] at y; exact absurd y.symm (by simp)
      · exact x
    dsimp only
    rw [if_pos ⟨hoff.1, hL.user_of hp (by rw [e]; decide)⟩]
    exact ⟨_, rfl, .inr ⟨hp, by simp [upd_same], by simp [upd_same, rank]⟩⟩
  | «using» =>
    dsimp only
    split
    · exact ⟨_, rfl, .inr ⟨hp, by simp [upd_same], by simp [upd_same, rank]⟩⟩
    · split
      · exact ⟨_, rfl, .inr ⟨hp, by simp [upd_same], by simp [upd_same, rank]⟩⟩
      · exact ⟨_, rfl, .inr ⟨hp, by simp [upd_same], by simp [upd_same, rank]⟩⟩
    · exact ⟨_, rfl, .inr ⟨hp, by simp [upd_same], by simp [upd_same, rank]⟩⟩
  | closing => exact ⟨_, rfl, .inr ⟨hp, by simp [upd_same], by simp [upd_same, rank]⟩⟩
  | wantTri =>
    have hon : On s := by
      rcases hL.tri p e with x | x
      · obtain ⟨_, a, b, y, _⟩ := x
        rw [hk] at y; exact absurd y.symm (by simp)
      · exact x
    dsimp only
    rw [if_pos hon.1]
    exact ⟨_, rfl, .inr ⟨hp, by simp [upd_same], by simp [upd_same, rank]⟩⟩
  | unSh => exact ⟨_, rfl, .inl rfl⟩

theorem release : ∀ (n : Nat) {s : State}, Good mod s → s.kernel = [] → (∀ p, s.sh = some p → rank (s.stage p) ≤ n) →
    ∃ l t, Quietly l ∧ run mod s l = some t ∧ t.kernel = [] ∧ t.sh = none := by
  intro n
  induction n with
  | zero =>
    intro s h hk hr
    cases hp : s.sh with
    | none => exact ⟨[], s, by simp [Quietly], rfl, hk, hp⟩
    | some p =>
      have hh := (h.locks.holds p).2 hp
      have := hr p hp
      cases e : s.stage p <;> rw [e] at this hh <;> first | exact absurd this (by decide) | exact absurd rfl hh.1 | exact absurd rfl hh.2
  | succ n ih =>
    intro s h hk hr
    cases hp : s.sh with
    | none => exact ⟨[], s, by simp [Quietly], rfl, hk, hp⟩
    | some p =>
      obtain ⟨t, ht, h1⟩ := advance h hk hp
      have hg := good_step h ht
      obtain ⟨l, u, hl, hu, h2, h3, h4⟩ := drain hg rfl
      have hgu := good_run hg hu
      have hr' : ∀ q, u.sh = some q → rank (u.stage q) ≤ n := by
        intro q hq
        rw [h3] at hq
        rcases h1 with x | ⟨x, y, z⟩
        · rw [x] at hq; cases hq
        · rw [x] at hq
          injection hq with hq
          subst hq
          rw [h4 _ y]
          have := hr p hp
          omega
      obtain ⟨l', v, hl', hv, h5, h6⟩ := ih hgu h2 hr'
      refine ⟨.go p :: (l ++ l'), v, ?_, ?_, h5, h6⟩
      · intro a ha
        rcases List.mem_cons.1 ha with x | x
        · exact .inr (.inr ⟨p, x⟩)
        · exact (hl.append hl') a x
      · rw [run_cons ht, run_append hu]; exact hv

/-- Nothing is going on, except for processes that wait for the shared lock. -/
structure Ready (s : State) : Prop where
  sh : s.sh = none
  kernel : s.kernel = []
  queue : s.queue = []

theorem ready (h : Good mod s) : ∃ l t, Quietly l ∧ run mod s l = some t ∧ Ready t := by
  obtain ⟨l, t, hl, ht, h1, _, _⟩ := drain h rfl
  have hr : ∀ p, t.sh = some p → rank (t.stage p) ≤ 6 := fun p _ => by cases t.stage p <;> decide
  obtain ⟨l', u, hl', hu, h2, h3⟩ := release 6 (good_run h ht) h1 hr
  have hgu := good_run (good_run h ht) hu
  by_cases hq : u.queue = []
  · exact ⟨l ++ l', u, hl.append hl', (run_append ht).trans hu, h3, h2, hq⟩
  · have hs : step mod u .timeout = some (flushQueue mod true u) := by
      simp only [step]
      rw [if_pos ⟨h2, hq, (hgu.locks.free h3).1⟩]
    refine ⟨l ++ (l' ++ [.timeout]), flushQueue mod true u, hl.append (hl'.append (by intro a ha; rw [List.mem_singleton.1 ha]; exact .inr (.inl rfl))), ?_, ?_⟩
    · rw [run_append ht, run_append hu, run_cons hs]; rfl
    · rcases flushQueue_cases mod true u with ⟨_, e, _, _⟩ | ⟨_, _, e⟩ <;> rw [e]
      · exact ⟨h3, h2, rfl⟩
      · exact ⟨h3, h2, rfl⟩

def cyc (p : Nat) : List Act := [.go p, .go p, .read, .go p, .go p, .go p, .read, .go p, .go p]

theorem cyc_quiet (p : Nat) : Quietly (cyc p) := by
  intro a ha
  simp only [cyc, List.mem_cons, List.not_mem_nil, or_false] at ha
  rcases ha with x | x | x | x | x | x | x | x | x <;> simp [x]

/-- What a process does from the time that it has the object lock. -/
theorem half (hL : s.locked = false) (hu : s.user = none) (hk : s.kernel = []) {p : Nat} (he : s.stage p = .wantObj) (ha : s.again p = false) :
    ∃ t, run mod s [.go p, .go p, .go p, .read, .go p, .go p] = some t ∧ t.kernel = [] ∧ t.queue = s.queue ∧ t.sh = none ∧ t.handled = s.handled ∧
      t.next = s.next ∧ t.pid = (if s.kind p = .auto then none else s.pid) ∧
      t.stage = upd s.stage p (if s.kind p = .flush ∧ s.pid ≠ none then .wantSh else .gone) := by
  have hup : ∀ (f : Nat → Stage) (x y : Stage), upd (upd f p x) p y = upd f p y := by
    intro f x y; funext q; unfold upd; split <;> rfl
  have e1 : step mod s (.go p) = some { s with user := some p, stage := upd s.stage p .using, trace := if s.kind p = .auto then s.trace ++ [.begun p] else s.trace } := by
    simp only [step, go, he]
    rw [if_pos ⟨hL, hu⟩]
  rw [run_cons e1]
  cases hkd : s.kind p with
  | auto =>
    simp [run, step, go, read, hkd, upd_same, hk, hL, ha, hup]
  | other =>
    simp [run, step, go, read, hkd, upd_same, hk, hL, ha, hup]
  | flush =>
    cases hp : s.pid with
    | none => simp [run, step, go, read, hkd, upd_same, hk, hL, ha, hup]
    | some r => simp [run, step, go, read, hkd, upd_same, hk, hL, hup]

/-- A process that waits for the shared lock goes all the way. -/
theorem cycle (h : Good mod s) (hr : Ready s) {p : Nat} (he : s.stage p = .wantSh) :
    ∃ t, run mod s (cyc p) = some t ∧ Ready t ∧
      ((s.handled = false ∨ s.pid ≠ none) → t.handled = s.handled ∧ t.next = s.next ∧ t.pid = (if s.kind p = .auto then none else s.pid) ∧
        t.stage = upd s.stage p (if s.kind p = .flush ∧ s.pid ≠ none then .wantSh else .gone)) ∧
      (s.handled = true → s.pid = none → t.handled = false) := by
  obtain ⟨r1, r2, r3⟩ := hr
  have hon := h.locks.free r1
  have hu : s.user = none := by
    cases hu : s.user with
    | none => rfl
    | some q =>
      have := h.locks.sh_of ((h.locks.user q).2 hu) (by decide) (by decide)
      rw [r1] at this; cases this
  have hag : s.again p = false := Bool.eq_false_iff.2 fun x => by
    have := (h.tries p x).2
    rw [he] at this; simp at this
  have hne : p ≠ s.next := Nat.ne_of_lt (h.locks.fresh p (by rw [he]; decide))
  have hup : ∀ (x y : Stage), upd (upd s.stage p x) p y = upd s.stage p y := by
    intro x y; funext q; unfold upd; split <;> rfl
  have e1 : step mod s (.go p) = some { s with sh := some p, stage := upd s.stage p .openObj } := by
    simp only [step, go, he]
    rw [if_pos r1]
  have e2 : step mod { s with sh := some p, stage := upd s.stage p .openObj } (.go p) =
      some { s with sh := some p, kernel := [.opened], stage := upd s.stage p .wantObj } := by
    simp [step, go, upd_same, r2, hup]
  have e3 : step mod { s with sh := some p, kernel := [.opened], stage := upd s.stage p .wantObj } .read =
      some { flushQueue mod (decide (s.pid = none)) { s with sh := some p, kernel := [], stage := upd s.stage p .wantObj } with locked := false } := by
    simp [step, read, hon.1]
  unfold cyc
  rw [run_cons e1, run_cons e2, run_cons e3]
  rcases flushQueue_cases mod (decide (s.pid = none)) { s with sh := some p, kernel := [], stage := upd s.stage p .wantObj } with
    ⟨hd, e, hb, hh⟩ | ⟨hb, hh, e⟩ <;> rw [e]
  · have hh' : hd = s.handled := by rw [hh]; show (s.handled || s.queue.any mod) = _; rw [r3]; simp
    obtain ⟨t, h0, h1, h2, h3, h4, h5, h6, h7⟩ := half (mod := mod)
      (s := { s with sh := some p, kernel := [], stage := upd s.stage p .wantObj, trace := s.trace ++ s.queue.map .recorded, handled := hd, queue := [], locked := false })
      (p := p) rfl hu rfl (upd_same _ _ _) hag
    refine ⟨t, h0, ⟨h3, h1, h2⟩, fun _ => ⟨h4.trans hh', h5, h6, ?_⟩, fun x y => ?_⟩
    · rw [h7]; exact hup _ _
    · have := hb (by rw [y]; rfl)
      rw [← hh', this] at x; cases x
  · obtain ⟨t, h0, h1, h2, h3, h4, h5, h6, h7⟩ := half (mod := mod)
      (s := { startAuto { s with sh := some p, kernel := [], stage := upd s.stage p .wantObj, trace := s.trace ++ s.queue.map .recorded, handled := false, queue := [] } with
        locked := false })
      (p := p) rfl hu rfl ((upd_other _ _ hne).trans (upd_same _ _ _)) ((upd_other s.again _ hne).trans hag)
    refine ⟨t, h0, ⟨h3, h1, h2⟩, fun x => ?_, fun _ _ => h4⟩
    exfalso
    rcases x with x | x
    · have hh' : (s.handled || s.queue.any mod) = true := hh
      rw [x, r3] at hh'; simp at hh'
    · exact x (of_decide_eq_true hb)

/-- The processes that are there. -/
def alive (s : State) : List Nat := (List.range s.next).filter fun p => decide (s.stage p ≠ .gone)

theorem alive_lt {p : Nat} (hL : Locks s) (hp : s.stage p ≠ .gone) (h1 : t.next = s.next) (h2 : t.stage = upd s.stage p .gone) :
    (alive t).length < (alive s).length := by
  have hmem : p ∈ List.range s.next := List.mem_range.2 (hL.fresh p hp)
  obtain ⟨a, b, e⟩ := List.append_of_mem hmem
  have hle : ∀ m : List Nat, (m.filter fun q => decide (t.stage q ≠ .gone)).length ≤ (m.filter fun q => decide (s.stage q ≠ .gone)).length := by
    intro m
    rw [← List.countP_eq_length_filter, ← List.countP_eq_length_filter]
    refine List.countP_mono_left fun q _ hq => ?_
    rw [decide_eq_true_eq] at hq ⊢
    intro x
    refine hq ?_
    rw [h2]; unfold upd
    split
    · rfl
    · exact x
  have ht : t.stage p = .gone := by rw [h2]; exact upd_same _ _ _
  unfold alive
  rw [h1, e, List.filter_append, List.filter_append, List.length_append, List.length_append, List.filter_cons, List.filter_cons, if_neg (by simp [ht]), if_pos (by simpa using hp)]
  have h3 := hle a
  have h4 := hle b
  simp only [List.length_cons]
  omega

theorem mem_alive (hL : Locks s) {p : Nat} : p ∈ alive s ↔ s.stage p ≠ .gone := by
  unfold alive
  rw [List.mem_filter, decide_eq_true_eq, List.mem_range]
  exact ⟨fun x => x.2, fun x => ⟨hL.fresh p x, x⟩⟩

theorem ready_wantSh (hL : Locks s) (hr : Ready s) {p : Nat} (hp : s.stage p ≠ .gone) : s.stage p = .wantSh := by
  rcases Decidable.em (s.stage p = .wantSh) with x | x
  · exact x
  · have := (hL.holds p).1 ⟨hp, x⟩
    rw [hr.sh] at this; cases this

theorem settle0 : ∀ (n : Nat) {s : State}, Good mod s → Ready s → s.handled = false → s.pid = none → (alive s).length ≤ n →
    ∃ l t, Quietly l ∧ run mod s l = some t ∧ Still t := by
  intro n
  induction n with
  | zero =>
    intro s h hr _ _ hn
    refine ⟨[], s, by simp [Quietly], rfl, fun p => ?_, hr.kernel, hr.queue⟩
    rcases Decidable.em (s.stage p = .gone) with x | x
    · exact x
    · have := (mem_alive h.locks).2 x
      rw [List.length_eq_zero_iff.1 (Nat.le_zero.1 hn)] at this
      cases this
  | succ n ih =>
    intro s h hr hh hp hn
    cases ha : alive s with
    | nil =>
      refine ⟨[], s, by simp [Quietly], rfl, fun p => ?_, hr.kernel, hr.queue⟩
      rcases Decidable.em (s.stage p = .gone) with x | x
      · exact x
      · have := (mem_alive h.locks).2 x
        rw [ha] at this; cases this
    | cons p r =>
      have hg := (mem_alive h.locks).1 (show p ∈ alive s by rw [ha]; simp)
      obtain ⟨t, ht, hrt, h1, _⟩ := cycle h hr (ready_wantSh h.locks hr hg)
      obtain ⟨h2, h3, h4, h5⟩ := h1 (.inl hh)
      rw [if_neg (by simp [hp])] at h5
      have hlt := alive_lt h.locks hg h3 h5
      have hpt : t.pid = none := by rw [h4, hp]; split <;> rfl
      obtain ⟨l, u, hl, hu, hs⟩ := ih (good_run h ht) hrt (h2.trans hh) hpt (by omega)
      exact ⟨cyc p ++ l, u, (cyc_quiet p).append hl, (run_append ht).trans hu, hs⟩

theorem settle1 (h : Good mod s) (he : Early s) (hr : Ready s) (hh : s.handled = false) :
    ∃ l t, Quietly l ∧ run mod s l = some t ∧ Still t := by
  cases hp : s.pid with
  | none => exact settle0 _ h hr hh hp (Nat.le_refl _)
  | some p =>
    obtain ⟨hk, hst⟩ := he p hp
    have hg : s.stage p ≠ .gone := by rcases hst with x | x | x | x <;> rw [x] <;> decide
    obtain ⟨t, ht, hrt, h1, _⟩ := cycle h hr (ready_wantSh h.locks hr hg)
    obtain ⟨h2, h3, h4, h5⟩ := h1 (.inl hh)
    rw [if_pos hk] at h4
    obtain ⟨l, u, hl, hu, hs⟩ := settle0 _ (good_run h ht) hrt (h2.trans hh) h4 (Nat.le_refl _)
    exact ⟨cyc p ++ l, u, (cyc_quiet p).append hl, (run_append ht).trans hu, hs⟩

theorem settle2 (h : Good mod s) (he : Early s) (hr : Ready s) (hp : s.pid = none) : ∃ l t, Quietly l ∧ run mod s l = some t ∧ Still t := by
  cases hh : s.handled with
  | false => exact settle1 h he hr hh
  | true =>
    cases ha : alive s with
    | nil =>
      refine ⟨[], s, by simp [Quietly], rfl, fun p => ?_, hr.kernel, hr.queue⟩
      rcases Decidable.em (s.stage p = .gone) with x | x
      · exact x
      · have := (mem_alive h.locks).2 x
        rw [ha] at this; cases this
    | cons p r =>
      have hg := (mem_alive h.locks).1 (show p ∈ alive s by rw [ha]; simp)
      obtain ⟨t, ht, hrt, _, h1⟩ := cycle h hr (ready_wantSh h.locks hr hg)
      obtain ⟨l, u, hl, hu, hs⟩ := settle1 (good_run h ht) (early_run h.locks he (cyc_quiet p).noFail ht) hrt (h1 hh hp)
      exact ⟨cyc p ++ l, u, (cyc_quiet p).append hl, (run_append ht).trans hu, hs⟩

theorem settle (h : Good mod s) (he : Early s) : ∃ l t, Quietly l ∧ run mod s l = some t ∧ Still t := by
  obtain ⟨l, t, hl, ht, hr⟩ := ready h
  have hg := good_run h ht
  have het := early_run h.locks he hl.noFail ht
  have fin : ∃ l t', Quietly l ∧ run mod t l = some t' ∧ Still t' := by
    cases hp : t.pid with
    | none => exact settle2 hg het hr hp
    | some p =>
      obtain ⟨hk, hst⟩ := het p hp
      have hgo : t.stage p ≠ .gone := by rcases hst with x | x | x | x <;> rw [x] <;> decide
      obtain ⟨u, hu, hru, h1, _⟩ := cycle hg hr (ready_wantSh hg.locks hr hgo)
      obtain ⟨h2, h3, h4, h5⟩ := h1 (.inr (by rw [hp]; simp))
      rw [if_pos hk] at h4
      obtain ⟨l', v, hl', hv, hs⟩ := settle2 (good_run hg hu) (early_run hg.locks het (cyc_quiet p).noFail hu) hru h4
      exact ⟨cyc p ++ l', v, (cyc_quiet p).append hl', (run_append hu).trans hv, hs⟩
  obtain ⟨l', v, hl', hv, hs⟩ := fin
  exact ⟨l ++ l', v, hl.append hl', (run_append ht).trans hv, hs⟩

end Tup.AutoUpdate
