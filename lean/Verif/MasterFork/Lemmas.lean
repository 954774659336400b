import Verif.MasterFork.Model

/-! The invariant of the process that starts the commands. -/

namespace Tup.MasterFork

variable {R : Nat → Req}

/-! ### Reading what was written -/

theorem plain_bytes (b : Bytes) : plain (bytes b) = some b := by
  induction b with
  | nil => rfl
  | cons x xs ih =>
    show (plain (bytes xs)).map (x :: ·) = _
    rw [ih]; rfl

theorem bytes_length (b : Bytes) : (bytes b).length = b.length := List.length_map _

/-- A request as it is in the socket. -/
def text (R : Nat → Req) (i : Nat) : List Tok := (msg i (R i)).flatten

def hdr (R : Nat → Req) (i : Nat) : Hdr :=
  ⟨i, (R i).flags, (R i).job.length, (R i).dir.length, (R i).cmd.length, (R i).env.length, (R i).vardict.length⟩

theorem text_eq (i : Nat) : text R i = .hdr (hdr R i) :: (bytes (R i).job ++ (bytes (R i).dir ++ (bytes (R i).cmd ++
    (bytes (R i).env ++ bytes (R i).vardict)))) := by
  simp [text, msg, hdr]

theorem take_bytes (b : Bytes) (r : List Tok) : (bytes b ++ r).take b.length = bytes b :=
  List.take_left' (bytes_length b)

theorem drop_bytes (b : Bytes) (r : List Tok) : (bytes b ++ r).drop b.length = r :=
  List.drop_left' (bytes_length b)

theorem readMsg_text (i : Nat) (rest : List Tok) : readMsg (text R i ++ rest) = .ok ⟨i, R i⟩ rest := by
  rw [text_eq, List.cons_append, readMsg]
  rw [if_neg (by simp only [hdr, List.length_append, bytes_length]; omega)]
  simp only [hdr, List.append_assoc, drop_bytes, take_bytes, plain_bytes]

/-- As long as not all is there, nothing is read. -/
theorem readMsg_part (i : Nat) {st p q : List Tok} (h : st ++ p = text R i ++ q) (hl : st.length < (text R i).length) :
    readMsg st = .wait := by
  cases st with
  | nil => rfl
  | cons x st =>
    rw [text_eq] at h hl
    simp only [List.cons_append, List.cons.injEq] at h
    rw [h.1, readMsg, if_pos]
    simp only [List.length_cons, List.length_append, bytes_length, hdr] at hl ⊢
    omega

/-! ### The invariant -/

def all (R : Nat → Req) (q : List Nat) : List Tok := q.flatMap (text R)

/-- A request has been sent (or is being sent), and the status has not come back. -/
def Posted (p : Phase) : Prop := p = .waiting ∨ ∃ ws, p = .sending ws

/-- Where a request can be: in the socket, with a child, with the waiter, in the socket back, or the caller has not yet seen
that it has ended. -/
def places (s : S) (q : List Nat) : List Nat :=
  q ++ (s.children.map (·.run.sid) ++ (s.reaped.toList ++ (s.replies.map (·.1) ++ s.told.map (·.1))))

def Ended (R : Nat → Req) (s : S) (i : Nat) (st : Int) : Prop := (⟨i, R i⟩, st) ∈ s.exits

def running (s : S) : List Nat := (s.children.filter (fun c => c.status = none)).map (·.run.sid)

/-- What is true of what the waiter has in its hands. -/
def Held (R : Nat → Req) (s : S) : Waiter → Prop
  | .idle => s.reaped = none
  | .inWait => s.reaped = none
  | .got _ st => ∃ i, s.reaped = some i ∧ Ended R s i st
  | .found _ i st => s.reaped = some i ∧ Ended R s i st
  | .replying i st => s.reaped = some i ∧ Ended R s i st
  | .dead => True

structure Core (R : Nat → Req) (s : S) (q : List Nat) : Prop where
  free : s.lock = none → s.stream = all R q
  held : ∀ i, s.lock = some i → ∃ ws, s.calls i = .sending ws ∧ s.stream ++ ws.flatten = all R q ∧
    (ws.flatten ≠ [] → ∃ q', q = q' ++ [i])
  send : ∀ i ws, s.calls i = .sending ws → s.lock = some i
  nodup : (places s q).Nodup
  mem : ∀ i, i ∈ places s q ↔ Posted (s.calls i)
  wait : ∀ i, i ∈ s.waiting ↔ s.calls i = .registered ∨ (Posted (s.calls i) ∧ i ∉ s.told.map (·.1))
  waitNodup : s.waiting.Nodup
  notifier : s.notifier = true
  child : ∀ c ∈ s.children, c.run.req = R c.run.sid ∧ ∀ st, c.status = some st → Ended R s c.run.sid st
  reply : ∀ x ∈ s.replies, Ended R s x.1 x.2
  told : ∀ x ∈ s.told, Ended R s x.1 x.2
  done : ∀ i st, s.calls i = .done st → Ended R s i st
  hand : Held R s s.waiter
  started : ∀ r ∈ s.started, r.req = R r.sid
  once : (s.started.map (·.sid) ++ q).Nodup
  made : ∀ i ∈ s.started.map (·.sid) ++ q, Posted (s.calls i) ∨ ∃ st, s.calls i = .done st
  exits : (s.exits.map (·.1.sid) ++ running s).Nodup
  exitsStarted : ∀ x ∈ s.exits, x.1 ∈ s.started
  childStarted : ∀ c ∈ s.children, c.run ∈ s.started

/-- What is true while the waiter works. -/
structure Live (s : S) : Prop where
  pids : (s.children.map (·.pid)).Nodup
  keys : (s.tree.map (·.1)).Nodup
  entry : ∀ e ∈ s.tree, (∃ c ∈ s.children, c.pid = e.1 ∧ c.run.sid = e.2) ∨
    (s.reaped = some e.2 ∧ ((∃ st, s.waiter = .got e.1 st) ∨ ∃ st, s.waiter = .found e.1 e.2 st))
  got : ∀ p st, s.waiter = .got p st → ∃ i, s.reaped = some i ∧
    ((p, i) ∈ s.tree ∨ (s.master = .forked p i ∧ p ∉ s.tree.map (·.1)))
  found : ∀ p i st, s.waiter = .found p i st → (p, i) ∈ s.tree
  known : ∀ c ∈ s.children, (c.pid, c.run.sid) ∈ s.tree ∨ s.master = .forked c.pid c.run.sid
  forked : ∀ p i, s.master = .forked p i → (∃ c ∈ s.children, c.pid = p ∧ c.run.sid = i) ∨
    (s.reaped = some i ∧ ∃ st, s.waiter = .got p st)
  fresh : ∀ p i, s.master = .forked p i → ∀ e ∈ s.tree, e.2 ≠ i
  inWait : s.waiter = .inWait → s.tree ≠ []
  alive : s.master ≠ .dead

structure Inv (R : Nat → Req) (s : S) (q : List Nat) : Prop where
  core : Core R s q
  live : s.waiter ≠ .dead → Live s

/-- The part of the state that `Live` is about. -/
theorem Live.congr {s s' : S} (h : s.waiter ≠ .dead → Live s) (e1 : s'.children = s.children) (e2 : s'.tree = s.tree)
    (e3 : s'.reaped = s.reaped) (e4 : s'.waiter = s.waiter) (e5 : s'.master = s.master) :
    s'.waiter ≠ .dead → Live s' := by
  intro hw
  have h := h (by rw [← e4]; exact hw)
  constructor
  · rw [e1]; exact h.pids
  · rw [e2]; exact h.keys
  · rw [e1, e2, e3, e4]; exact h.entry
  · rw [e2, e3, e4, e5]; exact h.got
  · rw [e2, e4]; exact h.found
  · rw [e1, e2, e5]; exact h.known
  · rw [e1, e3, e4, e5]; exact h.forked
  · rw [e2, e5]; exact h.fresh
  · rw [e2, e4]; exact h.inWait
  · rw [e5]; exact h.alive

theorem inv_init : Inv R init [] := by
  have hn : ∀ {α : Type} (p : α → Prop), ∀ x ∈ ([] : List α), p x := fun p x hx => by cases hx
  constructor
  · constructor
    · exact fun _ => rfl
    · intro _ h; cases h
    · intro _ _ h; cases h
    · exact .nil
    · intro i; simp [places, init, Posted]
    · intro i; simp [init, Posted]
    · exact .nil
    · rfl
    · exact hn _
    · exact hn _
    · exact hn _
    · intro _ _ h; cases h
    · rfl
    · exact hn _
    · exact .nil
    · exact hn _
    · exact .nil
    · exact hn _
    · exact hn _
  · intro _
    constructor
    · exact .nil
    · exact .nil
    · exact hn _
    · intro _ _ h; cases h
    · intro _ _ _ h; cases h
    · exact hn _
    · intro _ _ h; cases h
    · intro _ _ h; cases h
    · intro h; cases h
    · intro h; cases h

/-! ### The callers -/

theorem set_self (f : Nat → Phase) (i : Nat) (p : Phase) : set f i p i = p := by simp [set]

theorem set_other (f : Nat → Phase) {i j : Nat} (p : Phase) (h : j ≠ i) : set f i p j = f j := by simp [set, h]

theorem inv_caller {s : S} {q : List Nat} (h : Inv R s q) (i : Nat) : ∃ q', Inv R (caller R i s) q' := by
  have hc := h.core
  unfold caller
  cases hp : s.calls i with
  | idle =>
    simp only
    have hnw : i ∉ s.waiting := by
      rw [hc.wait, hp]; simp [Posted]
    rw [if_neg hnw]
    have hnp : ¬Posted (s.calls i) := by rw [hp]; simp [Posted]
    refine ⟨q, ⟨hc.free, ?_, ?_, hc.nodup, ?_, ?_, ?_, hc.notifier, hc.child, hc.reply, hc.told, ?_, hc.hand, hc.started, hc.once,
      ?_, hc.exits, hc.exitsStarted, hc.childStarted⟩, Live.congr h.live rfl rfl rfl rfl rfl⟩
    · intro k hk
      obtain ⟨ws, a, b, c⟩ := hc.held k hk
      have hki : k ≠ i := by rintro rfl; rw [hp] at a; cases a
      exact ⟨ws, by simp only; rw [set_other _ _ hki]; exact a, b, c⟩
    · intro k ws hk
      by_cases hki : k = i
      · subst hki; simp only [set_self] at hk; cases hk
      · simp only [set_other _ _ hki] at hk; exact hc.send k ws hk
    · intro k
      by_cases hki : k = i
      · subst hki
        simp only [set_self]
        constructor
        · intro hk; exact absurd ((hc.mem k).1 hk) hnp
        · intro hk; simp [Posted] at hk
      · simp only [set_other _ _ hki]; exact hc.mem k
    · intro k
      by_cases hki : k = i
      · subst hki; simp only [set_self]; simp
      · simp only [set_other _ _ hki, List.mem_cons, hki, false_or]; exact hc.wait k
    · exact List.nodup_cons.2 ⟨hnw, hc.waitNodup⟩
    · intro k st hk
      by_cases hki : k = i
      · subst hki; simp only [set_self] at hk; cases hk
      · simp only [set_other _ _ hki] at hk; exact hc.done k st hk
    · intro k hk
      have := hc.made k hk
      have hki : k ≠ i := by rintro rfl; rw [hp] at this; simp [Posted] at this
      simp only [set_other _ _ hki]; exact this
  | registered =>
    simp only
    cases hl : s.lock with
    | some k => exact ⟨q, h⟩
    | none =>
      simp only
      have hnp : ¬Posted (s.calls i) := by rw [hp]; simp [Posted]
      have hni : i ∉ places s q := fun hi => hnp ((hc.mem i).1 hi)
      have hpost : Posted (.sending (msg i (R i))) := Or.inr ⟨_, rfl⟩
      have hpl : ∀ s' : S, s'.children = s.children → s'.reaped = s.reaped → s'.replies = s.replies → s'.told = s.told →
          (places s' (q ++ [i])).Perm (i :: places s q) := by
        intro s' e1 e2 e3 e4
        simp only [places, e1, e2, e3, e4, List.append_assoc, List.singleton_append]
        exact List.perm_middle
      refine ⟨q ++ [i], ⟨?_, ?_, ?_, ?_, ?_, ?_, hc.waitNodup, hc.notifier, hc.child, hc.reply, hc.told, ?_, hc.hand, hc.started, ?_,
        ?_, hc.exits, hc.exitsStarted, hc.childStarted⟩, Live.congr h.live rfl rfl rfl rfl rfl⟩
      · intro hk; cases hk
      · intro k hk
        have hk : i = k := Option.some.inj hk
        subst hk
        refine ⟨_, set_self _ _ _, ?_, fun _ => ⟨q, rfl⟩⟩
        simp only [hc.free hl, all, List.flatMap_append, List.flatMap_cons, List.flatMap_nil, List.append_nil]
        rfl
      · intro k ws hk
        by_cases hki : k = i
        · subst hki; rfl
        · simp only [set_other _ _ hki] at hk
          have := hc.send k ws hk
          rw [hl] at this; cases this
      · exact (hpl _ rfl rfl rfl rfl).nodup_iff.2 (List.nodup_cons.2 ⟨hni, hc.nodup⟩)
      · intro k
        refine Iff.trans (hpl _ rfl rfl rfl rfl).mem_iff ?_
        rw [List.mem_cons]
        by_cases hki : k = i
        · subst hki; simp only [set_self]; simp [hpost]
        · simp only [set_other _ _ hki, hki, false_or]; exact hc.mem k
      · intro k
        by_cases hki : k = i
        · subst hki
          simp only [set_self]
          rw [hc.wait, hp]
          have : k ∉ s.told.map (·.1) := fun hk => hni (by
            simp only [places, List.mem_append]; exact Or.inr (Or.inr (Or.inr (Or.inr hk))))
          exact ⟨fun _ => Or.inr ⟨hpost, this⟩, fun _ => Or.inl rfl⟩
        · simp only [set_other _ _ hki]; exact hc.wait k
      · intro k st hk
        by_cases hki : k = i
        · subst hki; simp only [set_self] at hk; cases hk
        · simp only [set_other _ _ hki] at hk; exact hc.done k st hk
      · rw [← List.append_assoc]
        refine (List.perm_append_singleton i _).nodup_iff.2 (List.nodup_cons.2 ⟨?_, hc.once⟩)
        intro hm
        have := hc.made i hm
        rw [hp] at this
        simp [Posted] at this
      · intro k hk
        by_cases hki : k = i
        · subst hki; simp only [set_self]; exact Or.inl hpost
        · simp only [set_other _ _ hki]
          refine hc.made k ?_
          simp only [List.mem_append, List.mem_singleton] at hk ⊢
          rcases hk with hk | hk | hk
          · exact Or.inl hk
          · exact Or.inr hk
          · exact absurd hk hki
  | sending ws =>
    have hl := hc.send i ws hp
    obtain ⟨ws', a, b, c⟩ := hc.held i hl
    rw [hp] at a
    have e : ws = ws' := Phase.sending.inj a
    subst e
    have hpi : Posted (s.calls i) := by rw [hp]; exact Or.inr ⟨_, rfl⟩
    have hgen : ∀ (p : Phase) (s' : S), Posted p → s'.calls = set s.calls i p → s'.waiting = s.waiting →
        s'.children = s.children → s'.reaped = s.reaped → s'.replies = s.replies →
        s'.told = s.told →
        (∀ k, k ∈ places s' q ↔ Posted (s'.calls k)) ∧
        (∀ k, k ∈ s'.waiting ↔ s'.calls k = .registered ∨ (Posted (s'.calls k) ∧ k ∉ s'.told.map (·.1))) ∧
        (∀ k st, s'.calls k = .done st → Ended R s k st) ∧
        (∀ k ∈ s.started.map (·.sid) ++ q, Posted (s'.calls k) ∨ ∃ st, s'.calls k = .done st) := by
      intro p s' hpp e1 e2 e3 e4 e5 e6
      refine ⟨?_, ?_, ?_, ?_⟩
      · intro k
        rw [show places s' q = places s q by simp only [places, e3, e4, e5, e6], e1]
        by_cases hki : k = i
        · subst hki; rw [set_self, hc.mem]; exact ⟨fun _ => hpp, fun _ => hpi⟩
        · rw [set_other _ _ hki]; exact hc.mem k
      · intro k
        rw [e1, e2, e6]
        by_cases hki : k = i
        · subst hki
          rw [set_self, hc.wait, hp]
          constructor
          · rintro (hh | hh)
            · cases hh
            · exact Or.inr ⟨hpp, hh.2⟩
          · rintro (hh | hh)
            · rw [hh] at hpp; rcases hpp with hh | ⟨_, hh⟩ <;> cases hh
            · exact Or.inr ⟨hp ▸ hpi, hh.2⟩
        · rw [set_other _ _ hki]; exact hc.wait k
      · intro k st
        rw [e1]
        by_cases hki : k = i
        · subst hki
          rw [set_self]
          rintro rfl
          rcases hpp with hh | ⟨_, hh⟩ <;> cases hh
        · rw [set_other _ _ hki]; exact hc.done k st
      · intro k hk
        rw [e1]
        by_cases hki : k = i
        · subst hki; rw [set_self]; exact Or.inl hpp
        · rw [set_other _ _ hki]; exact hc.made k hk
    cases ws with
    | nil =>
      obtain ⟨g1, g2, g3, g4⟩ := hgen .waiting { s with lock := none, calls := set s.calls i .waiting } (Or.inl rfl)
        rfl rfl rfl rfl rfl rfl
      refine ⟨q, ⟨fun _ => (by simpa using b), fun k hk => (by cases hk), ?_, hc.nodup, g1, g2, hc.waitNodup, hc.notifier,
        hc.child, hc.reply, hc.told, g3, hc.hand, hc.started, hc.once, g4, hc.exits, hc.exitsStarted, hc.childStarted⟩, Live.congr h.live rfl rfl rfl rfl rfl⟩
      intro k ws hk
      by_cases hki : k = i
      · subst hki; simp only [set_self] at hk; cases hk
      · simp only [set_other _ _ hki] at hk
        have := hc.send k ws hk
        rw [hl] at this
        exact absurd (Option.some.inj this).symm hki
    | cons w ws =>
      obtain ⟨g1, g2, g3, g4⟩ := hgen (.sending ws)
        { s with stream := s.stream ++ w, calls := set s.calls i (.sending ws) } (Or.inr ⟨_, rfl⟩) rfl rfl rfl rfl rfl rfl
      refine ⟨q, ⟨?_, ?_, ?_, hc.nodup, g1, g2, hc.waitNodup, hc.notifier,
        hc.child, hc.reply, hc.told, g3, hc.hand, hc.started, hc.once, g4, hc.exits, hc.exitsStarted, hc.childStarted⟩, Live.congr h.live rfl rfl rfl rfl rfl⟩
      · intro hk; simp only at hk; rw [hl] at hk; cases hk
      · intro k hk
        simp only at hk
        rw [hl] at hk
        have hk : i = k := Option.some.inj hk
        subst hk
        refine ⟨ws, by simp only [set_self], by simp only [List.append_assoc]; simpa using b, ?_⟩
        intro hne
        exact c (by simp only [List.flatten_cons]; intro e; exact hne (List.append_eq_nil_iff.1 e).2)
      · intro k ws' hk
        by_cases hki : k = i
        · subst hki; exact hl
        · simp only [set_other _ _ hki] at hk; exact hc.send k ws' hk
  | waiting =>
    simp only
    split
    · exact ⟨q, h⟩
    · rename_i x hf
      have hxm := List.mem_of_find?_eq_some hf
      have hxi : x.1 = i := by simpa using List.find?_some hf
      have hpi : Posted (s.calls i) := by rw [hp]; exact Or.inl rfl
      have hti : i ∈ s.told.map (·.1) := List.mem_map.2 ⟨x, hxm, hxi⟩
      have hiff : ∀ k, k ∈ (s.told.filter (fun x => x.1 ≠ i)).map (·.1) ↔ k ∈ s.told.map (·.1) ∧ k ≠ i := by
        intro k
        constructor
        · intro hk
          obtain ⟨y, hy, rfl⟩ := List.mem_map.1 hk
          have := List.mem_filter.1 hy
          exact ⟨List.mem_map.2 ⟨y, this.1, rfl⟩, by simpa using this.2⟩
        · rintro ⟨hk, hne⟩
          obtain ⟨y, hy, rfl⟩ := List.mem_map.1 hk
          exact List.mem_map.2 ⟨y, List.mem_filter.2 ⟨hy, by simpa using hne⟩, rfl⟩
      have hni : i ∉ q ++ (s.children.map (·.run.sid) ++ (s.reaped.toList ++ s.replies.map (·.1))) := by
        have := hc.nodup
        simp only [places, ← List.append_assoc] at this
        rw [List.nodup_append] at this
        intro hk
        exact this.2.2 i (by simpa only [← List.append_assoc] using hk) i hti rfl
      refine ⟨q, ⟨hc.free, ?_, ?_, ?_, ?_, ?_, hc.waitNodup, hc.notifier, hc.child, hc.reply, ?_, ?_, hc.hand, hc.started,
        hc.once, ?_, hc.exits, hc.exitsStarted, hc.childStarted⟩, Live.congr h.live rfl rfl rfl rfl rfl⟩
      · intro k hk
        obtain ⟨ws, a, b, c⟩ := hc.held k hk
        have hki : k ≠ i := by rintro rfl; rw [hp] at a; cases a
        exact ⟨ws, by simp only; rw [set_other _ _ hki]; exact a, b, c⟩
      · intro k ws hk
        by_cases hki : k = i
        · subst hki; simp only [set_self] at hk; cases hk
        · simp only [set_other _ _ hki] at hk; exact hc.send k ws hk
      · refine List.Nodup.sublist ?_ hc.nodup
        exact List.Sublist.append_left (List.Sublist.append_left (List.Sublist.append_left
          (List.Sublist.append_left ((List.filter_sublist).map _) _) _) _) _
      · intro k
        by_cases hki : k = i
        · subst hki
          simp only [set_self]
          constructor
          · intro hk
            simp only [places, ← List.append_assoc] at hk
            rcases List.mem_append.1 hk with hk | hk
            · exact absurd (by simpa only [← List.append_assoc] using hk) hni
            · exact absurd rfl ((hiff k).1 hk).2
          · rintro (hk | ⟨_, hk⟩) <;> cases hk
        · simp only [set_other _ _ hki]
          refine Iff.trans ?_ (hc.mem k)
          simp only [places, List.mem_append]
          have := hiff k
          constructor
          · rintro (hk | hk | hk | hk | hk)
            · exact Or.inl hk
            · exact Or.inr (Or.inl hk)
            · exact Or.inr (Or.inr (Or.inl hk))
            · exact Or.inr (Or.inr (Or.inr (Or.inl hk)))
            · exact Or.inr (Or.inr (Or.inr (Or.inr (this.1 hk).1)))
          · rintro (hk | hk | hk | hk | hk)
            · exact Or.inl hk
            · exact Or.inr (Or.inl hk)
            · exact Or.inr (Or.inr (Or.inl hk))
            · exact Or.inr (Or.inr (Or.inr (Or.inl hk)))
            · exact Or.inr (Or.inr (Or.inr (Or.inr (this.2 ⟨hk, hki⟩))))
      · intro k
        by_cases hki : k = i
        · subst hki
          simp only [set_self]
          constructor
          · intro hk
            rcases (hc.wait k).1 hk with hk | hk
            · rw [hp] at hk; cases hk
            · exact absurd hti hk.2
          · rintro (hk | ⟨(hk | ⟨_, hk⟩), _⟩) <;> cases hk
        · simp only [set_other _ _ hki]
          refine Iff.trans (hc.wait k) ?_
          have := hiff k
          constructor
          · rintro (hk | hk)
            · exact Or.inl hk
            · exact Or.inr ⟨hk.1, fun hh => hk.2 (this.1 hh).1⟩
          · rintro (hk | hk)
            · exact Or.inl hk
            · exact Or.inr ⟨hk.1, fun hh => hk.2 (this.2 ⟨hh, hki⟩)⟩
      · intro y hy; exact hc.told y (List.mem_filter.1 hy).1
      · intro k st hk
        by_cases hki : k = i
        · subst hki
          simp only [set_self] at hk
          cases hk
          have := hc.told x hxm
          rw [hxi] at this
          exact this
        · simp only [set_other _ _ hki] at hk; exact hc.done k st hk
      · intro k hk
        by_cases hki : k = i
        · subst hki; simp only [set_self]; exact Or.inr ⟨_, rfl⟩
        · simp only [set_other _ _ hki]; exact hc.made k hk
  | done st => exact ⟨q, h⟩

end Tup.MasterFork
