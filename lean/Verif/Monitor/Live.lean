import Verif.Monitor.Run

/-! The list of moves points only to events in the queue, if no name is used again while a move away from it waits. -/

namespace Tup.Monitor

structure Live (s : State) : Prop where
  found : ∀ i ∈ s.moved, ∃ m ∈ s.queue, m.id = i ∧ m.ev.mask = .movedFrom
  nodup : s.moved.Nodup
  queue : ∀ m ∈ s.queue, m.ev.mask = .movedFrom → ∀ e ∈ s.kernel, e.mask.isNew = true → e.file ≠ m.ev.file
  kernel : s.kernel.Pairwise fun e e' => e.mask = .movedFrom → e'.mask.isNew = true → e'.file ≠ e.file

theorem loop_mem_other {e : Event} {both drop : Bool} {q : List Queued} {m : Queued} (hm : m ∈ q) (hf : m.ev.file ≠ e.file) :
    m ∈ (ephemeralLoop e both drop q).1 := by
  induction q generalizing e both drop with
  | nil => cases hm
  | cons a q ih =>
    rw [ephemeralLoop]
    rcases List.mem_cons.1 hm with rfl | hm
    · rw [if_neg hf]
      exact List.mem_cons_self
    · split
      · split
        · exact List.mem_cons_of_mem _ (ih hm hf)
        · split
          · exact List.mem_cons_of_mem _ (ih (e := { e with mask := .modify }) hm hf)
          · split <;> exact List.mem_cons_of_mem _ (ih hm hf)
      · exact List.mem_cons_of_mem _ (ih hm hf)

theorem loop_mem_del {e : Event} {both drop : Bool} {q : List Queued} {m : Queued} (hm : m ∈ q) (he : e.mask.isDel = true)
    (hd : m.ev.mask.isDel = true) {d : Bool} (hs : Shape both d (quToks e.file q)) : m ∈ (ephemeralLoop e both drop q).1 := by
  have hn : e.mask.isNew = false := by cases h : e.mask <;> simp_all [Mask.isNew, Mask.isDel]
  induction q generalizing both drop d with
  | nil => cases hm
  | cons a q ih =>
    rw [quToks_cons, shape_append] at hs
    rw [ephemeralLoop]
    by_cases hf : a.ev.file = e.file
    · rw [if_pos hf, he, hn, Bool.and_true, Bool.and_false, if_neg (c := false = true) (by decide)]
      rcases List.mem_cons.1 hm with rfl | hm
      · have : m.ev.mask.isNew = false := by cases h : m.ev.mask <;> simp_all [Mask.isNew, Mask.isDel]
        rw [this, if_neg (by decide)]
        have hb : both = false := by
          have h1 := hs.1
          rw [quTok, evTok, if_pos hf] at h1
          cases h : m.ev.mask <;> rw [h] at h1 hd <;> first | (cases hd; done) | exact h1.1
        rw [hb, if_neg (by decide)]
        exact List.mem_cons_self
      · split
        · rename_i hnew
          refine List.mem_cons_of_mem _ (ih hm (shape_mono hs.2 ?_ id))
          intro _
          rw [decide_eq_true (tok_new hf hnew), Bool.or_true]
        · split
          · exact List.mem_cons_of_mem _ (ih hm (shape_mono hs.2 (by intro h; rw [h, Bool.true_or]) id))
          · exact List.mem_cons_of_mem _ (ih hm (shape_mono hs.2 (by intro h; rw [h, Bool.true_or]) id))
    · rw [if_neg hf]
      rcases List.mem_cons.1 hm with rfl | hm
      · exact List.mem_cons_self
      · exact List.mem_cons_of_mem _ (ih hm (shape_mono hs.2 (by intro h; rw [h, Bool.true_or]) id))

theorem loop_old {e : Event} {both drop : Bool} {q : List Queued} {m : Queued} (hm : m ∈ (ephemeralLoop e both drop q).1)
    (hk : m.ev.mask ≠ .none) : m ∈ q := by
  induction q generalizing e both drop with
  | nil => exact hm
  | cons a q ih =>
    have hc : m ≠ a.cancel := fun h => hk (by rw [h]; rfl)
    rw [ephemeralLoop] at hm
    split at hm
    · split at hm
      · exact List.mem_cons_of_mem _ (ih ((List.mem_cons.1 hm).resolve_left hc))
      · split at hm
        · exact List.mem_cons_of_mem _ (ih ((List.mem_cons.1 hm).resolve_left hc))
        · split at hm
          · exact List.mem_cons_of_mem _ (ih ((List.mem_cons.1 hm).resolve_left hc))
          · exact List.mem_cons.2 ((List.mem_cons.1 hm).imp_right ih)
    · exact List.mem_cons.2 ((List.mem_cons.1 hm).imp_right ih)

theorem Live.claim {s : State} (h : Live s) (c : Nat) : ∀ l, (∀ i ∈ l, i ∈ s.moved) → claim s.queue c l ≠ .undefined := by
  intro l
  induction l with
  | nil => intro _ h; cases h
  | cons i l ih =>
    intro hl
    obtain ⟨m, hm, hi, -⟩ := h.found i (hl i List.mem_cons_self)
    rw [Monitor.claim]
    cases hf : find s.queue i with
    | none =>
      rw [find, List.find?_eq_none] at hf
      exact absurd (hf m hm) (by simp [hi])
    | some m' =>
      simp only
      split
      · intro h; cases h
      · exact ih (fun i hi => hl i (List.mem_cons_of_mem _ hi))

/-- Reading the next event is defined. -/
theorem Live.defined {s : State} (hw : Wf s) (h : Live s) {e : Event} {k : List Event} :
    ∃ s', { s with kernel := k }.queueEvent e = some s' := by
  rw [State.queueEvent]
  split
  · exact ⟨_, rfl⟩
  · simp only [ephemeral]
    have nomatch' : ∀ (s1 : State) (e1 : Event), e1.mask ≠ .movedTo → ∃ s', s1.match e1 = some s' := by
      intro s1 e1 h1
      rw [State.match, if_neg h1]
      exact ⟨_, rfl⟩
    by_cases hn : e.mask.isNew = true
    · rw [hn, Bool.true_or, if_pos rfl]
      obtain ⟨h1, h2, h3⟩ := loop_new rfl s.queue hw.src false false (.inl ⟨hn, rfl⟩)
      by_cases hd : .del ∈ quToks e.file s.queue
      · rw [if_pos hd] at h2
        rw [h3, if_neg Bool.false_ne_true, h2]
        exact nomatch' _ _ (by simp)
      · have hid : ephemeralLoop e false false s.queue = (s.queue, e, false) := by
          apply loop_id
          intro m hm hf
          rw [new_notDel hn, Bool.and_false, hn, Bool.and_true]
          refine ⟨rfl, ?_⟩
          cases hN : m.ev.mask.isDel
          · rfl
          · exact absurd (mem_quToks hm (tok_del hf hN)) hd
        rw [hid]
        simp only [Bool.false_eq_true, if_false, State.match]
        have := h.claim e.cookie s.moved (fun i hi => hi)
        split
        · split
          · contradiction
          · exact ⟨_, rfl⟩
          · exact ⟨_, rfl⟩
        · exact ⟨_, rfl⟩
    · have hmt : e.mask ≠ .movedTo := fun h => by rw [h] at hn; exact hn rfl
      by_cases hd : e.mask.isDel = true
      · rw [hd, Bool.or_true, if_pos rfl]
        obtain ⟨h1, h2, h3⟩ := loop_del rfl hd s.queue hw.src false false
        split
        · exact ⟨_, rfl⟩
        · rw [h2]
          exact nomatch' _ _ hmt
      · simp only [Bool.not_eq_true] at hn hd
        simp only [hn, hd, Bool.or_false, Bool.false_eq_true, if_false]
        exact nomatch' _ _ hmt

theorem Live.enqueue {s : State} (h : Live s) (hw : Wf s) {e : Event} {src : Option File}
    (he : e.mask = .movedFrom → ∀ e' ∈ s.kernel, e'.mask.isNew = true → e'.file ≠ e.file) : Live (s.enqueue e src) := by
  refine ⟨?_, ?_, ?_, h.kernel⟩
  · intro i hi
    simp only [State.enqueue] at hi ⊢
    split at hi
    · rename_i hm
      rcases List.mem_cons.1 hi with rfl | hi
      · exact ⟨_, List.mem_append_right _ (List.mem_singleton.2 rfl), rfl, hm⟩
      · obtain ⟨m, hm, h2⟩ := h.found i hi
        exact ⟨m, List.mem_append_left _ hm, h2⟩
    · obtain ⟨m, hm, h2⟩ := h.found i hi
      exact ⟨m, List.mem_append_left _ hm, h2⟩
  · simp only [State.enqueue]
    split
    · exact List.nodup_cons.2 ⟨fun hi => Nat.lt_irrefl _ (hw.moved _ hi), h.nodup⟩
    · exact h.nodup
  · intro m hm hmask
    rcases List.mem_append.1 hm with hm | hm
    · exact h.queue m hm hmask
    · cases List.mem_singleton.1 hm
      exact he hmask

theorem Live.read {s s' : State} {e : Event} {k : List Event} (hw : Wf s) (hr' : Right s) (h : Live s) (hk : s.kernel = e :: k)
    (hr : Read { s with kernel := k } e s') : Live s' := by
  have hke := h.kernel
  rw [hk, List.pairwise_cons] at hke
  have hqk : ∀ m ∈ s.queue, m.ev.mask = .movedFrom → ∀ e' ∈ k, e'.mask.isNew = true → e'.file ≠ m.ev.file :=
    fun m hm hm' e' he' => h.queue m hm hm' e' (by rw [hk]; exact List.mem_cons_of_mem _ he')
  have h0 : Live { s with kernel := k } := ⟨h.found, h.nodup, hqk, hke.2⟩
  have w0 : Wf { s with kernel := k } := (hw.replace hk rfl (fun i hi => hi)).1
  have henq : e.mask = .movedFrom → ∀ e' ∈ k, e'.mask.isNew = true → e'.file ≠ e.file :=
    fun hm e' he' => hke.1 e' he' hm
  cases hr with
  | again hq hm => exact h0
  | cancel hd hn hq =>
    subst hq
    refine ⟨?_, h.nodup, ?_, hke.2⟩
    · intro i hi
      obtain ⟨m, hm, h1, h2⟩ := h.found i hi
      exact ⟨m, loop_mem_del hm hd (by rw [h2]; rfl) (hr' e.file).shape, h1, h2⟩
    · intro m hm hmask
      exact hqk m (loop_old hm (by rw [hmask]; intro h; cases h)) hmask
  | del hd hn hi => exact h0.enqueue w0 henq
  | new hd hn => exact h0.enqueue w0 henq
  | other hd hn => exact h0.enqueue w0 henq
  | convert hn hd hq =>
    subst hq
    have w1 := (hw.replace hk (loop_sig e false false s.queue) (fun i hi => hi)).1
    have l1 : Live { s with kernel := k, queue := (ephemeralLoop e false false s.queue).1 } := by
     refine ⟨?_, h.nodup, ?_, hke.2⟩
     · intro i hi
       obtain ⟨m, hm, h1, h2⟩ := h.found i hi
       refine ⟨m, loop_mem_other hm ?_, h1, h2⟩
       exact Ne.symm (h.queue m hm h2 e (by rw [hk]; exact List.mem_cons_self) hn)
     · intro m hm hmask
       exact hqk m (loop_old hm (by rw [hmask]; intro h; cases h)) hmask
    exact l1.enqueue w1 (fun h => by cases h)
  | claim hn hd hq hm hf =>
    rename_i q m
    have hq : s.queue = q ++ [m] := hq
    have hsig : (q ++ [m.cancel]).map sig = s.queue.map sig := by rw [hq, List.map_append, List.map_append]; rfl
    have w1 := (hw.replace hk hsig (fun i hi => List.mem_of_mem_erase (a := i) (b := m.id) hi)).1
    refine Live.enqueue ⟨?_, h.nodup.erase _, ?_, hke.2⟩ w1 henq
    · intro i hi
      obtain ⟨m', hm', h1, h2⟩ := h.found i (List.mem_of_mem_erase hi)
      refine ⟨m', ?_, h1, h2⟩
      rw [hq] at hm'
      rcases List.mem_append.1 hm' with h' | h'
      · exact List.mem_append_left _ h'
      · cases List.mem_singleton.1 h'
        exact absurd h1.symm ((h.nodup.mem_erase_iff).1 hi).1
    · intro m' hm' hmask
      refine hqk m' ?_ hmask
      rw [hq]
      rcases List.mem_append.1 hm' with h' | h'
      · exact List.mem_append_left _ h'
      · cases List.mem_singleton.1 h'
        cases hmask

theorem Live.handle {s : State} {m : Queued} {q : List Queued} (hw : Wf s) (h : Live s) (hq : s.queue = m :: q) :
    Live ({ s with queue := q }.handle m) := by
  have hn := hw.nodup
  rw [hq, List.map_cons, List.nodup_cons] at hn
  have hsub : ∀ x ∈ q, x ∈ s.queue := fun x hx => by rw [hq]; exact List.mem_cons_of_mem _ hx
  have keep : m.ev.mask ≠ .movedFrom → ∀ r, Live { s with queue := q, recorded := r } := by
    intro hm r
    refine ⟨?_, h.nodup, fun x hx => h.queue x (hsub x hx), h.kernel⟩
    intro i hi
    obtain ⟨x, hx, h1, h2⟩ := h.found i hi
    rw [hq] at hx
    rcases List.mem_cons.1 hx with rfl | hx
    · exact absurd h2 hm
    · exact ⟨x, hx, h1, h2⟩
  cases hm : m.ev.mask <;> cases hsrc : m.src <;>
    simp only [State.handle, hm, hsrc, State.watchPath, State.fileMod, State.fileDel] <;>
    first
    | exact keep (by rw [hm]; decide) _
    | (split <;> exact keep (by rw [hm]; decide) _)
    | (split <;> split <;> exact keep (by rw [hm]; decide) _)
    | (refine ⟨?_, h.nodup.erase _, fun x hx => h.queue x (hsub x hx), h.kernel⟩
       intro i hi
       obtain ⟨x, hx, h1, h2⟩ := h.found i (List.mem_of_mem_erase hi)
       rw [hq] at hx
       rcases List.mem_cons.1 hx with rfl | hx
       · exact absurd h1.symm ((h.nodup.mem_erase_iff).1 hi).1
       · exact ⟨x, hx, h1, h2⟩)

theorem Live.grow {s : State} (h : Live s) {l : List Event} {c : Nat} {d : File → Bool}
    (hl : ∀ e ∈ l, e.mask.isNew = true → ¬ Going s e.file)
    (hp : l.Pairwise fun e e' => e.mask = .movedFrom → e'.mask.isNew = true → e'.file ≠ e.file) :
    Live { s with disk := d, kernel := s.kernel ++ l, cookie := c } := by
  refine ⟨h.found, h.nodup, ?_, List.pairwise_append.2 ⟨h.kernel, hp, ?_⟩⟩
  · intro m hm hmask e he hn
    rcases List.mem_append.1 he with he | he
    · exact h.queue m hm hmask e he hn
    · exact fun hf => hl e he hn (.inl ⟨m, hm, hmask, hf.symm⟩)
  · intro e he e' he' hmask hn hf
    exact hl e' he' hn (.inr ⟨e, he, hmask, hf.symm⟩)

theorem Live.emit {s : State} (h : Live s) {e : Event} {c : Nat} {d : File → Bool} (hl : e.mask.isNew = true → ¬ Going s e.file) :
    Live { s with disk := d, kernel := emit s.kernel e, cookie := c } := by
  rcases emit_cases s.kernel e with he | ⟨he, -⟩ <;> rw [he]
  · refine h.grow ?_ (List.pairwise_singleton _ _)
    intro e' he'
    cases List.mem_singleton.1 he'
    exact hl
  · exact ⟨h.found, h.nodup, h.queue, h.kernel⟩

theorem Live.op {s : State} (hw : Wf s) (h : Live s) (o : Op) (hc : ∀ f, o.puts = some f → ¬ Going s f) : Live (s.op o) := by
  cases o <;> simp only [State.op]
  case create f =>
    split
    · exact h
    · exact h.emit (c := s.cookie) (fun _ => hc f rfl)
  case write f =>
    split
    · exact h.emit (c := s.cookie) (d := s.disk) (fun h => by cases h)
    · exact h
  case touch f =>
    split
    · exact h.emit (c := s.cookie) (d := s.disk) (fun h => by cases h)
    · exact h
  case remove f =>
    split
    · exact h.emit (c := s.cookie) (fun h => by cases h)
    · exact h
  case rename f g =>
    split
    · rename_i hf
      rw [emit_rename hw.events]
      refine h.grow ?_ ?_
      · intro e he hn
        simp only [List.mem_cons, List.not_mem_nil, or_false] at he
        rcases he with rfl | rfl
        · cases hn
        · exact hc g rfl
      · refine List.pairwise_cons.2 ⟨?_, List.pairwise_singleton _ _⟩
        intro e he _ _
        cases List.mem_singleton.1 he
        exact Ne.symm hf.2
    · exact h
  case moveOut f =>
    split
    · exact h.emit (fun h => by cases h)
    · exact h
  case moveIn f =>
    exact h.emit (fun _ => hc f rfl)

theorem Live.start (disk : File → Bool) : Live (start disk) := by
  refine ⟨?_, List.nodup_nil, ?_, List.Pairwise.nil⟩ <;> intro _ h <;> cases h

theorem Live.step {s : State} {a : Step} (hw : Wf s) (hr : Right s) (h : Live s)
    (hc : ∀ o f, a = .op o → o.puts = some f → ¬ Going s f) : ∃ s', s.step a = some s' ∧ Live s' := by
  cases a with
  | op o => exact ⟨_, rfl, h.op hw o (fun f => hc o f rfl)⟩
  | read =>
    simp only [State.step]
    split
    · exact ⟨_, rfl, h⟩
    · split
      · exact ⟨_, rfl, h⟩
      · rename_i e k hk
        obtain ⟨s', hs'⟩ := h.defined hw (e := e) (k := k)
        exact ⟨s', hs', h.read hw hr hk (read_of hw hk hs')⟩
  | flush => exact ⟨_, rfl, ⟨h.found, h.nodup, h.queue, h.kernel⟩⟩
  | next =>
    simp only [State.step]
    split
    · split
      · exact ⟨_, rfl, ⟨h.found, h.nodup, h.queue, h.kernel⟩⟩
      · rename_i hq
        exact ⟨_, rfl, h.handle hw hq⟩
    · exact ⟨_, rfl, h⟩

end Tup.Monitor
