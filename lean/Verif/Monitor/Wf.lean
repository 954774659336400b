import Verif.Monitor.Inv

/-! The first part of the invariant survives every step. -/

namespace Tup.Monitor

/-- What is not changed when an event is cancelled. -/
def sig (m : Queued) : Nat × File × Nat × Option File := (m.id, m.ev.file, m.ev.cookie, m.src)

theorem loop_sig (e : Event) (both drop : Bool) (q : List Queued) : (ephemeralLoop e both drop q).1.map sig = q.map sig := by
  induction q generalizing e both drop with
  | nil => rfl
  | cons m q ih =>
    rw [ephemeralLoop]
    have hc : sig m.cancel = sig m := rfl
    split
    · split
      · simp only [List.map_cons, hc, ih]
      · split
        · simp only [List.map_cons, hc, ih]
        · split <;> simp only [List.map_cons, hc, ih]
    · simp only [List.map_cons, ih]

theorem sig_mem {q q' : List Queued} (h : q'.map sig = q.map sig) {m : Queued} (hm : m ∈ q') : ∃ m0 ∈ q, sig m0 = sig m := by
  have : sig m ∈ q.map sig := h ▸ List.mem_map.2 ⟨m, hm, rfl⟩
  exact List.mem_map.1 this

/-- No event that waits to be read belongs to a move that is in the queue. -/
def Clear (s : State) : Prop :=
  ∀ m ∈ s.queue, m.id ∈ s.moved → ∀ e ∈ s.kernel, e.mask = .movedTo → e.cookie ≠ m.ev.cookie

theorem Wf.replace {s : State} (h : Wf s) {e : Event} {k : List Event} (hk : s.kernel = e :: k) {q : List Queued}
    (hq : q.map sig = s.queue.map sig) {mv : List Nat} (hm : ∀ i ∈ mv, i ∈ s.moved) :
    Wf { s with kernel := k, queue := q, moved := mv } ∧ Clear { s with kernel := k, queue := q, moved := mv } := by
  have hp := h.pairs
  rw [hk] at hp
  have hc : Clear { s with kernel := k, queue := q, moved := mv } := by
    intro m hmq hi e' he' hto hco
    obtain ⟨m0, hm0, hs⟩ := sig_mem hq hmq
    simp only [sig, Prod.mk.injEq] at hs
    obtain ⟨h1, -⟩ := h.last m0 hm0 (hs.1 ▸ hm _ hi) e' (by rw [hk]; exact List.mem_cons_of_mem _ he') hto
      (hco.trans hs.2.2.1.symm)
    rw [hk] at h1
    cases h1
    exact hp.2.1 hto e he' hto rfl
  refine ⟨⟨?_, ?_, ?_, fun i hi => h.moved i (hm i hi), h.cookie, ?_, ?_, hp.2.2, ?_⟩, hc⟩
  · intro m hmq f hf
    obtain ⟨m0, hm0, hs⟩ := sig_mem hq hmq
    simp only [sig, Prod.mk.injEq] at hs
    have := h.src m0 hm0 f (hs.2.2.2.trans hf)
    rw [hs.2.1] at this
    exact this
  · intro m hmq
    obtain ⟨m0, hm0, hs⟩ := sig_mem hq hmq
    simp only [sig, Prod.mk.injEq] at hs
    exact hs.1 ▸ h.ids m0 hm0
  · have e1 : ∀ l : List Queued, l.map (·.id) = (l.map sig).map (·.1) := by
      intro l; rw [List.map_map]; rfl
    show (q.map (·.id)).Nodup
    rw [e1, hq, ← e1]
    exact h.nodup
  · intro e' he'
    exact h.events e' (by rw [hk]; exact List.mem_cons_of_mem _ he')
  · intro m hmq
    obtain ⟨m0, hm0, hs⟩ := sig_mem hq hmq
    simp only [sig, Prod.mk.injEq] at hs
    exact hs.2.2.1 ▸ h.queued m0 hm0
  · intro m hmq hi e' he' hto hco
    exact absurd hco (hc m hmq hi e' he' hto)

theorem Wf.enqueue {s : State} (h : Wf s) (hc : Clear s) {e : Event} {src : Option File} (he : e.cookie < s.cookie)
    (hs : ∀ f, src = some f → f ≠ e.file)
    (hp : e.mask = .movedFrom → ∀ e' ∈ s.kernel, e'.mask = .movedTo → e'.cookie = e.cookie →
      s.kernel.head? = some e' ∧ e.file ≠ e'.file) : Wf (s.enqueue e src) := by
  have hmem : ∀ m ∈ (s.enqueue e src).queue, m ∈ s.queue ∨ m = ⟨s.next, e, src⟩ := by
    intro m hm
    rcases List.mem_append.1 hm with h | h
    · exact .inl h
    · exact .inr (List.mem_singleton.1 h)
  have hmv : ∀ i ∈ (s.enqueue e src).moved, i ∈ s.moved ∨ i = s.next ∧ e.mask = .movedFrom := by
    intro i hi
    simp only [State.enqueue] at hi
    split at hi
    · rename_i hmask
      rcases List.mem_cons.1 hi with rfl | hi
      · exact .inr ⟨rfl, hmask⟩
      · exact .inl hi
    · exact .inl hi
  refine ⟨?_, ?_, ?_, ?_, h.cookie, h.events, ?_, h.pairs, ?_⟩
  · intro m hm
    rcases hmem m hm with hm | rfl
    · exact h.src m hm
    · exact hs
  · intro m hm
    show m.id < s.next + 1
    rcases hmem m hm with hm | rfl
    · have := h.ids m hm; omega
    · exact Nat.lt_succ_self _
  · show ((s.queue ++ [(⟨s.next, e, src⟩ : Queued)]).map Queued.id).Nodup
    rw [List.map_append, List.nodup_append]
    refine ⟨h.nodup, by simp, ?_⟩
    intro a ha b hb
    obtain ⟨m, hm, rfl⟩ := List.mem_map.1 ha
    have := h.ids m hm
    simp at hb
    omega
  · intro i hi
    show i < s.next + 1
    rcases hmv i hi with hi | ⟨rfl, -⟩
    · have := h.moved i hi; omega
    · exact Nat.lt_succ_self _
  · intro m hm
    rcases hmem m hm with hm | rfl
    · exact h.queued m hm
    · exact he
  · intro m hm hi e' he' hto hco
    rcases hmem m hm with hm | rfl
    · rcases hmv _ hi with hi | ⟨hi, -⟩
      · exact absurd hco (hc m hm hi e' he' hto)
      · exact absurd (h.ids m hm) (by omega)
    · rcases hmv _ hi with hi | ⟨-, hmask⟩
      · exact absurd (h.moved _ hi) (by simp)
      · obtain ⟨h1, h2⟩ := hp hmask e' he' hto hco
        exact ⟨h1, by simp [State.enqueue], hmask, h2⟩

theorem Wf.read {s s' : State} {e : Event} {k : List Event} (h : Wf s) (hk : s.kernel = e :: k)
    (hr : Read { s with kernel := k } e s') : Wf s' := by
  have he : e.cookie < s.cookie := h.events e (by rw [hk]; exact List.mem_cons_self)
  have hp := h.pairs
  rw [hk] at hp
  obtain ⟨h0, c0⟩ := h.replace hk rfl (fun i hi => hi)
  cases hr with
  | again hq hm => exact h0
  | cancel hd hn hq =>
    subst hq
    exact (h.replace hk (loop_sig e false false s.queue) (fun i hi => hi)).1
  | del hd hn hi => exact h0.enqueue c0 he (fun f hf => by cases hf) hp.1
  | convert hn hd hq =>
    subst hq
    obtain ⟨h1, c1⟩ := h.replace hk (loop_sig e false false s.queue) (fun i hi => hi)
    exact h1.enqueue c1 he (fun f hf => by cases hf) (fun h => by cases h)
  | new hn hd => exact h0.enqueue c0 he (fun f hf => by cases hf) hp.1
  | claim hn hd hq hm hf =>
    rename_i q m
    have hsig : (q ++ [m.cancel]).map sig = s.queue.map sig := by
      rw [show s.queue = q ++ [m] from hq, List.map_append, List.map_append]; rfl
    obtain ⟨h1, c1⟩ := h.replace hk hsig (fun i hi => List.mem_of_mem_erase (a := i) (b := m.id) hi)
    refine h1.enqueue c1 he (fun f hf' => ?_) hp.1
    cases hf'
    exact hf
  | other hd hn => exact h0.enqueue c0 he (fun f hf => by cases hf) hp.1

theorem Wf.handle {s : State} {m : Queued} {q : List Queued} (h : Wf s) (hq : s.queue = m :: q) :
    Wf ({ s with queue := q }.handle m) := by
  have hsub : ∀ x ∈ q, x ∈ s.queue := fun x hx => by rw [hq]; exact List.mem_cons_of_mem _ hx
  have hn := h.nodup
  rw [hq, List.map_cons, List.nodup_cons] at hn
  have hl : ∀ (mv : List Nat), (∀ i ∈ mv, i ∈ s.moved) → ∀ r, Wf { s with queue := q, moved := mv, recorded := r } := by
    intro mv hmv r
    refine ⟨fun x hx => h.src x (hsub x hx), fun x hx => h.ids x (hsub x hx), hn.2, fun i hi => h.moved i (hmv i hi),
      h.cookie, h.events, fun x hx => h.queued x (hsub x hx), h.pairs, ?_⟩
    intro x hx hi e he hto hco
    obtain ⟨h1, h2, h3⟩ := h.last x (hsub x hx) (hmv _ hi) e he hto hco
    refine ⟨h1, ?_, h3⟩
    rw [hq] at h2
    cases q with
    | nil => cases hx
    | cons a q => rwa [List.getLast?_cons_cons] at h2
  have h0 := hl s.moved (fun i hi => hi)
  simp only [State.handle, State.watchPath, State.fileMod, State.fileDel]
  split
  · exact h0 _
  · exact h0 _
  · split <;> split <;> exact h0 _
  · split <;> exact h0 _
  · exact h0 _
  · exact h0 _
  · exact h0 _
  · exact hl _ (fun i hi => List.mem_of_mem_erase hi) _

theorem pairs_append {k : List Event} (h : Pairs k) {e : Event} (he : ∀ e' ∈ k, e.mask = .movedTo → e'.cookie ≠ e.cookie) :
    Pairs (k ++ [e]) := by
  induction k with
  | nil => exact ⟨by simp, by simp, trivial⟩
  | cons a k ih =>
    refine ⟨?_, ?_, ih h.2.2 (fun e' he' => he e' (List.mem_cons_of_mem _ he'))⟩
    · intro hm e' he' hto hco
      rcases List.mem_append.1 he' with he' | he'
      · obtain ⟨h1, h2⟩ := h.1 hm e' he' hto hco
        refine ⟨?_, h2⟩
        cases k with
        | nil => cases he'
        | cons b k => exact h1
      · cases List.mem_singleton.1 he'
        exact absurd hco.symm (he a List.mem_cons_self hto)
    · intro hm e' he' hto hco
      rcases List.mem_append.1 he' with he' | he'
      · exact h.2.1 hm e' he' hto hco
      · cases List.mem_singleton.1 he'
        exact he a List.mem_cons_self hto hco.symm

theorem pairs_rename {k : List Event} (h : Pairs k) {c : Nat} (hc : ∀ e ∈ k, e.cookie < c) {f g : File} (hf : f ≠ g) :
    Pairs (k ++ [⟨.movedFrom, f, c⟩, ⟨.movedTo, g, c⟩]) := by
  induction k with
  | nil =>
    refine ⟨?_, by simp, by simp [Pairs]⟩
    intro _ e' he' _ _
    cases List.mem_singleton.1 he'
    exact ⟨rfl, hf⟩
  | cons a k ih =>
    have ha := hc a List.mem_cons_self
    have hnew : ∀ e' ∈ [(⟨.movedFrom, f, c⟩ : Event), ⟨.movedTo, g, c⟩], e'.cookie = c := by
      intro e' he'
      simp only [List.mem_cons, List.not_mem_nil, or_false] at he'
      rcases he' with rfl | rfl <;> rfl
    refine ⟨?_, ?_, ih h.2.2 (fun e' he' => hc e' (List.mem_cons_of_mem _ he'))⟩
    · intro hm e' he' hto hco
      rcases List.mem_append.1 he' with he' | he'
      · obtain ⟨h1, h2⟩ := h.1 hm e' he' hto hco
        refine ⟨?_, h2⟩
        cases k with
        | nil => cases he'
        | cons b k => exact h1
      · have := hnew e' he'; omega
    · intro hm e' he' hto hco
      rcases List.mem_append.1 he' with he' | he'
      · exact h.2.1 hm e' he' hto hco
      · have := hnew e' he'; omega

theorem emit_fresh {k : List Event} {e : Event} (h : ∀ e' ∈ k, e'.cookie < e.cookie) : emit k e = k ++ [e] := by
  rw [emit, if_neg]
  intro hl
  exact Nat.lt_irrefl _ (h e (List.mem_of_getLast? hl))

theorem emit_cases (k : List Event) (e : Event) : emit k e = k ++ [e] ∨ emit k e = k ∧ ∃ k', k = k' ++ [e] := by
  rw [emit]
  split
  · rename_i h
    exact .inr ⟨rfl, List.getLast?_eq_some_iff.1 h⟩
  · exact .inl rfl

theorem emit_rename {k : List Event} {c : Nat} (h : ∀ e' ∈ k, e'.cookie < c) (f g : File) :
    emit (emit k ⟨.movedFrom, f, c⟩) ⟨.movedTo, g, c⟩ = k ++ [⟨.movedFrom, f, c⟩, ⟨.movedTo, g, c⟩] := by
  rw [emit_fresh (e := ⟨.movedFrom, f, c⟩) h, emit, if_neg (by simp), List.append_assoc]
  rfl

theorem Wf.grow {s : State} (h : Wf s) {l : List Event} {c : Nat} {d : File → Bool} (hc : s.cookie ≤ c)
    (hl : ∀ e ∈ l, e.cookie < c) (hto : ∀ e ∈ l, e.mask = .movedTo → s.cookie ≤ e.cookie) (hp : Pairs (s.kernel ++ l)) :
    Wf { s with disk := d, kernel := s.kernel ++ l, cookie := c } := by
  refine ⟨h.src, h.ids, h.nodup, h.moved, Nat.lt_of_lt_of_le h.cookie hc, ?_,
    fun m hm => Nat.lt_of_lt_of_le (h.queued m hm) hc, hp, ?_⟩
  · intro e he
    rcases List.mem_append.1 he with he | he
    · exact Nat.lt_of_lt_of_le (h.events e he) hc
    · exact hl e he
  · intro m hm hi e he hm' hco
    rcases List.mem_append.1 he with he | he
    · obtain ⟨h1, h2⟩ := h.last m hm hi e he hm' hco
      refine ⟨?_, h2⟩
      show (s.kernel ++ l).head? = some e
      rw [List.head?_append, h1]
      rfl
    · have := hto e he hm'
      have := h.queued m hm
      omega

theorem Wf.plain {s : State} (h : Wf s) {m : Mask} (hm : m ≠ .movedTo) (f : File) (d : File → Bool) :
    Wf { s with disk := d, kernel := emit s.kernel ⟨m, f, 0⟩ } := by
  rcases emit_cases s.kernel ⟨m, f, 0⟩ with he | ⟨he, -⟩ <;> rw [he]
  · refine h.grow (Nat.le_refl _) ?_ ?_ (pairs_append h.pairs (fun e' _ h' => absurd h' hm))
    · intro e he
      cases List.mem_singleton.1 he
      exact h.cookie
    · intro e he h'
      cases List.mem_singleton.1 he
      exact absurd h' hm
  · exact ⟨h.src, h.ids, h.nodup, h.moved, h.cookie, h.events, h.queued, h.pairs, h.last⟩

theorem Wf.op {s : State} (h : Wf s) (o : Op) : Wf (s.op o) := by
  cases o <;> simp only [State.op]
  · split
    · exact h
    · exact h.plain (by decide) _ _
  · split
    · exact h.plain (by decide) _ s.disk
    · exact h
  · split
    · exact h.plain (by decide) _ s.disk
    · exact h
  · split
    · exact h.plain (by decide) _ _
    · exact h
  · split
    · rename_i hf
      rw [emit_rename h.events]
      refine h.grow (Nat.le_succ _) ?_ ?_ (pairs_rename h.pairs h.events hf.2) <;> intro e he <;>
        simp only [List.mem_cons, List.not_mem_nil, or_false] at he <;> rcases he with rfl | rfl <;>
          first | exact Nat.lt_succ_self _ | (intro _; exact Nat.le_refl _)
    · exact h
  · split
    · rw [emit_fresh (e := ⟨.movedFrom, _, s.cookie⟩) h.events]
      refine h.grow (Nat.le_succ _) ?_ ?_ (pairs_append h.pairs (fun e' _ h' => by cases h')) <;> intro e he <;>
        cases List.mem_singleton.1 he <;> first | exact Nat.lt_succ_self _ | (intro _; exact Nat.le_refl _)
    · exact h
  · rw [emit_fresh (e := ⟨.movedTo, _, s.cookie⟩) h.events]
    refine h.grow (Nat.le_succ _) ?_ ?_ (pairs_append h.pairs (fun e' he _ => Nat.ne_of_lt (h.events e' he))) <;> intro e he <;>
      cases List.mem_singleton.1 he <;> first | exact Nat.lt_succ_self _ | (intro _; exact Nat.le_refl _)

theorem Wf.step {s s' : State} (h : Wf s) {a : Step} (hs : s.step a = some s') : Wf s' := by
  cases a with
  | op o => cases hs; exact h.op o
  | read =>
    simp only [State.step] at hs
    split at hs
    · cases hs; exact h
    · split at hs
      · cases hs; exact h
      · rename_i hk
        exact h.read hk (read_of h hk hs)
  | flush => cases hs; exact ⟨h.src, h.ids, h.nodup, h.moved, h.cookie, h.events, h.queued, h.pairs, h.last⟩
  | next =>
    simp only [State.step] at hs
    split at hs
    · split at hs
      · cases hs; exact ⟨h.src, h.ids, h.nodup, h.moved, h.cookie, h.events, h.queued, h.pairs, h.last⟩
      · rename_i hq
        cases hs
        exact h.handle hq
    · cases hs; exact h

theorem Wf.start (disk : File → Bool) : Wf (start disk) := by
  refine ⟨?_, ?_, List.nodup_nil, ?_, Nat.one_pos, ?_, ?_, trivial, ?_⟩ <;> intro _ h <;> cases h

end Tup.Monitor
