import Verif.Monitor.Tokens

/-!
The invariant on the whole state.
-/

namespace Tup.Monitor

/-- The two events of a move are next to each other, and cookies are not used again. -/
def Pairs : List Event → Prop
  | [] => True
  | e :: l =>
    (e.mask = .movedFrom → ∀ e' ∈ l, e'.mask = .movedTo → e'.cookie = e.cookie → l.head? = some e' ∧ e.file ≠ e'.file) ∧
    (e.mask = .movedTo → ∀ e' ∈ l, e'.mask = .movedTo → e'.cookie ≠ e.cookie) ∧ Pairs l

structure Wf (s : State) : Prop where
  src : ∀ m ∈ s.queue, SrcOk m
  ids : ∀ m ∈ s.queue, m.id < s.next
  nodup : (s.queue.map (·.id)).Nodup
  moved : ∀ i ∈ s.moved, i < s.next
  cookie : 0 < s.cookie
  events : ∀ e ∈ s.kernel, e.cookie < s.cookie
  queued : ∀ m ∈ s.queue, m.ev.cookie < s.cookie
  pairs : Pairs s.kernel
  last : ∀ m ∈ s.queue, m.id ∈ s.moved → ∀ e ∈ s.kernel, e.mask = .movedTo → e.cookie = m.ev.cookie →
    s.kernel.head? = some e ∧ s.queue.getLast? = some m ∧ m.ev.mask = .movedFrom ∧ m.ev.file ≠ e.file

/-! ## Reading an event -/

theorem loop_id {e : Event} {drop : Bool} {q : List Queued}
    (h : ∀ m ∈ q, m.ev.file = e.file →
      (m.ev.mask.isNew && e.mask.isDel) = false ∧ (m.ev.mask.isDel && e.mask.isNew) = false) :
    ephemeralLoop e false drop q = (q, e, drop) := by
  induction q with
  | nil => rfl
  | cons m q ih =>
    have ih := ih (fun m hm => h m (List.mem_cons_of_mem _ hm))
    rw [ephemeralLoop, ih]
    split
    · rename_i hf
      obtain ⟨h1, h2⟩ := h m List.mem_cons_self hf
      rw [h1, h2]
      rfl
    · rfl

theorem mem_quToks {x : File} {q : List Queued} {m : Queued} (hm : m ∈ q) {t : Tok} (ht : t ∈ quTok x m) : t ∈ quToks x q :=
  List.mem_flatMap.2 ⟨m, hm, ht⟩

theorem tok_new {x : File} {m : Queued} (hf : m.ev.file = x) (h : m.ev.mask.isNew = true) :
    .new ∈ quTok x m ∨ .into ∈ quTok x m := by
  rw [quTok, evTok, if_pos hf]
  cases hk : m.ev.mask <;> rw [hk] at h <;> first | (cases h; done) | simp

theorem tok_del {x : File} {m : Queued} (hf : m.ev.file = x) (h : m.ev.mask.isDel = true) : .del ∈ quTok x m := by
  rw [quTok, evTok, if_pos hf]
  cases hk : m.ev.mask <;> rw [hk] at h <;> first | (cases h; done) | simp

theorem new_notDel {m : Mask} (h : m.isNew = true) : m.isDel = false := by cases m <;> first | rfl | cases h

/-- What happens when the event `e` is read. -/
inductive Read (s : State) (e : Event) : State → Prop
  | again {q : List Queued} {m : Queued} (hq : s.queue = q ++ [m]) (hm : m.ev = e) : Read s e s
  | cancel {q : List Queued} (hd : e.mask.isDel = true)
      (hn : .new ∈ quToks e.file s.queue ∨ .into ∈ quToks e.file s.queue)
      (hq : (ephemeralLoop e false false s.queue).1 = q) : Read s e { s with queue := q }
  | del (hd : e.mask.isDel = true) (hn : .new ∉ quToks e.file s.queue) (hi : .into ∉ quToks e.file s.queue) :
      Read s e (s.enqueue e none)
  | convert {q : List Queued} (hn : e.mask.isNew = true) (hd : .del ∈ quToks e.file s.queue)
      (hq : (ephemeralLoop e false false s.queue).1 = q) :
      Read s e ({ s with queue := q }.enqueue { e with mask := .modify } none)
  | new (hn : e.mask.isNew = true) (hd : .del ∉ quToks e.file s.queue) : Read s e (s.enqueue e none)
  | claim {q : List Queued} {m : Queued} (hn : e.mask = .movedTo) (hd : .del ∉ quToks e.file s.queue)
      (hq : s.queue = q ++ [m]) (hm : m.ev.mask = .movedFrom) (hf : m.ev.file ≠ e.file) :
      Read s e ({ s with queue := q ++ [m.cancel], moved := s.moved.erase m.id }.enqueue e (some m.ev.file))
  | other (hd : e.mask.isDel = false) (hn : e.mask.isNew = false) : Read s e (s.enqueue e none)

theorem claim_spec {q : List Queued} {c : Nat} {l : List Nat} {i : Nat} {f : File} (h : claim q c l = .claimed i f) :
    ∃ m ∈ q, m.id = i ∧ i ∈ l ∧ m.ev.cookie = c ∧ m.ev.file = f := by
  induction l with
  | nil => cases h
  | cons j l ih =>
    rw [claim] at h
    split at h
    · cases h
    · rename_i m hm
      split at h
      · cases h
        rw [find] at hm
        have := List.find?_some hm
        exact ⟨m, List.mem_of_find?_eq_some hm, by simpa using this, List.mem_cons_self, by assumption, rfl⟩
      · obtain ⟨m, h1, h2, h3, h4⟩ := ih h
        exact ⟨m, h1, h2, List.mem_cons_of_mem _ h3, h4⟩

theorem cancelId_last {q : List Queued} {m : Queued} (h : ((q ++ [m]).map (·.id)).Nodup) :
    cancelId (q ++ [m]) m.id = q ++ [m.cancel] := by
  rw [cancelId, List.map_append, List.map_singleton, if_pos rfl]
  congr 1
  rw [List.map_append, List.nodup_append] at h
  apply List.ext_getElem (by simp)
  intro n h1 h2
  rw [List.getElem_map, if_neg]
  intro e
  exact h.2.2 _ (List.mem_map.2 ⟨_, List.getElem_mem h2, rfl⟩) _ (List.mem_map.2 ⟨m, List.mem_singleton.2 rfl, rfl⟩) e

theorem read_of {s s' : State} {e : Event} {k : List Event} (hw : Wf s) (hk : s.kernel = e :: k)
    (h : { s with kernel := k }.queueEvent e = some s') : Read { s with kernel := k } e s' := by
  rw [State.queueEvent] at h
  split at h
  · rename_i hl
    cases h
    obtain ⟨m, hm, hme⟩ := Option.map_eq_some_iff.1 hl
    obtain ⟨q, hq⟩ := List.getLast?_eq_some_iff.1 hm
    exact .again hq hme
  · rename_i hl; clear hl
    simp only [ephemeral] at h
    by_cases hd : e.mask.isDel = true
    · rw [hd, Bool.or_true, if_pos rfl] at h
      obtain ⟨h1, h2, h3⟩ := loop_del rfl hd s.queue hw.src false false
      by_cases hn : .new ∈ quToks e.file s.queue ∨ .into ∈ quToks e.file s.queue
      · rw [if_pos (h3.2 (.inr hn))] at h
        cases h
        exact Read.cancel (s := { s with kernel := k }) hd hn rfl
      · have hid : ephemeralLoop e false false s.queue = (s.queue, e, false) := by
          apply loop_id
          intro m hm hf
          rw [hd, Bool.and_true]
          constructor
          · cases hN : m.ev.mask.isNew
            · rfl
            · exact absurd ((tok_new hf hN).imp (mem_quToks hm) (mem_quToks hm)) hn
          · cases hN : e.mask.isNew
            · rw [Bool.and_false]
            · rw [new_notDel hN] at hd; cases hd
        rw [hid] at h
        simp only [Bool.false_eq_true, if_false, State.match] at h
        have : e.mask ≠ .movedTo := fun h => by rw [h] at hd; cases hd
        rw [if_neg this] at h
        cases h
        exact Read.del (s := { s with kernel := k }) hd (fun h => hn (.inl h)) (fun h => hn (.inr h))
    · have hd : e.mask.isDel = false := by cases hh : e.mask.isDel <;> simp_all
      by_cases hn : e.mask.isNew = true
      · rw [hn, Bool.true_or, if_pos rfl] at h
        obtain ⟨h1, h2, h3⟩ := loop_new rfl s.queue hw.src false false (.inl ⟨hn, rfl⟩)
        by_cases hD : .del ∈ quToks e.file s.queue
        · rw [if_pos hD] at h2
          rw [h3, if_neg Bool.false_ne_true, h2, State.match, if_neg (by simp)] at h
          cases h
          exact Read.convert (s := { s with kernel := k }) hn hD rfl
        · have hid : ephemeralLoop e false false s.queue = (s.queue, e, false) := by
            apply loop_id
            intro m hm hf
            rw [hd, Bool.and_false, hn, Bool.and_true]
            refine ⟨rfl, ?_⟩
            cases hN : m.ev.mask.isDel
            · rfl
            · exact absurd (mem_quToks hm (tok_del hf hN)) hD
          rw [hid] at h
          simp only [Bool.false_eq_true, if_false, State.match] at h
          split at h
          · rename_i hto
            split at h
            · cases h
            · cases h
              exact Read.new (s := { s with kernel := k }) hn hD
            · rename_i i f hc
              cases h
              obtain ⟨m, hm, rfl, hi, hco, rfl⟩ := claim_spec hc
              obtain ⟨-, hl, hmf, hf⟩ := hw.last m hm hi e (by rw [hk]; exact List.mem_cons_self) hto hco.symm
              obtain ⟨q, hq⟩ := List.getLast?_eq_some_iff.1 hl
              have hcan : cancelId s.queue m.id = q ++ [m.cancel] := by rw [hq]; exact cancelId_last (hq ▸ hw.nodup)
              have := Read.claim (s := { s with kernel := k }) hto hD hq hmf hf
              simp only [hcan]
              exact this
          · cases h
            exact Read.new (s := { s with kernel := k }) hn hD
      · have hn : e.mask.isNew = false := by cases hh : e.mask.isNew <;> simp_all
        simp only [hd, hn, Bool.or_false, Bool.false_eq_true, if_false, State.match] at h
        have : e.mask ≠ .movedTo := fun h => by rw [h] at hn; cases hn
        rw [if_neg this] at h
        cases h
        exact Read.other (s := { s with kernel := k }) hd hn

end Tup.Monitor
