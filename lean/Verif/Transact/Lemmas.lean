import Verif.Transact.Model

namespace Tup.Transact

variable {F D α β : Type}

/-- A computation that stays inside of the open transaction. -/
def Inside (m : M F D α) : Prop := ∀ w, w.work.isSome →
  (∀ x ∈ (m w).1, x.disk = w.disk ∧ x.work.isSome) ∧ (m w).2.1.disk = w.disk ∧ (m w).2.1.work.isSome

/-- The committed contents do not change. -/
def Nothing (m : M F D α) (w : World F D) : Prop := (∀ x ∈ (m w).1, x.disk = w.disk) ∧ (m w).2.1.disk = w.disk

/-- The last operation commits, and none before. -/
def Committed (m : M F D α) (w : World F D) : Prop :=
  ∃ t, (m w).1 = t ++ [(m w).2.1] ∧ (∀ x ∈ t, x.disk = w.disk) ∧ (m w).2.1.work = none

/-- A computation that ends a transaction: nothing is recorded, or it is recorded by the last operation and then the
result is as given by `ok`. -/
def Ends (ok : Int ⊕ α → Prop) (m : M F D α) : Prop := ∀ w, w.work.isSome → Nothing m w ∨ (Committed m w ∧ ok (m w).2.2)

theorem andThen_eq (m : M F D α) (k : α → M F D β) : (m >>= k) = andThen m k := rfl

theorem bind_inl {m : M F D α} {k : α → M F D β} {w w' : World F D} {t : List (World F D)} {r : Int} (h : m w = (t, w', .inl r)) :
    (m >>= k) w = (t, w', .inl r) := by
  show andThen m k w = _
  unfold andThen; rw [h]

theorem bind_inr {m : M F D α} {k : α → M F D β} {w w' : World F D} {t : List (World F D)} {a : α} (h : m w = (t, w', .inr a)) :
    (m >>= k) w = (t ++ (k a w').1, (k a w').2.1, (k a w').2.2) := by
  show andThen m k w = _
  unfold andThen; rw [h]

theorem inside_bind {m : M F D α} {k : α → M F D β} (hm : Inside m) (hk : ∀ a, Inside (k a)) : Inside (m >>= k) := by
  intro w hw
  obtain ⟨h1, h2, h3⟩ := hm w hw
  rcases e : m w with ⟨t, w', r | a⟩
  · rw [bind_inl e]; rw [e] at h1 h2 h3; exact ⟨h1, h2, h3⟩
  · rw [bind_inr e]; rw [e] at h1 h2 h3
    obtain ⟨k1, k2, k3⟩ := hk a w' h3
    refine ⟨?_, k2.trans h2, k3⟩
    intro x hx
    rcases List.mem_append.1 hx with hx | hx
    · exact h1 x hx
    · exact ⟨(k1 x hx).1.trans h2, (k1 x hx).2⟩

theorem ends_bind {ok : Int ⊕ β → Prop} {m : M F D α} {k : α → M F D β} (hm : Inside m) (hk : ∀ a, Ends ok (k a)) :
    Ends ok (m >>= k) := by
  intro w hw
  obtain ⟨h1, h2, h3⟩ := hm w hw
  rcases e : m w with ⟨t, w', r | a⟩
  · left
    unfold Nothing
    rw [bind_inl e]; rw [e] at h1 h2
    exact ⟨fun x hx => (h1 x hx).1, h2⟩
  · rw [e] at h1 h2 h3
    rcases hk a w' h3 with ⟨k1, k2⟩ | ⟨⟨t', k1, k2, k3⟩, k4⟩
    · left
      unfold Nothing
      rw [bind_inr e]
      refine ⟨?_, k2.trans h2⟩
      intro x hx
      rcases List.mem_append.1 hx with hx | hx
      · exact (h1 x hx).1
      · exact (k1 x hx).trans h2
    · right
      unfold Committed
      rw [bind_inr e]
      refine ⟨⟨t ++ t', ?_, ?_, k3⟩, k4⟩
      · show t ++ (k a w').1 = t ++ t' ++ [(k a w').2.1]
        rw [List.append_assoc, ← k1]
      · intro x hx
        rcases List.mem_append.1 hx with hx | hx
        · exact (h1 x hx).1
        · exact (k2 x hx).trans h2

theorem inside_ret {a : α} : Inside (ret a : M F D α) := fun _ hw => ⟨(fun _ hx => by cases hx), rfl, hw⟩

theorem inside_stop {r : Int} : Inside (stop r : M F D α) := fun _ hw => ⟨(fun _ hx => by cases hx), rfl, hw⟩

theorem Inside.ends {ok : Int ⊕ α → Prop} {m : M F D α} (h : Inside m) : Ends ok m := fun w hw =>
  .inl ⟨fun x hx => ((h w hw).1 x hx).1, (h w hw).2.1⟩

theorem lastOf_mem (w : World F D) (t : List (World F D)) : lastOf w t = w ∨ lastOf w t ∈ t := by
  induction t generalizing w with
  | nil => exact .inl rfl
  | cons x xs ih =>
    rcases ih x with h | h
    · right; show lastOf x xs ∈ x :: xs; rw [h]; exact List.mem_cons_self
    · right; exact List.mem_cons_of_mem _ h

theorem inside_work {p : Work F D} : Inside (work p) := by
  intro w hw
  have hput : ∀ x ∈ ((p (w.files, w.view)).1.map w.put), x.disk = w.disk ∧ x.work.isSome := by
    intro x hx
    obtain ⟨s, _, rfl⟩ := List.mem_map.1 hx
    obtain ⟨d, hd⟩ := Option.isSome_iff_exists.1 hw
    simp [World.put, hd]
  refine ⟨hput, ?_⟩
  show (lastOf w _).disk = w.disk ∧ (lastOf w _).work.isSome
  rcases lastOf_mem w ((p (w.files, w.view)).1.map w.put) with h | h
  · rw [h]; exact ⟨rfl, hw⟩
  · exact hput _ h

theorem inside_must {p : Work F D} : Inside (must p) := by
  refine inside_bind inside_work fun rc => ?_
  split
  · exact inside_stop
  · exact inside_ret

theorem inside_get {f : World F D → α} : Inside (fun w => ([], w, .inr (f w)) : M F D α) :=
  fun _ hw => ⟨(fun _ hx => by cases hx), rfl, hw⟩

theorem ends_rollback_stop {ok : Int ⊕ α → Prop} {r : Int} : Ends ok (rollback >>= fun _ => (stop r : M F D α)) := by
  intro w hw
  obtain ⟨d, hd⟩ := Option.isSome_iff_exists.1 hw
  left
  have e : rollback w = ([{ w with work := none }], { w with work := none }, .inr 0) := by unfold rollback; rw [hd]
  unfold Nothing
  rw [bind_inr e]
  refine ⟨?_, rfl⟩
  intro x hx
  simp only [List.mem_append, List.mem_cons, List.not_mem_nil, or_false, stop] at hx
  rw [hx]

theorem commitStmt_some {w : World F D} {d : D} (h : w.work = some d) :
    commitStmt w = ([{ w with disk := d, work := none }], { w with disk := d, work := none }, .inr 0) := by
  unfold commitStmt; rw [h]

theorem ends_commitStmt : Ends (fun r => r = .inr 0) (commitStmt : M F D Int) := by
  intro w hw
  obtain ⟨d, hd⟩ := Option.isSome_iff_exists.1 hw
  right
  refine ⟨⟨[], ?_, (fun x hx => by cases hx), ?_⟩, ?_⟩ <;> rw [commitStmt_some hd] <;> rfl

theorem ends_commit {reclaim : Work F D} : Ends (fun r => r = .inr 0) (commit reclaim) := by
  refine ends_bind inside_work fun rc => ?_
  split
  · exact inside_ret.ends
  · exact ends_commitStmt

/-- A computation that does nothing more after the one that ends the transaction. -/
theorem ends_then {ok : Int ⊕ α → Prop} {ok' : Int ⊕ β → Prop} {m : M F D α} {k : α → M F D β} (hm : Ends ok m)
    (hk : ∀ a w, ((k a) w).1 = [] ∧ ((k a) w).2.1 = w) (h1 : ∀ r, ok (.inl r) → ok' (.inl r))
    (h2 : ∀ a w, ok (.inr a) → ok' ((k a) w).2.2) : Ends ok' (m >>= k) := by
  intro w hw
  rcases e : m w with ⟨t, w', r | a⟩
  · unfold Nothing Committed
    have := hm w hw
    unfold Nothing Committed at this
    rw [bind_inl e]; rw [e] at this
    rcases this with h | ⟨h, ho⟩
    · exact .inl h
    · exact .inr ⟨h, h1 _ ho⟩
  · have := hm w hw
    unfold Nothing Committed at *
    rw [bind_inr e]; rw [e] at this
    obtain ⟨e1, e2⟩ := hk a w'
    simp only [e1, e2, List.append_nil]
    rcases this with h | ⟨h, ho⟩
    · exact .inl h
    · exact .inr ⟨h, h2 _ _ ho⟩

theorem ends_commit_ret {reclaim : Work F D} {r : Int} {ok : Int ⊕ Int → Prop} (h : ok (.inr r)) :
    Ends ok (commit reclaim >>= fun _ => ret r) :=
  ends_then ends_commit (fun _ _ => ⟨rfl, rfl⟩) (fun _ h => by cases h) (fun _ _ _ => h)

/-- An ignored begin leaves a transaction open. -/
theorem begin_spec (w : World F D) : ∃ t w' r, begin' w = (t, w', .inr r) ∧ (∀ x ∈ t, x.disk = w.disk) ∧ w'.disk = w.disk ∧
    w'.work = some w.view ∧ w'.files = w.files := by
  unfold begin'
  cases h : w.work with
  | some d =>
    refine ⟨[], w, -1, rfl, (fun x hx => by cases hx), rfl, ?_, rfl⟩
    rw [h]; simp [World.view, h]
  | none =>
    refine ⟨_, _, 0, rfl, ?_, rfl, ?_, rfl⟩
    · intro x hx
      simp only [List.mem_cons, List.not_mem_nil, or_false] at hx
      rw [hx]
    · simp [World.view, h]

/-- All the phases: nothing is recorded, or it is recorded by the last operation. -/
def Phase (ok : Int ⊕ Int → Prop) (m : M F D Int) : Prop := ∀ w, Nothing m w ∨ (Committed m w ∧ ok (m w).2.2)

theorem phase_begin {ok : Int ⊕ Int → Prop} {k : Int → M F D Int} (hk : ∀ a, Ends ok (k a)) : Phase ok (begin' >>= k) := by
  intro w
  obtain ⟨t, w', r, e, h1, h2, h3, _⟩ := begin_spec w
  have hw : w'.work.isSome := by rw [h3]; rfl
  unfold Nothing Committed
  rw [bind_inr e]
  rcases hk r w' hw with ⟨k1, k2⟩ | ⟨⟨t', k1, k2, k3⟩, k4⟩
  · left
    refine ⟨?_, k2.trans h2⟩
    intro x hx
    rcases List.mem_append.1 hx with hx | hx
    · exact h1 x hx
    · exact (k1 x hx).trans h2
  · right
    refine ⟨⟨t ++ t', ?_, ?_, k3⟩, k4⟩
    · show t ++ (k r w').1 = t ++ t' ++ [(k r w').2.1]
      rw [List.append_assoc, ← k1]
    · intro x hx
      rcases List.mem_append.1 hx with hx | hx
      · exact h1 x hx
      · exact (k2 x hx).trans h2

/-- A checked begin. -/
theorem check_begin (k : Unit → M F D Int) :
    (check begin' >>= k) = begin' >>= fun rc => if rc < 0 then stop (-1) else k () := by
  funext w
  rcases e : begin' w with ⟨t, w', r | a⟩
  · rw [bind_inl (k := fun rc => if rc < 0 then stop (-1) else k ()) e]
    have : check begin' w = (t, w', .inl r) := bind_inl e
    rw [bind_inl this]
  · rw [bind_inr (k := fun rc => if rc < 0 then stop (-1) else k ()) e]
    have : check begin' w = (t ++ ((if a < 0 then stop (-1) else ret () : M F D Unit) w').1, ((if a < 0 then stop (-1) else ret () : M F D Unit) w').2.1, ((if a < 0 then stop (-1) else ret () : M F D Unit) w').2.2) := bind_inr e
    by_cases ha : a < 0
    · simp only [ha, if_true] at this ⊢
      rw [bind_inl (by simpa [stop] using this)]
      simp [stop]
    · simp only [ha, if_false] at this ⊢
      rw [bind_inr (by simpa [ret] using this)]

theorem ends_check_commit {reclaim : Work F D} {r : Int} {ok : Int ⊕ Int → Prop} (h : ok (.inr r)) :
    Ends ok (check (commit reclaim) >>= fun _ => ret r) := by
  refine ends_then (ok := fun x => x = .inr ()) ?_ (fun _ _ => ⟨rfl, rfl⟩) (fun _ h => by cases h) (fun _ _ _ => h)
  refine ends_then ends_commit ?_ (fun _ h => by cases h) ?_
  · intro a w; split <;> exact ⟨rfl, rfl⟩
  · intro a w ha
    have : a = 0 := by injection ha
    rw [this]; rfl

theorem phase_simple {body reclaim : Work F D} : Phase (fun r => r = .inr 0) (simple body reclaim) := by
  unfold simple
  rw [check_begin]
  refine phase_begin fun rc => ?_
  split
  · exact inside_stop.ends
  · exact ends_bind inside_must fun _ => ends_check_commit rfl

theorem phase_config {p : ConfigParts F D} : Phase (fun r => r = .inr 0) (processConfig p) := by
  unfold processConfig
  rw [check_begin]
  refine phase_begin fun rc => ?_
  split
  · exact inside_stop.ends
  · refine ends_bind inside_must fun _ => ends_bind inside_work fun rc => ?_
    split
    · exact ends_rollback_stop
    · exact ends_bind inside_must fun _ => ends_commit_ret rfl

theorem ends_outDestroy {p : CreateParts F D} {b : Bool} : Ends (fun r => r = .inr 0) (outDestroy p b) := by
  refine ends_bind inside_must fun _ => ends_bind inside_get fun s => ?_
  split
  · exact ends_rollback_stop
  · exact ends_commit_ret rfl

theorem inside_ifOk {r : Int} {p : Work F D} : Inside (ifOk r p) := by
  unfold ifOk; split
  · exact inside_work
  · exact inside_ret

theorem ends_parsePart {p : CreateParts F D} {b : Bool} : Ends (fun r => r = .inr 0) (parsePart p b) := by
  refine ends_bind inside_must fun _ => ends_bind inside_must fun _ => ends_bind inside_work fun rc => ?_
  have tail : ∀ rc : Int, Ends (fun r => r = .inr 0) (if rc < 0 then (rollback >>= fun _ => stop (-1)) else outDestroy p b : M F D Int) := by
    intro rc; split
    · exact ends_rollback_stop
    · exact ends_outDestroy
  split
  · refine ends_bind inside_must fun _ => ends_bind inside_work fun _ => ends_bind inside_ifOk fun _ => ends_bind inside_ifOk fun rc => tail rc
  · exact ends_bind inside_ret fun rc => tail rc

theorem phase_create {p : CreateParts F D} {b : Bool} : Phase (fun r => r = .inr 0) (processCreate p b) := by
  refine phase_begin fun _ => ends_bind inside_must fun _ => ends_bind inside_must fun _ => ends_bind inside_must fun _ =>
    ends_bind inside_must fun _ => ends_bind inside_must fun _ => ends_bind inside_get fun s => ?_
  split
  · exact ends_outDestroy
  · exact ends_parsePart

theorem ends_updateEnd {p : UpdateParts F D} {rc : Int} : Ends (fun _ => True) (updateEnd p rc) :=
  ends_bind inside_must fun _ => ends_commit_ret trivial

theorem phase_update {p : UpdateParts F D} : Phase (fun _ => True) (processUpdate p) := by
  refine phase_begin fun _ => ends_bind inside_must fun _ => ends_bind inside_get fun s => ?_
  split
  · exact ends_updateEnd
  · refine ends_bind inside_must fun _ => ends_bind inside_work fun rc => ?_
    split
    · exact inside_stop.ends
    · exact ends_updateEnd

end Tup.Transact
