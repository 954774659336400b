import Verif.MasterFork.Lemmas

/-! The other steps keep the invariant. -/

namespace Tup.MasterFork

variable {R : Nat → Req}

/-! ### The loop -/

/-- What there is to read. -/
theorem read_cases {s : S} {q : List Nat} (h : Core R s q) :
    readMsg s.stream = .wait ∨ ∃ i q', q = i :: q' ∧ ∃ rest, readMsg s.stream = .ok ⟨i, R i⟩ rest ∧
      s.stream = text R i ++ rest ∧ (s.lock = none → rest = all R q') ∧
      ∀ k, s.lock = some k → ∃ ws, s.calls k = .sending ws ∧ rest ++ ws.flatten = all R q' ∧
        (ws.flatten ≠ [] → ∃ q'', q' = q'' ++ [k]) := by
  cases q with
  | nil =>
    left
    have : s.stream = [] := by
      cases hl : s.lock with
      | none => exact h.free hl
      | some k =>
        obtain ⟨ws, _, b, _⟩ := h.held k hl
        exact (List.append_eq_nil_iff.1 b).1
    rw [this]; rfl
  | cons i q' =>
    cases hl : s.lock with
    | none =>
      right
      refine ⟨i, q', rfl, all R q', ?_, h.free hl, fun _ => rfl, fun k hk => by cases hk⟩
      rw [h.free hl]
      exact readMsg_text i _
    | some k =>
      obtain ⟨ws, a, b, c⟩ := h.held k hl
      have e : s.stream ++ ws.flatten = text R i ++ all R q' := b
      by_cases hlen : s.stream.length < (text R i).length
      · exact Or.inl (readMsg_part i e hlen)
      · right
        obtain ⟨rest, hr⟩ : ∃ rest, s.stream = text R i ++ rest := by
          have h1 : text R i <+: s.stream ++ ws.flatten := ⟨all R q', e.symm⟩
          have h2 : s.stream <+: s.stream ++ ws.flatten := ⟨_, rfl⟩
          obtain ⟨t, ht⟩ := List.prefix_of_prefix_length_le h1 h2 (by omega)
          exact ⟨t, ht.symm⟩
        rw [hr, List.append_assoc] at e
        have e2 := List.append_cancel_left e
        refine ⟨i, q', rfl, rest, by rw [hr]; exact readMsg_text i rest, hr, fun hk => (by cases hk), ?_⟩
        intro k' hk
        have hk : k = k' := Option.some.inj hk
        subst hk
        refine ⟨ws, a, e2, fun hne => ?_⟩
        obtain ⟨q'', hq⟩ := c hne
        cases q'' with
        | nil =>
          simp only [List.nil_append, List.cons.injEq] at hq
          rw [hq.2] at e2
          exact absurd (List.append_eq_nil_iff.1 e2).2 hne
        | cons x xs =>
          simp only [List.cons_append, List.cons.injEq] at hq
          exact ⟨xs, hq.2⟩

theorem running_cons (s : S) (c : Child) (h : c.status = none) :
    ((c :: s.children).filter (fun c => c.status = none)).map (·.run.sid) = c.run.sid :: running s := by
  rw [List.filter_cons, if_pos (by simp [h])]; rfl

theorem inv_master {s : S} {q : List Nat} (h : Inv R s q) (pid : Nat) : ∃ q', Inv R (master pid s) q' := by
  have hc := h.core
  unfold master
  cases hm : s.master with
  | dead => exact ⟨q, h⟩
  | forked p i =>
    simp only
    split
    · refine ⟨q, ⟨hc.free, hc.held, hc.send, hc.nodup, hc.mem, hc.wait, hc.waitNodup, hc.notifier, hc.child, hc.reply, hc.told, hc.done,
        trivial, hc.started, hc.once, hc.made, hc.exits, hc.exitsStarted, hc.childStarted⟩, fun hw => absurd rfl hw⟩
    · rename_i hp
      refine ⟨q, ⟨hc.free, hc.held, hc.send, hc.nodup, hc.mem, hc.wait, hc.waitNodup, hc.notifier, hc.child, hc.reply, hc.told, hc.done,
        hc.hand, hc.started, hc.once, hc.made, hc.exits, hc.exitsStarted, hc.childStarted⟩, fun hw => ?_⟩
      have hv := h.live hw
      constructor
      · exact hv.pids
      · exact List.nodup_cons.2 ⟨hp, hv.keys⟩
      · intro e he
        rcases List.mem_cons.1 he with rfl | he
        · rcases hv.forked p i hm with hh | ⟨h1, st, h2⟩
          · exact Or.inl hh
          · exact Or.inr ⟨h1, Or.inl ⟨st, h2⟩⟩
        · exact hv.entry e he
      · intro p' st hg
        obtain ⟨j, h1, h2⟩ := hv.got p' st hg
        refine ⟨j, h1, Or.inl ?_⟩
        rcases h2 with h2 | ⟨h2, _⟩
        · exact List.mem_cons_of_mem _ h2
        · rw [hm] at h2
          cases h2
          exact List.mem_cons_self
      · intro p' j st hf
        exact List.mem_cons_of_mem _ (hv.found p' j st hf)
      · intro c hcm
        rcases hv.known c hcm with hh | hh
        · exact Or.inl (List.mem_cons_of_mem _ hh)
        · rw [hm] at hh
          have e1 := (Master.forked.inj hh).1
          have e2 := (Master.forked.inj hh).2
          refine Or.inl ?_
          rw [← e1, ← e2]
          exact List.mem_cons_self
      · intro p' j hh; cases hh
      · intro p' j hh; cases hh
      · intro _ hh; cases hh
      · intro hh; cases hh
  | reading =>
    simp only
    rcases read_cases hc with hr | ⟨i, q', rfl, rest, hr, _, hf, hh⟩
    · rw [hr]; exact ⟨q, h⟩
    · rw [hr]
      simp only
      split
      · exact ⟨_, h⟩
      · rename_i hpid
        have hperm : (places s (i :: q')).Perm (q' ++ (i :: s.children.map (·.run.sid) ++
            (s.reaped.toList ++ (s.replies.map (·.1) ++ s.told.map (·.1))))) := by
          simp only [places, List.cons_append]
          exact List.perm_middle.symm
        have hnst : i ∉ s.started.map (·.sid) := by
          intro hin
          have := (List.nodup_append.1 hc.once).2.2 i hin i List.mem_cons_self
          exact this rfl
        refine ⟨q', ⟨hf, hh, hc.send, ?_, ?_, hc.wait, hc.waitNodup, hc.notifier, ?_, hc.reply, hc.told, hc.done, hc.hand, ?_, ?_, ?_,
          ?_, ?_, ?_⟩, fun hw => ?_⟩
        · exact hperm.nodup_iff.1 hc.nodup
        · intro k
          exact Iff.trans hperm.mem_iff.symm (hc.mem k)
        · intro c hcm
          rcases List.mem_cons.1 hcm with rfl | hcm
          · exact ⟨rfl, fun st hst => by cases hst⟩
          · exact hc.child c hcm
        · intro r hrm
          rcases List.mem_cons.1 hrm with rfl | hrm
          · rfl
          · exact hc.started r hrm
        · refine (List.Perm.nodup_iff ?_).1 hc.once
          simp only [List.map_cons, List.cons_append]
          exact List.perm_middle
        · intro k hk
          refine hc.made k ?_
          simp only [List.map_cons, List.cons_append, List.mem_cons, List.mem_append] at hk ⊢
          rcases hk with hk | hk | hk
          · exact Or.inr (Or.inl hk)
          · exact Or.inl hk
          · exact Or.inr (Or.inr hk)
        · show (_ ++ ((⟨pid, ⟨i, R i⟩, none⟩ :: s.children).filter (fun c => c.status = none)).map (·.run.sid)).Nodup
          rw [running_cons _ _ rfl]
          refine (List.perm_middle.nodup_iff).2 (List.nodup_cons.2 ⟨?_, hc.exits⟩)
          rw [List.mem_append]
          rintro (hm' | hm')
          · obtain ⟨x, hx, hxe⟩ := List.mem_map.1 hm'
            exact hnst (List.mem_map.2 ⟨x.1, hc.exitsStarted x hx, hxe⟩)
          · obtain ⟨x, hx, hxe⟩ := List.mem_map.1 hm'
            exact hnst (List.mem_map.2 ⟨x.run, hc.childStarted x (List.mem_filter.1 hx).1, hxe⟩)
        · intro x hx; exact List.mem_cons_of_mem _ (hc.exitsStarted x hx)
        · intro c hcm
          rcases List.mem_cons.1 hcm with rfl | hcm
          · exact List.mem_cons_self
          · exact List.mem_cons_of_mem _ (hc.childStarted c hcm)
        · have hv := h.live hw
          have hni : i ∉ s.children.map (·.run.sid) ++ (s.reaped.toList ++ (s.replies.map (·.1) ++ s.told.map (·.1))) := by
            have := hc.nodup
            simp only [places, List.cons_append, List.nodup_cons] at this
            exact fun hm' => this.1 (List.mem_append.2 (Or.inr hm'))
          constructor
          · exact List.nodup_cons.2 ⟨hpid, hv.pids⟩
          · exact hv.keys
          · intro e he
            rcases hv.entry e he with ⟨c, h1, h2⟩ | hh
            · exact Or.inl ⟨c, List.mem_cons_of_mem _ h1, h2⟩
            · exact Or.inr hh
          · intro p' st hg
            obtain ⟨j, h1, h2⟩ := hv.got p' st hg
            refine ⟨j, h1, ?_⟩
            rcases h2 with h2 | ⟨h2, _⟩
            · exact Or.inl h2
            · rw [hm] at h2; cases h2
          · exact hv.found
          · intro c hcm
            rcases List.mem_cons.1 hcm with rfl | hcm
            · exact Or.inr rfl
            · rcases hv.known c hcm with h1 | h1
              · exact Or.inl h1
              · rw [hm] at h1; cases h1
          · intro p' j hfk
            cases hfk
            exact Or.inl ⟨_, List.mem_cons_self, rfl, rfl⟩
          · intro p' j hfk e he hej
            cases hfk
            refine hni ?_
            rcases hv.entry e he with ⟨c, h1, _, h2⟩ | ⟨h1, _⟩
            · refine List.mem_append.2 (Or.inl (List.mem_map.2 ⟨c, h1, ?_⟩))
              rw [h2, hej]
            · refine List.mem_append.2 (Or.inr (List.mem_append.2 (Or.inl ?_)))
              rw [h1, hej]; simp
          · exact hv.inWait
          · intro hh; cases hh

/-! ### The children -/

theorem Ended.mono {s s' : S} (h : ∀ x ∈ s.exits, x ∈ s'.exits) {i : Nat} {st : Int} (he : Ended R s i st) :
    Ended R s' i st := h _ he

theorem held_mono {s s' : S} (h : ∀ x ∈ s.exits, x ∈ s'.exits) (e : s'.reaped = s.reaped) (w : Waiter)
    (hh : Held R s w) : Held R s' w := by
  cases w with
  | idle => exact e.trans hh
  | inWait => exact e.trans hh
  | got p st => obtain ⟨i, h1, h2⟩ := hh; exact ⟨i, e.trans h1, h2.mono h⟩
  | found p i st => exact ⟨e.trans hh.1, hh.2.mono h⟩
  | replying i st => exact ⟨e.trans hh.1, hh.2.mono h⟩
  | dead => trivial

theorem uniq_pid {l : List Child} (h : (l.map (·.pid)).Nodup) {a b : Child} (ha : a ∈ l) (hb : b ∈ l) (e : a.pid = b.pid) :
    a = b := by
  induction l with
  | nil => cases ha
  | cons x xs ih =>
    rw [List.map_cons, List.nodup_cons] at h
    rcases List.mem_cons.1 ha with ea | ha'
    · rcases List.mem_cons.1 hb with eb | hb'
      · rw [ea, eb]
      · exact absurd (List.mem_map.2 ⟨b, hb', by rw [← e, ea]⟩) h.1
    · rcases List.mem_cons.1 hb with eb | hb'
      · exact absurd (List.mem_map.2 ⟨a, ha', by rw [e, eb]⟩) h.1
      · exact ih h.2 ha' hb'

/-- A child ends. -/
theorem inv_exit {s : S} {q : List Nat} (h : Inv R s q) (pid : Nat) (st : Int)
    (hu : (s.children.map (·.pid)).Nodup) : Inv R (exit pid st s) q := by
  have hc := h.core
  unfold exit
  cases hfi : s.children.find? (fun c => c.pid = pid ∧ c.status = none) with
  | none => exact h
  | some c =>
    simp only
    have hcm : c ∈ s.children := List.mem_of_find?_eq_some hfi
    have hcp : c.pid = pid ∧ c.status = none := by
      have := List.find?_some hfi
      simpa using this
    have huniq : ∀ d ∈ s.children, d.pid = pid → d = c := by
      intro d hd hdp
      exact uniq_pid hu hd hcm (by rw [hdp, hcp.1])
    have hsid : (s.children.map (fun d => if d.pid = pid then { d with status := some st } else d)).map (·.run.sid) =
        s.children.map (·.run.sid) := by
      rw [List.map_map]
      refine List.map_congr_left ?_
      intro d _
      simp only [Function.comp]
      split <;> rfl
    have hpd : (s.children.map (fun d => if d.pid = pid then { d with status := some st } else d)).map (·.pid) =
        s.children.map (·.pid) := by
      rw [List.map_map]
      refine List.map_congr_left ?_
      intro d _
      simp only [Function.comp]
      split <;> rfl
    have hpl : q ++ ((s.children.map (fun d => if d.pid = pid then { d with status := some st } else d)).map (·.run.sid) ++
        (s.reaped.toList ++ (s.replies.map (·.1) ++ s.told.map (·.1)))) = places s q := by
      rw [hsid]; rfl
    have hex : ∀ x ∈ s.exits, x ∈ (c.run, st) :: s.exits := fun x hx => List.mem_cons_of_mem _ hx
    have hback : ∀ d ∈ s.children.map (fun d => if d.pid = pid then { d with status := some st } else d),
        ∃ d' ∈ s.children, d.pid = d'.pid ∧ d.run = d'.run ∧ (d.status = d'.status ∨ d' = c ∧ d.status = some st) := by
      intro d hd
      obtain ⟨d', hd', rfl⟩ := List.mem_map.1 hd
      by_cases hq : d'.pid = pid
      · refine ⟨d', hd', ?_⟩
        rw [if_pos hq]
        exact ⟨rfl, rfl, Or.inr ⟨huniq d' hd' hq, rfl⟩⟩
      · refine ⟨d', hd', ?_⟩
        rw [if_neg hq]
        exact ⟨rfl, rfl, Or.inl rfl⟩
    have hforth : ∀ d ∈ s.children, ∃ d' ∈ s.children.map (fun d => if d.pid = pid then { d with status := some st } else d),
        d'.pid = d.pid ∧ d'.run = d.run := by
      intro d hd
      refine ⟨_, List.mem_map.2 ⟨d, hd, rfl⟩, ?_⟩
      split <;> exact ⟨rfl, rfl⟩
    refine ⟨⟨hc.free, hc.held, hc.send, ?_, ?_, hc.wait, hc.waitNodup, hc.notifier, ?_, ?_, ?_, ?_, ?_, hc.started, hc.once, hc.made,
      ?_, ?_, ?_⟩, fun hw => ?_⟩
    · exact (congrArg List.Nodup hpl).mpr hc.nodup
    · intro k
      exact Iff.trans (by rw [← hpl]; rfl) (hc.mem k)
    · intro d hd
      obtain ⟨d', hd', e1, e2, e3⟩ := hback d hd
      obtain ⟨q1, q2⟩ := hc.child d' hd'
      rw [e2]
      refine ⟨q1, fun st' hst' => ?_⟩
      rcases e3 with e3 | ⟨rfl, e3⟩
      · exact (q2 st' (by rw [← e3]; exact hst')).mono hex
      · rw [e3] at hst'
        cases hst'
        have : d'.run = ⟨d'.run.sid, R d'.run.sid⟩ := by rw [← q1]
        show (_, _) ∈ (d'.run, st) :: s.exits
        rw [← this]
        exact List.mem_cons_self
    · intro x hx; exact (hc.reply x hx).mono hex
    · intro x hx; exact (hc.told x hx).mono hex
    · intro k st' hk; exact (hc.done k st' hk).mono hex
    · exact held_mono (s' := { s with
        children := s.children.map (fun d => if d.pid = pid then { d with status := some st } else d),
        exits := (c.run, st) :: s.exits }) hex rfl _ hc.hand
    · have hp : (running s).Perm (c.run.sid ::
          ((s.children.map (fun d => if d.pid = pid then { d with status := some st } else d)).filter
            (fun c => c.status = none)).map (·.run.sid)) := by
        obtain ⟨l, r, hlr⟩ := List.append_of_mem hcm
        have hul : ∀ d ∈ l ++ r, d.pid ≠ pid := by
          intro d hd hdp
          rw [hlr, List.map_append, List.map_cons] at hu
          have := (List.perm_middle.nodup_iff).1 hu
          rw [List.nodup_cons, ← List.map_append] at this
          exact this.1 (List.mem_map.2 ⟨d, hd, by rw [hdp, hcp.1]⟩)
        have hid : ∀ t : List Child, (∀ d ∈ t, d.pid ≠ pid) →
            t.map (fun d => if d.pid = pid then { d with status := some st } else d) = t := by
          intro t ht
          conv => rhs; rw [← List.map_id t]
          refine List.map_congr_left ?_
          intro d hd
          rw [if_neg (ht d hd)]; rfl
        unfold running
        rw [hlr]
        simp only [List.map_append, List.map_cons]
        rw [hid l (fun d hd => hul d (List.mem_append.2 (Or.inl hd))),
          hid r (fun d hd => hul d (List.mem_append.2 (Or.inr hd))), if_pos hcp.1]
        simp only [List.filter_append, List.filter_cons]
        rw [if_pos (by simp [hcp.2]), if_neg (by simp)]
        simp only [List.map_append, List.map_cons]
        exact List.perm_middle
      have := (List.Perm.append_left (s.exits.map (·.1.sid)) hp).nodup_iff.1 hc.exits
      exact (List.perm_middle.nodup_iff).1 this
    · intro x hx
      rcases List.mem_cons.1 hx with rfl | hx
      · exact hc.childStarted c hcm
      · exact hc.exitsStarted x hx
    · intro d hd
      obtain ⟨d', hd', _, e2, _⟩ := hback d hd
      rw [e2]
      exact hc.childStarted d' hd'
    · have hv := h.live hw
      constructor
      · simp only [hpd]; exact hv.pids
      · exact hv.keys
      · intro e he
        rcases hv.entry e he with ⟨d, h1, h2, h3⟩ | hh
        · obtain ⟨d', q1, q2, q3⟩ := hforth d h1
          exact Or.inl ⟨d', q1, by rw [q2, h2], by rw [q3, h3]⟩
        · exact Or.inr hh
      · exact hv.got
      · exact hv.found
      · intro d hd
        obtain ⟨d', hd', e1, e2, _⟩ := hback d hd
        rw [e1, e2]
        exact hv.known d' hd'
      · intro p i hf
        rcases hv.forked p i hf with ⟨d, h1, h2, h3⟩ | hh
        · obtain ⟨d', q1, q2, q3⟩ := hforth d h1
          exact Or.inl ⟨d', q1, by rw [q2, h2], by rw [q3, h3]⟩
        · exact Or.inr hh
      · exact hv.fresh
      · exact hv.inWait
      · exact hv.alive

/-! ### The waiter -/

theorem perm_reap {l : List Child} (h : (l.map (·.pid)).Nodup) {c : Child} (hc : c ∈ l) :
    l.Perm (c :: l.filter (fun d => d.pid ≠ c.pid)) := by
  obtain ⟨a, b, rfl⟩ := List.append_of_mem hc
  rw [List.map_append, List.map_cons] at h
  have h1 := (List.perm_middle.nodup_iff).1 h
  rw [List.nodup_cons, ← List.map_append] at h1
  have hid : (a ++ c :: b).filter (fun d => d.pid ≠ c.pid) = a ++ b := by
    rw [List.filter_append, List.filter_cons, if_neg (by simp), ← List.filter_append, List.filter_eq_self]
    intro d hd
    simp only [ne_eq, decide_not, Bool.not_eq_true', decide_eq_false_iff_not]
    intro e
    exact h1.1 (List.mem_map.2 ⟨d, hd, e⟩)
  rw [hid]
  exact List.perm_middle

theorem uniq_key {l : List (Nat × Nat)} (h : (l.map (·.1)).Nodup) {a b : Nat × Nat} (ha : a ∈ l) (hb : b ∈ l)
    (e : a.1 = b.1) : a = b := by
  induction l with
  | nil => cases ha
  | cons x xs ih =>
    rw [List.map_cons, List.nodup_cons] at h
    rcases List.mem_cons.1 ha with ea | ha'
    · rcases List.mem_cons.1 hb with eb | hb'
      · rw [ea, eb]
      · exact absurd (List.mem_map.2 ⟨b, hb', by rw [← e, ea]⟩) h.1
    · rcases List.mem_cons.1 hb with eb | hb'
      · exact absurd (List.mem_map.2 ⟨a, ha', by rw [e, eb]⟩) h.1
      · exact ih h.2 ha' hb'

theorem inv_waiter {s : S} {q : List Nat} (h : Inv R s q) (pid : Nat) : Inv R (waiter pid s) q := by
  have hc := h.core
  unfold waiter
  cases hw : s.waiter with
  | dead => exact h
  | idle =>
    simp only
    have hv := h.live (by rw [hw]; simp)
    have hh := hc.hand
    rw [hw] at hh
    split
    · exact h
    · rename_i ht
      refine ⟨⟨hc.free, hc.held, hc.send, hc.nodup, hc.mem, hc.wait, hc.waitNodup, hc.notifier, hc.child, hc.reply, hc.told, hc.done,
        hh, hc.started, hc.once, hc.made, hc.exits, hc.exitsStarted, hc.childStarted⟩, fun _ => ?_⟩
      constructor
      · exact hv.pids
      · exact hv.keys
      · intro e he
        rcases hv.entry e he with hh | ⟨hh, (⟨st, h2⟩ | ⟨st, h2⟩)⟩
        · exact Or.inl hh
        · rw [hw] at h2; cases h2
        · rw [hw] at h2; cases h2
      · intro p st hg; cases hg
      · intro p i st hg; cases hg
      · exact hv.known
      · intro p i hf
        rcases hv.forked p i hf with hh | ⟨hh, st, h2⟩
        · exact Or.inl hh
        · rw [hw] at h2; cases h2
      · exact hv.fresh
      · exact fun _ => ht
      · exact hv.alive
  | inWait =>
    simp only
    have hv := h.live (by rw [hw]; simp)
    have hh : s.reaped = none := by
      have := hc.hand
      rw [hw] at this
      exact this
    have dead : Inv R { s with waiter := .dead } q :=
      ⟨⟨hc.free, hc.held, hc.send, hc.nodup, hc.mem, hc.wait, hc.waitNodup, hc.notifier, hc.child, hc.reply, hc.told, hc.done,
        trivial, hc.started, hc.once, hc.made, hc.exits, hc.exitsStarted, hc.childStarted⟩, fun hn => absurd rfl hn⟩
    split
    · exact dead
    · split
      · rename_i p r st hf
        have hcm := List.mem_of_find?_eq_some hf
        have hp := perm_reap hv.pids hcm
        simp only at hp
        have hpl : (places s q).Perm (q ++ ((s.children.filter (fun d => d.pid ≠ p)).map (·.run.sid) ++
            ((some r.sid).toList ++ (s.replies.map (·.1) ++ s.told.map (·.1))))) := by
          simp only [places, hh, Option.toList_none, Option.toList_some, List.nil_append]
          refine List.Perm.append_left _ ?_
          refine ((hp.map _).append_right _).trans ?_
          simp only [List.map_cons, List.cons_append, List.nil_append]
          exact List.perm_middle.symm
        have hsub : ∀ d ∈ s.children.filter (fun d => d.pid ≠ p), d ∈ s.children ∧ d.pid ≠ p := by
          intro d hd
          have := List.mem_filter.1 hd
          exact ⟨this.1, by simpa using this.2⟩
        obtain ⟨q1, q2⟩ := hc.child _ hcm
        refine ⟨⟨hc.free, hc.held, hc.send, hpl.nodup_iff.1 hc.nodup, fun k => Iff.trans hpl.mem_iff.symm (hc.mem k), hc.wait,
          hc.waitNodup, hc.notifier, fun d hd => hc.child d (hsub d hd).1, hc.reply, hc.told, hc.done, ?_, hc.started, hc.once,
          hc.made, ?_, hc.exitsStarted, fun d hd => hc.childStarted d (hsub d hd).1⟩, fun _ => ?_⟩
        · exact ⟨r.sid, rfl, q2 st rfl⟩
        · refine List.Nodup.sublist ?_ hc.exits
          exact List.Sublist.append_left (((List.filter_sublist).filter _).map _) _
        · constructor
          · exact List.Nodup.sublist ((List.filter_sublist).map _) hv.pids
          · exact hv.keys
          · intro e he
            rcases hv.entry e he with ⟨c, h1, h2, h3⟩ | ⟨h1, _⟩
            · by_cases hcp : c.pid = p
              · have := uniq_pid hv.pids h1 hcm hcp
                subst this
                refine Or.inr ⟨?_, Or.inl ⟨st, ?_⟩⟩
                · show some r.sid = _
                  rw [← h3]
                · show Waiter.got p st = _
                  rw [← h2]
              · exact Or.inl ⟨c, List.mem_filter.2 ⟨h1, by simpa using hcp⟩, h2, h3⟩
            · rw [hh] at h1; cases h1
          · intro p' st' hg
            have e1 := (Waiter.got.inj hg).1
            subst e1
            refine ⟨r.sid, rfl, ?_⟩
            rcases hv.known _ hcm with hk | hk
            · exact Or.inl hk
            · by_cases hin : p ∈ s.tree.map (·.1)
              · obtain ⟨e, he, hep⟩ := List.mem_map.1 hin
                exfalso
                rcases hv.entry e he with ⟨c, h1, h2, h3⟩ | ⟨h1, _⟩
                · have := uniq_pid hv.pids h1 hcm (by rw [h2, hep])
                  subst this
                  exact hv.fresh _ _ hk e he h3.symm
                · rw [hh] at h1; cases h1
              · exact Or.inr ⟨hk, hin⟩
          · intro _ _ _ hg; cases hg
          · intro d hd; exact hv.known d (hsub d hd).1
          · intro p' i hf'
            rcases hv.forked p' i hf' with ⟨c, h1, h2, h3⟩ | ⟨h1, _⟩
            · by_cases hcp : c.pid = p
              · have := uniq_pid hv.pids h1 hcm hcp
                subst this
                refine Or.inr ⟨?_, st, ?_⟩
                · show some r.sid = _
                  rw [← h3]
                · show Waiter.got p st = _
                  rw [← h2]
              · exact Or.inl ⟨c, List.mem_filter.2 ⟨h1, by simpa using hcp⟩, h2, h3⟩
            · rw [hh] at h1; cases h1
          · exact hv.fresh
          · intro hg; cases hg
          · exact hv.alive
      · exact h
  | got p st =>
    simp only
    have hv := h.live (by rw [hw]; simp)
    have hh := hc.hand
    rw [hw] at hh
    obtain ⟨i, hri, hei⟩ := hh
    split
    · exact ⟨⟨hc.free, hc.held, hc.send, hc.nodup, hc.mem, hc.wait, hc.waitNodup, hc.notifier, hc.child, hc.reply, hc.told, hc.done,
        trivial, hc.started, hc.once, hc.made, hc.exits, hc.exitsStarted, hc.childStarted⟩, fun hn => absurd rfl hn⟩
    · rename_i e hf
      have hem := List.mem_of_find?_eq_some hf
      have hep : e.1 = p := by simpa using List.find?_some hf
      have hei' : e = (p, i) := by
        obtain ⟨j, h1, h2⟩ := hv.got p st hw
        rw [hri] at h1
        have hj : i = j := Option.some.inj h1
        subst hj
        rcases h2 with h2 | ⟨_, h2⟩
        · exact uniq_key hv.keys hem h2 hep
        · exact absurd (List.mem_map.2 ⟨e, hem, hep⟩) h2
      subst hei'
      refine ⟨⟨hc.free, hc.held, hc.send, hc.nodup, hc.mem, hc.wait, hc.waitNodup, hc.notifier, hc.child, hc.reply, hc.told, hc.done,
        ⟨hri, hei⟩, hc.started, hc.once, hc.made, hc.exits, hc.exitsStarted, hc.childStarted⟩, fun _ => ?_⟩
      constructor
      · exact hv.pids
      · exact hv.keys
      · intro e he
        rcases hv.entry e he with h1 | ⟨h1, (⟨st', h2⟩ | ⟨st', h2⟩)⟩
        · exact Or.inl h1
        · rw [hw] at h2
          obtain ⟨h3, _⟩ := Waiter.got.inj h2
          have := uniq_key hv.keys he hem h3.symm
          subst this
          exact Or.inr ⟨h1, Or.inr ⟨st, rfl⟩⟩
        · rw [hw] at h2; cases h2
      · intro _ _ hg; cases hg
      · intro p' j st' hg
        obtain ⟨e1, e2, _⟩ := Waiter.found.inj hg
        rw [← e1, ← e2]
        exact hem
      · exact hv.known
      · intro p' j hf'
        rcases hv.forked p' j hf' with h1 | ⟨h1, st', h2⟩
        · exact Or.inl h1
        · rw [hri] at h1
          exact absurd (Option.some.inj h1) (hv.fresh p' j hf' _ hem)
      · exact hv.fresh
      · intro hg; cases hg
      · exact hv.alive
  | found p i st =>
    simp only
    have hv := h.live (by rw [hw]; simp)
    have hh := hc.hand
    rw [hw] at hh
    have hem := hv.found p i st hw
    have hni : i ∉ s.children.map (·.run.sid) := by
      have := hc.nodup
      simp only [places, hh.1, Option.toList_some] at this
      intro hin
      exact (List.nodup_append.1 (List.nodup_append.1 this).2.1).2.2 i hin i (by simp) rfl
    have hsub : ∀ e ∈ s.tree.filter (fun e => e.1 ≠ p), e ∈ s.tree ∧ e.1 ≠ p := by
      intro d hd
      have := List.mem_filter.1 hd
      exact ⟨this.1, by simpa using this.2⟩
    refine ⟨⟨hc.free, hc.held, hc.send, hc.nodup, hc.mem, hc.wait, hc.waitNodup, hc.notifier, hc.child, hc.reply, hc.told, hc.done,
        hh, hc.started, hc.once, hc.made, hc.exits, hc.exitsStarted, hc.childStarted⟩, fun _ => ?_⟩
    constructor
    · exact hv.pids
    · exact List.Nodup.sublist ((List.filter_sublist).map _) hv.keys
    · intro e he
      rcases hv.entry e (hsub e he).1 with h1 | ⟨h1, (⟨st', h2⟩ | ⟨st', h2⟩)⟩
      · exact Or.inl h1
      · rw [hw] at h2; cases h2
      · rw [hw] at h2
        exact absurd (Waiter.found.inj h2).1.symm (hsub e he).2
    · intro _ _ hg; cases hg
    · intro _ _ _ hg; cases hg
    · intro c hcm
      rcases hv.known c hcm with h1 | h1
      · by_cases hcp : c.pid = p
        · have := uniq_key hv.keys h1 hem hcp
          exact absurd (List.mem_map.2 ⟨c, hcm, congrArg Prod.snd this⟩) hni
        · exact Or.inl (List.mem_filter.2 ⟨h1, by simpa using hcp⟩)
      · exact Or.inr h1
    · intro p' j hf'
      rcases hv.forked p' j hf' with h1 | ⟨h1, st', h2⟩
      · exact Or.inl h1
      · rw [hw] at h2; cases h2
    · intro p' j hf' e he; exact hv.fresh p' j hf' e (hsub e he).1
    · intro hg; cases hg
    · exact hv.alive
  | replying i st =>
    simp only
    have hv := h.live (by rw [hw]; simp)
    have hh := hc.hand
    rw [hw] at hh
    have hpl : (places s q).Perm (q ++ (s.children.map (·.run.sid) ++
        ((none : Option Nat).toList ++ ((s.replies ++ [(i, st)]).map (·.1) ++ s.told.map (·.1))))) := by
      simp only [places, hh.1, Option.toList_none, Option.toList_some, List.nil_append, List.map_append, List.map_cons,
        List.map_nil, List.cons_append, List.append_assoc]
      exact List.Perm.append_left _ (List.Perm.append_left _ List.perm_middle.symm)
    refine ⟨⟨hc.free, hc.held, hc.send, hpl.nodup_iff.1 hc.nodup, fun k => Iff.trans hpl.mem_iff.symm (hc.mem k), hc.wait,
      hc.waitNodup, hc.notifier, hc.child, ?_, hc.told, hc.done, rfl, hc.started, hc.once, hc.made, hc.exits, hc.exitsStarted,
      hc.childStarted⟩, fun _ => ?_⟩
    · intro x hx
      rcases List.mem_append.1 hx with hx | hx
      · exact hc.reply x hx
      · rw [List.mem_singleton.1 hx]; exact hh.2
    · constructor
      · exact hv.pids
      · exact hv.keys
      · intro e he
        rcases hv.entry e he with h1 | ⟨h1, (⟨st', h2⟩ | ⟨st', h2⟩)⟩
        · exact Or.inl h1
        · rw [hw] at h2; cases h2
        · rw [hw] at h2; cases h2
      · intro _ _ hg; cases hg
      · intro _ _ _ hg; cases hg
      · exact hv.known
      · intro p' j hf'
        rcases hv.forked p' j hf' with h1 | ⟨h1, st', h2⟩
        · exact Or.inl h1
        · rw [hw] at h2; cases h2
      · exact hv.fresh
      · intro hg; cases hg
      · exact hv.alive

/-! ### The notifier -/

theorem inv_notify {s : S} {q : List Nat} (h : Inv R s q) : Inv R (notify s) q := by
  have hc := h.core
  unfold notify
  rw [if_neg (by rw [hc.notifier]; simp)]
  split
  · exact h
  · rename_i i st r hr
    have hpl : (places s q).Perm (q ++ (s.children.map (·.run.sid) ++ (s.reaped.toList ++ (r.map (·.1) ++
        i :: s.told.map (·.1))))) := by
      simp only [places, hr, List.map_cons]
      refine List.Perm.append_left _ (List.Perm.append_left _ (List.Perm.append_left _ ?_))
      exact List.perm_middle.symm
    have hin : i ∈ places s q := hpl.mem_iff.2 (by simp)
    have hpi := (hc.mem i).1 hin
    have hnd := hpl.nodup_iff.1 hc.nodup
    have hnt : i ∉ s.told.map (·.1) := by
      have := (List.nodup_append.1 (List.nodup_append.1 (List.nodup_append.1 (List.nodup_append.1 hnd).2.1).2.1).2.1).2.1
      exact (List.nodup_cons.1 this).1
    have hwi := (hc.wait i).2 (Or.inr ⟨hpi, hnt⟩)
    rw [if_pos hwi]
    have hei : Ended R s i st := hc.reply (i, st) (by rw [hr]; exact List.mem_cons_self)
    refine ⟨⟨hc.free, hc.held, hc.send, hnd, fun k => Iff.trans hpl.mem_iff.symm (hc.mem k), ?_, hc.waitNodup.erase _, hc.notifier,
      hc.child, ?_, ?_, hc.done, hc.hand, hc.started, hc.once, hc.made, hc.exits, hc.exitsStarted, hc.childStarted⟩,
      Live.congr h.live rfl rfl rfl rfl rfl⟩
    · intro k
      simp only [hc.waitNodup.mem_erase_iff, hc.wait k, List.map_cons, List.mem_cons, not_or]
      constructor
      · rintro ⟨hne, hk | hk⟩
        · exact Or.inl hk
        · exact Or.inr ⟨hk.1, hne, hk.2⟩
      · rintro (hk | hk)
        · refine ⟨?_, Or.inl hk⟩
          rintro rfl
          rw [hk] at hpi
          rcases hpi with hpi | ⟨_, hpi⟩ <;> cases hpi
        · exact ⟨hk.2.1, Or.inr ⟨hk.1, hk.2.2⟩⟩
    · intro x hx; exact hc.reply x (by rw [hr]; exact List.mem_cons_of_mem _ hx)
    · intro x hx
      rcases List.mem_cons.1 hx with rfl | hx
      · exact hei
      · exact hc.told x hx

/-! ### All of it -/

/-- No two children have the same process id. -/
theorem pids_step (e : Ev) {s : S} (h : (s.children.map (·.pid)).Nodup) : ((step R e s).children.map (·.pid)).Nodup := by
  cases e with
  | caller i =>
    show ((caller R i s).children.map (·.pid)).Nodup
    unfold caller
    split
    · split <;> exact h
    · split <;> exact h
    · exact h
    · exact h
    · split <;> exact h
    · exact h
  | master p =>
    show ((master p s).children.map (·.pid)).Nodup
    unfold master
    split
    · split
      · exact h
      · exact h
      · split
        · exact h
        · rename_i hp
          exact List.nodup_cons.2 ⟨hp, h⟩
    · split <;> exact h
    · exact h
  | exit p st =>
    show ((exit p st s).children.map (·.pid)).Nodup
    unfold exit
    split
    · exact h
    · simp only
      rw [List.map_map]
      refine (congrArg List.Nodup (List.map_congr_left ?_)).mpr h
      intro d _
      simp only [Function.comp]
      split <;> rfl
  | waiter p =>
    show ((waiter p s).children.map (·.pid)).Nodup
    unfold waiter
    split
    · split <;> exact h
    · split
      · exact h
      · split
        · exact List.Nodup.sublist ((List.filter_sublist).map _) h
        · exact h
    · split <;> exact h
    · exact h
    · exact h
    · exact h
  | notify =>
    show ((notify s).children.map (·.pid)).Nodup
    unfold notify
    split
    · exact h
    · split
      · exact h
      · split <;> exact h

/-- What is true at any time. -/
structure Good (R : Nat → Req) (s : S) : Prop where
  inv : ∃ q, Inv R s q
  pids : (s.children.map (·.pid)).Nodup

theorem good_init : Good R init := ⟨⟨[], inv_init⟩, .nil⟩

theorem good_step (e : Ev) {s : S} (h : Good R s) : Good R (step R e s) := by
  refine ⟨?_, pids_step e h.pids⟩
  obtain ⟨q, hq⟩ := h.inv
  cases e with
  | caller i => exact inv_caller hq i
  | master p => exact inv_master hq p
  | exit p st => exact ⟨q, inv_exit hq p st h.pids⟩
  | waiter p => exact ⟨q, inv_waiter hq p⟩
  | notify => exact ⟨q, inv_notify hq⟩

theorem good_run (es : List Ev) {s : S} (h : Good R s) : Good R (run R es s) := by
  induction es generalizing s with
  | nil => exact h
  | cons e es ih => exact ih (good_step e h)

end Tup.MasterFork
