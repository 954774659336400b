import Verif.Update.Run

/-! Between updates: the database invariant survives every step; work stays scheduled; why a command runs. -/

namespace Tup.Update

open Tup.Exec (upd Graph S Work Cfg Running upd_apply WF Reach)

variable {π : Proj} {clean : Bool}

theorem scan_known {T : Nat → Bool} {w : W} (h : Sees T w) (p : Nat) :
    (scan π T w).db.known p = (scan π T w).content p := by
  simp only [scan]
  by_cases hT : T p = true
  · simp [hT]
  · simp only [hT]
    refine Classical.byContradiction fun hne => hT (h p fun he => hne ?_)
    simp [he]

/-- a scan never unschedules a command -/
theorem scan_modify {T : Nat → Bool} {w : W} {c : Nat} (hc : π.isCmd c = true) (h : w.db.modify c = true) :
    (scan π T w).db.modify c = true := by
  simp [scan, hc, h]

theorem J.scan (ok : π.Ok) {T : Nat → Bool} {w : W} (j : J π w.db) : J π (scan π T w).db := by
  intro c hcn hcc
  by_cases hm : (Update.scan π T w).db.modify c = true
  · exact Or.inl hm
  right
  have hm0 : ¬ w.db.modify c = true := fun h => hm (scan_modify hcc h)
  have hm1 : ∀ o ∈ π.outs c, T o = false := by
    intro o ho
    refine bool_ne fun hT => hm ?_
    simp only [Update.scan, hcc, if_true, Bool.or_eq_true, List.any_eq_true]
    exact Or.inl (Or.inr ⟨o, ho, hT⟩)
  have hm2 : ∀ p ∈ π.nodes, w.db.link p c = true → T p = true → π.gen p = false → w.content p ≠ none := by
    intro p hp hl hT hg hno
    apply hm
    simp only [Update.scan, hcc, if_true, Bool.or_eq_true, List.any_eq_true]
    exact Or.inr ⟨p, hp, by simp [hT, hg, hno, hl]⟩
  obtain ⟨v, ⟨a1, a2, a3⟩, hv⟩ := (j c hcn hcc).resolve_left hm0
  refine ⟨v, ⟨a1, ?_, ?_⟩, ?_⟩
  · intro o ho
    simp only [Update.scan, hm1 o ho]
    exact a2 o ho
  · intro p hp hpo
    have hl := a3 p hp hpo
    have hpn := (ok.readsIn c _ p hp).1
    simp only [Update.scan, hl, Bool.true_and, Bool.not_eq_true', Bool.and_eq_false_iff]
    by_cases hT : T p = true
    · by_cases hg : π.gen p = true
      · left; right; simp [hg]
      · right
        have := hm2 p hpn hl hT (bool_ne hg)
        cases hw : w.content p with
        | none => exact absurd hw this
        | some _ => rfl
    · left; left; exact bool_ne hT
  · intro p hp hpo
    have hl := a3 p hp hpo
    obtain ⟨hpn, hpc⟩ := ok.readsIn c _ p hp
    by_cases hT : T p = true
    · right
      by_cases hg : π.gen p = true
      · cases hw : w.content p with
        | none =>
          obtain ⟨e, he⟩ := gen_prod hg
          refine Or.inr ⟨e, he, ?_, Or.inr ?_⟩
          · simp only [Update.scan, he.2.1, if_true, Bool.or_eq_true, List.any_eq_true]
            exact Or.inl (Or.inr ⟨p, he.2.2, hT⟩)
          · simp [Update.scan, hT, hw]
        | some x => exact Or.inl (by simp [Update.scan, hpc, hT, hw])
      · have := hm2 p hpn hl hT (bool_ne hg)
        cases hw : w.content p with
        | none => exact absurd hw this
        | some x => exact Or.inl (by simp [Update.scan, hpc, hT, hw])
    · have hk : (Update.scan π T w).db.known p = w.db.known p := by simp [Update.scan, hT]
      rw [hk]
      refine (hv p hp hpo).imp id ?_
      rintro (h | ⟨e, he, h1, h2⟩)
      · exact Or.inl (by simp [Update.scan, hpc, hT, h])
      · exact Or.inr ⟨e, he, scan_modify he.2.1 h1, by rw [hk]; exact h2⟩

/-- the record left by an update, whatever happened in it -/
theorem K.J {w : W} {rest : List Nat} {E : List (Nat × Nat)} {d : D} {Dn Fl : Nat → Prop}
    (k : K π true w rest E d Dn Fl) : J π d.db := by
  intro c hcn hcc
  refine (k.main rfl c hcn hcc).imp id ?_
  rintro ⟨v, h1, h2⟩
  refine ⟨v, h1, fun p hp hpo => ?_⟩
  rcases h2 p hp hpo with h | h
  · exact Or.inl h.1
  · exact h.2.2

theorem updating_K (ok : π.Ok) {c : Cfg} {T : Nat → Bool} {w : W} {e : S D} (h : Updating π clean c T w e)
    (hj : clean = true → J π w.db) :
    ∃ g0 rest, WF g0 π.root rest ∧ GE π (scan π T w).db rest g0.edges ∧ Tup.Exec.Inv c g0 π.root rest e ∧
      π.root ∈ e.popped ∧ (∀ n, g0.trans n = .none) ∧
      K π clean (scan π T w) rest g0.edges e.db (Done e) (Failed e) := by
  obtain ⟨h1, h2, h3, g0, hg, hr⟩ := h
  obtain ⟨rest, q⟩ := running_K (w := scan π T w) ok (fun hc => (hj hc).scan ok) (scan_known h3) h1 h2 hg hr
  exact ⟨g0, rest, q⟩

theorem J.step (ok : π.Ok) {w w' : W} (j : J π w.db) (hs : Step π true w w') : J π w'.db := by
  cases hs with
  | edit _ => exact j
  | scan T h => exact j.scan ok
  | update h hd hr =>
    obtain ⟨_, _, _, _, _, _, _, k⟩ := updating_K ok h (fun _ => j)
    exact k.J
  | crash h hc => exact j.scan ok

theorem History.J (ok : π.Ok) {w : W} (h : History π true w) : J π w.db := by
  induction h with
  | init h => intro c hc hcc; exact Or.inl (h c hc hcc)
  | step _ hs ih => exact ih.step ok hs

/-- without ^o the assumption `clean` says nothing -/
theorem work_clean (ho : ∀ c, π.optO c = false) (nrm : Nat → Nat → Bool) : work π false nrm = work π true nrm := by
  funext d g n d' b
  unfold work Fails
  simp [ho]

theorem step_clean (ho : ∀ c, π.optO c = false) {w w' : W} (h : Step π false w w') : Step π true w w' := by
  cases h with
  | edit c => exact .edit c
  | scan T h => exact .scan T h
  | update h hd hr => unfold Updating at h; rw [work_clean ho] at h; exact .update h hd hr
  | crash h hc => unfold Updating at h; rw [work_clean ho] at h; exact .crash h hc

theorem history_clean (ho : ∀ c, π.optO c = false) {w : W} (h : History π false w) : History π true w := by
  induction h with
  | init h => exact .init h
  | step _ hs ih => exact .step ih (step_clean ho hs)

/-! ### Work stays scheduled -/

theorem work_keeps {nrm : Nat → Nat → Bool} {d d' : D} {g : Graph} {n : Nat} {b : Bool}
    (h : work π clean nrm d g n d' b) {x : Nat} (hx : d.db.modify x = true) :
    (x = n ∧ b = true) ∨ d'.db.modify x = true := by
  by_cases hxn : x = n ∧ b = true
  · exact Or.inl hxn
  right
  unfold work at h
  split at h
  · split at h
    · obtain ⟨rfl, rfl⟩ := h
      exact (finishCmd_spec nrm g n d).2.2.2.2.1 x (fun h => hxn ⟨h, rfl⟩) hx
    · rcases h with ⟨rfl, hf⟩ | ⟨rfl, v, _, _, rfl⟩
      · rw [hf.2.2.2.2.1]; exact hx
      · exact (finishCmd_spec nrm g n _).2.2.2.2.1 x (fun h => hxn ⟨h, rfl⟩) hx
  · obtain ⟨rfl, rfl⟩ := h
    exact ((fileWork_spec nrm g n d).2.2.2.2.1 x).2 ⟨fun h => hxn ⟨h, rfl⟩, Or.inl hx⟩

theorem reach_keeps {nrm : Nat → Nat → Bool} {c : Cfg} (hx : ∀ n, c.expanded n = true) {s s' : S D}
    (hr : Reach c (work π clean nrm) s s') (hna : s'.pc ≠ .abort) {x : Nat}
    (h : Done s x ∨ s.db.db.modify x = true) : Done s' x ∨ s'.db.db.modify x = true := by
  induction hr with
  | refl => exact h
  | @tail s1 s2 _ hst ih =>
    have hna1 : s1.pc ≠ .abort := by
      intro ha
      cases hst with
      | main hm => simp [Tup.Exec.mainStep, ha] at hm
      | finish _ _ => exact hna ha
      | die _ => exact hna ha
    have ih := ih hna1
    cases hst with
    | main hm =>
      obtain ⟨q1, q2, _, _⟩ := main_same hx hna hm
      rw [q1, q2]; exact ih
    | @finish n b db' hn hw =>
      rcases ih with ih | ih
      · refine Or.inl (ih.imp id fun h => ?_)
        exact List.mem_cons_of_mem _ h
      · rcases work_keeps hw ih with ⟨rfl, rfl⟩ | h
        · exact Or.inl (Or.inr (by simp))
        · exact Or.inr h
    | die _ => exact ih

theorem work_weaken {nrm : Nat → Nat → Bool} {d d' : D} {g : Graph} {n : Nat} {b : Bool}
    (h : work π true nrm d g n d' b) : work π false nrm d g n d' b := by
  unfold work at h ⊢
  by_cases hc : π.isCmd n = true
  · rw [if_pos hc] at h ⊢
    by_cases hs : d.skip n = true
    · rw [if_pos hs] at h ⊢; exact h
    · rw [if_neg hs] at h ⊢
      refine h.imp (fun ⟨h1, h2⟩ => ⟨h1, ?_⟩) id
      refine ⟨h2.1, h2.2.1, fun ho p hp => ?_, h2.2.2.2⟩
      rcases h2.2.2.1 ho p hp with h | h | h
      · exact Or.inl h
      · exact Or.inr (Or.inl h)
      · cases h.2
  · rw [if_neg hc] at h ⊢; exact h

theorem _root_.Tup.Exec.Running.weaken {c : Cfg} {w w' : Work D} {g0 : Graph} {d0 : D} {s : S D}
    (h : Running c w g0 d0 s) (hw : ∀ d g n d' b, w d g n d' b → w' d g n d' b) : Running c w' g0 d0 s := by
  obtain ⟨s0, h0, hr⟩ := h
  refine ⟨s0, h0, ?_⟩
  induction hr with
  | refl => exact .refl
  | tail _ hst ih =>
    refine .tail ih ?_
    cases hst with
    | main h => exact .main h
    | finish hn h => exact .finish hn (hw _ _ _ _ _ h)
    | die h => exact .die h

theorem done_not_failed {c : Cfg} {g0 : Graph} {rest : List Nat} {s : S D}
    (hi : Tup.Exec.Inv c g0 π.root rest s) (ht : ∀ n, g0.trans n = .none) {x : Nat} (hd : Done s x)
    (hf : Failed s x) : False := by
  have hnd := hi.gi.nodup
  rw [List.nodup_append] at hnd
  have hnd2 := hnd.2.1
  rw [List.nodup_append] at hnd2
  rcases hf with hf | hf
  · have hxn := (hi.gi.fail x hf).1
    rcases hd with h | h
    · exact popped_not_held hi ht h (by simp [hxn])
    · exact hnd.2.2 x (List.mem_append_left _ hxn) x (mem_fin_held h) rfl
  · rcases hd with h | h
    · exact popped_not_held hi ht h (List.mem_append_right _ (mem_fin_held hf))
    · have : ∀ (l : List (Nat × Bool)), (l.map (·.1)).Nodup → (x, true) ∈ l → (x, false) ∈ l → False := by
        intro l
        induction l with
        | nil => intro _ h; cases h
        | cons y ys ih =>
          intro hn h1 h2
          simp only [List.map_cons, List.nodup_cons, List.mem_map, not_exists, not_and] at hn
          rcases List.mem_cons.1 h1 with h1 | h1
          · rcases List.mem_cons.1 h2 with h2 | h2
            · rw [← h1] at h2; simp at h2
            · exact hn.1 _ h2 (by rw [← h1])
          · rcases List.mem_cons.1 h2 with h2 | h2
            · exact hn.1 _ h1 (by rw [← h2])
            · exact ih hn.2 h1 h2
      exact this s.fin hnd2.2.1 h hf

end Tup.Update
