import Verif.Update.StepK

/-! The invariant holds in every state of an update. -/

namespace Tup.Update

open Tup.Exec (upd Graph S Work Cfg Running upd_apply WF Reach)
open Tup.Graph (Links Res B buildGraph addStickies toExec Linked Closed Star)

variable {π : Proj} {clean : Bool}

/-- In state `s`, the job of `x` has failed. -/
def Failed (s : S D) (x : Nat) : Prop := x ∈ s.failedL ∨ (x, false) ∈ s.fin

theorem closed_links (ok : π.Ok) (db : DB) : Closed (linksOf π db) π.root π.nodes (sched π db) where
  sched n hn := (List.mem_filter.1 hn).1
  links n _ m hm := by
    rcases hm with hm | hm
    · exact (List.mem_filter.1 hm).1
    · cases hm
  root := ok.root
  nodup := ok.nodup

theorem linked_iff (db : DB) (a b : Nat) :
    Linked (linksOf π db) a b ↔ b ∈ π.nodes ∧ normal π db a b = true := by
  simp [Linked, linksOf]

theorem graph_ge (ok : π.Ok) {w : W} {g0 : Graph} (hg : graph π w = some g0) :
    ∃ rest, WF g0 π.root rest ∧ GE π w.db rest g0.edges ∧ (∀ n, g0.trans n = .none) := by
  unfold graph at hg
  split at hg
  · rename_i b hb
    injection hg with hg
    obtain ⟨rest, h1, h2, h3⟩ := Tup.Graph.c28_graph_ready_for_executor (closed_links ok w.db) hb π.isCmd
      π.sticky ok.stickyIn ok.rootNoCmd (fun _ => .none) (by simp) rfl (fun _ _ => rfl) (fun _ _ _ _ => rfl)
    subst hg
    have hsched : ∀ x ∈ sched π w.db, x ∈ rest := fun x hx => (h2 x).2 ⟨x, hx, Or.inl rfl⟩
    refine ⟨rest, h1, ⟨?_, ?_, ?_, ?_⟩, fun _ => rfl⟩
    · intro a b'
      rw [h3, linked_iff]
    · intro x hx hm; exact hsched x (List.mem_filter.2 ⟨hx, hm⟩)
    · intro x hx
      obtain ⟨s, hs, hst⟩ := (h2 x).1 hx
      have hsn : s ∈ π.nodes := (List.mem_filter.1 hs).1
      rcases hst with rfl | hp
      · exact hsn
      · cases hp with
        | one h => exact ((linked_iff w.db _ _).1 h).1
        | tail _ h => exact ((linked_iff w.db _ _).1 h).1
    · intro a b' ha hb' hn
      obtain ⟨s, hs, hst⟩ := (h2 a).1 ha
      refine (h2 b').2 ⟨s, hs, Or.inr ?_⟩
      have hl := (linked_iff w.db a b').2 ⟨hb', hn⟩
      rcases hst with rfl | hp
      · exact .one hl
      · exact .tail hp hl
  · cases hg

variable {c : Cfg} {w : W} {g0 : Graph} {rest : List Nat} {s : S D}

theorem mem_fin_held {s : S D} {x : Nat} {b : Bool} (h : (x, b) ∈ s.fin) :
    x ∈ s.running ++ s.fin.map (·.1) :=
  List.mem_append_right _ (List.mem_map.2 ⟨(x, b), h, rfl⟩)

theorem popped_not_held (hi : Tup.Exec.Inv c g0 π.root rest s) (ht : ∀ n, g0.trans n = .none) {x : Nat}
    (hx : x ∈ s.popped) : x ∉ s.g.nodeList ++ s.g.plist ++ (s.running ++ s.fin.map (·.1)) := by
  intro h
  have h1 := hi.gi.popLive x hx h
  have h2 := hi.gi.tr x
  rw [h1, ht] at h2
  rcases h2 with h2 | h2
  · cases h2
  · cases h2.1

theorem trans_none (hi : Tup.Exec.Inv c g0 π.root rest s) (ht : ∀ n, g0.trans n = .none) (x : Nat) :
    s.g.trans x = .none := by
  rcases hi.gi.tr x with h | h
  · rw [h, ht]
  · rw [ht] at h; cases h.1

theorem edge_orig (hi : Tup.Exec.Inv c g0 π.root rest s) (ht : ∀ n, g0.trans n = .none) {a b : Nat}
    (h : (a, b) ∈ s.g.edges) : (a, b) ∈ g0.edges := by
  rcases hi.gi.orig a b h with h | h
  · exact h
  · rw [trans_none hi ht] at h; cases h.1

/-- a node in someone's hands is not finished, and everything before it is -/
theorem done_order (hi : Tup.Exec.Inv c g0 π.root rest s) (ht : ∀ n, g0.trans n = .none) {a b : Nat}
    (h : (a, b) ∈ g0.edges) (hb : Done s b) : a ∈ s.popped := by
  rcases hb with hb | hb
  · exact hi.gi.popOrder b hb a h
  · exact hi.startedOrder b ((hi.heldStart b (mem_fin_held hb)).1 (by rw [trans_none hi ht]; simp)) a h

theorem env_of (hi : Tup.Exec.Inv c g0 π.root rest s) (hwf : WF g0 π.root rest)
    (ht : ∀ n, g0.trans n = .none) (hroot : π.root ∈ s.popped) {n : Nat} (hn : n ∈ s.running) :
    Env rest g0.edges s.g (Done s) (Failed s) n := by
  have hheld : n ∈ s.running ++ s.fin.map (·.1) := List.mem_append_left _ hn
  have hlive : ∀ x, x ∈ s.running ++ s.fin.map (·.1) → x ∈ rest := by
    intro x hx
    rcases List.mem_cons.1 (hi.gi.sub x (List.mem_append_right _ hx)) with h | h
    · exact absurd (List.mem_append_right _ (h ▸ hx)) (popped_not_held hi ht hroot)
    · exact h
  have hnd := hi.gi.nodup
  rw [List.nodup_append] at hnd
  have hnd2 := hnd.2.1
  rw [List.nodup_append] at hnd2
  have hnfin : ∀ b, (n, b) ∉ s.fin := fun b hb => hnd2.2.2 n hn n (List.mem_map.2 ⟨(n, b), hb, rfl⟩) rfl
  have hnp : n ∉ s.popped := fun h => popped_not_held hi ht h (List.mem_append_right _ hheld)
  have hnDone : ¬ Done s n := fun h => h.elim hnp (hnfin true)
  have hE1 : ∀ a, a ∉ s.popped → ∀ x, x ∈ s.g.outs a ↔ (a, x) ∈ g0.edges := by
    intro a ha x
    rw [Tup.Exec.mem_outs]
    exact ⟨edge_orig hi ht, fun h => (hi.gi.hist a x h).resolve_right ha⟩
  have ahead : ∀ a x, a ∉ s.popped → (a, x) ∈ g0.edges → ¬ Done s x :=
    fun a x ha h hd => ha (done_order hi ht h hd)
  have hpreds : ∀ a, (a, n) ∈ g0.edges → a ∈ s.popped := by
    intro a ha
    exact hi.startedOrder n ((hi.heldStart n hheld).1 (by rw [trans_none hi ht]; simp)) a ha
  have hself : ∀ x, (n, x) ∈ g0.edges → x ≠ n := fun x hx he => hnp (hpreds n (he ▸ hx))
  refine ⟨hlive n hheld, hnDone, ?_, ?_, ?_, hE1 n hnp, ?_, ?_, ?_, ?_, ?_, ?_⟩
  · rintro (h | h)
    · exact hnd.2.2 n (List.mem_append_left _ (hi.gi.fail n h).1) n hheld rfl
    · exact hnfin false h
  · intro a ha; exact Or.inl (hpreds a ha)
  · intro a b ha hb; exact Or.inl (hi.gi.popOrder a (hpreds a ha) b hb)
  · intro p hp x
    exact hE1 p (fun h => hnp (hi.gi.popOrder p h n hp)) x
  · intro x hx
    exact ⟨ahead n x hnp hx, hself x hx⟩
  · intro p x hp hx
    have hpp : p ∉ s.popped := fun h => hnp (hi.gi.popOrder p h n hp)
    exact ⟨ahead p x hpp hx, fun he => hpp (hpreds p (he ▸ hx))⟩
  · rintro x hd (hf | hf)
    · have hxn := (hi.gi.fail x hf).1
      rcases hd with h | h
      · exact popped_not_held hi ht h (by simp [hxn])
      · exact hnd.2.2 x (List.mem_append_left _ hxn) x (mem_fin_held h) rfl
    · rcases hd with h | h
      · exact popped_not_held hi ht h (List.mem_append_right _ (mem_fin_held hf))
      · have hnd3 := hnd2.2.1
        have : ∀ (l : List (Nat × Bool)), (l.map (·.1)).Nodup → (x, true) ∈ l → (x, false) ∈ l → False := by
          intro l
          induction l with
          | nil => intro _ h; cases h
          | cons y ys ih =>
            intro hn h1 h2
            simp only [List.map_cons, List.nodup_cons, List.mem_map, not_exists, not_and] at hn
            rcases List.mem_cons.1 h1 with h1 | h1
            · rcases List.mem_cons.1 h2 with h2 | h2
              · rw [← h1] at h2; simp at h2
              · exact hn.1 _ h2 (by rw [← h1])
            · rcases List.mem_cons.1 h2 with h2 | h2
              · exact hn.1 _ h1 (by rw [← h2])
              · exact ih hn.2 h1 h2
        exact this s.fin hnd3 h hf
  · rintro x (hf | hf)
    · rcases List.mem_cons.1 (hi.gi.sub x (by simp [(hi.gi.fail x hf).1])) with h | h
      · exact absurd (by simp [← h, (hi.gi.fail x hf).1]) (popped_not_held hi ht hroot)
      · exact h
    · exact hlive x (mem_fin_held hf)
  · intro a b h hb; exact Or.inl (done_order hi ht h hb)

/-- steps of the main thread do not touch what the jobs act on, nor finish or fail jobs -/
theorem main_same {s' : S D} (hx : ∀ n, c.expanded n = true) (hna : s'.pc ≠ .abort)
    (h : Tup.Exec.mainStep c s = some s') :
    s'.db = s.db ∧ (∀ x, Done s' x ↔ Done s x) ∧ (∀ x, Failed s' x ↔ Failed s x) ∧
      (∀ x ∈ s.popped, x ∈ s'.popped) := by
  unfold Tup.Exec.mainStep at h
  split at h
  · split at h
    · injection h with h; subst h; exact ⟨rfl, fun _ => Iff.rfl, fun _ => Iff.rfl, fun _ h => h⟩
    · split at h
      · injection h with h; subst h; exact ⟨rfl, fun _ => Iff.rfl, fun _ => Iff.rfl, fun _ h => h⟩
      · split at h
        · injection h with h; subst h; exact ⟨rfl, fun _ => Iff.rfl, fun _ => Iff.rfl, fun _ h => h⟩
        · split at h
          · rename_i hn; simp [hx] at hn
          · split at h
            · injection h with h; subst h; exact absurd rfl hna
            · injection h with h; subst h; exact ⟨rfl, fun _ => Iff.rfl, fun _ => Iff.rfl, fun _ h => h⟩
  · split at h
    · split at h
      · cases h
      · rename_i n ok fin' hfin
        split at h
        · rename_i hok
          split at h
          · injection h with h; subst h; exact absurd rfl hna
          · injection h with h; subst h
            subst hok
            refine ⟨rfl, fun x => ?_, fun x => ?_, fun x hx => List.mem_cons_of_mem _ hx⟩
            · simp only [Done, hfin, List.mem_cons, Prod.mk.injEq, and_true]; grind
            · simp only [Failed, hfin, List.mem_cons, Prod.mk.injEq]; grind
        · rename_i hok
          have hok : ok = false := by simpa using hok
          subst hok
          split at h
          · injection h with h; subst h; exact absurd rfl hna
          · injection h with h; subst h
            refine ⟨rfl, fun x => ?_, fun x => ?_, fun x hx => hx⟩
            · simp only [Done, hfin, List.mem_cons, Prod.mk.injEq]; grind
            · simp only [Failed, hfin, List.mem_cons, Prod.mk.injEq, and_true]; grind
    · injection h with h; subst h; exact ⟨rfl, fun _ => Iff.rfl, fun _ => Iff.rfl, fun _ h => h⟩
  · cases h
  · cases h

theorem K.congr {rest : List Nat} {E : List (Nat × Nat)} {d : D} {Dn Fl Dn' Fl' : Nat → Prop}
    (k : K π clean w rest E d Dn Fl) (h1 : ∀ x, Dn' x ↔ Dn x) (h2 : ∀ x, Fl' x ↔ Fl x) :
    K π clean w rest E d Dn' Fl' := by
  have e1 : Dn' = Dn := funext fun x => propext (h1 x)
  have e2 : Fl' = Fl := funext fun x => propext (h2 x)
  rw [e1, e2]; exact k

/-- one job -/
theorem K.work {rest : List Nat} {E : List (Nat × Nat)} {d d' : D} {Dn Fl : Nat → Prop} {g : Graph} {n : Nat}
    {b : Bool} (ok : π.Ok) (ge : GE π w.db rest E) (k : K π clean w rest E d Dn Fl)
    (env : Env rest E g Dn Fl n) (hw : work π clean (normal π w.db) d g n d' b) :
    K π clean w rest E d' (fun x => Dn x ∨ (x = n ∧ b = true)) (fun x => Fl x ∨ (x = n ∧ b = false)) := by
  unfold Update.work at hw
  by_cases hc : π.isCmd n = true
  · rw [if_pos hc] at hw
    by_cases hs : d.skip n = true
    · rw [if_pos hs] at hw
      obtain ⟨rfl, rfl⟩ := hw
      exact (k.skipped ok ge env hc hs).congr (by simp) (by simp)
    · rw [if_neg hs] at hw
      rcases hw with ⟨rfl, hf⟩ | ⟨rfl, v, h1, h2, rfl⟩
      · exact (k.failed ok ge env hc (bool_ne hs) hf).congr (by simp) (by simp)
      · exact (k.succeeded ok ge env hc h1 h2).congr (by simp) (by simp)
  · rw [if_neg hc] at hw
    obtain ⟨rfl, rfl⟩ := hw
    exact (k.file ok ge env (bool_ne hc)).congr (by simp) (by simp)

/-- the invariant at the start -/
theorem K.start (ok : π.Ok) (ge : GE π w.db rest g0.edges) (hj : clean = true → J π w.db)
    (hk : ∀ p, w.db.known p = w.content p) {Dn Fl : Nat → Prop} (hD : ∀ x, Dn x → x = π.root)
    (hF : ∀ x, ¬ Fl x) : K π clean w rest g0.edges (startD π w) Dn Fl := by
  have hDr : ∀ x ∈ rest, ¬ Dn x := fun x hx hd => ok.root (hD x hd ▸ ge.nodes x hx)
  refine ⟨?_, ?_, ?_, ?_, ?_, ?_, ?_, ?_, ?_, ?_, ?_, ?_, ?_⟩
  · intro x hx _ hm
    simp only [startD] at hm ⊢
    simp [sched, ge.nodes x hx, hm]
  · intro x hx _ _ hs
    simp only [startD, sched, Bool.not_eq_false', List.contains_iff_mem, List.mem_filter] at hs
    exact hs.2
  · intro x hx hd; exact absurd hd (hDr x hx)
  · exact ge.sched
  · intro p; exact Or.inl (hk p)
  · intro hcl c hcn hcc
    rcases hj hcl c hcn hcc with hm | ⟨v, hm, hv⟩
    · exact Or.inl hm
    · refine Or.inr ⟨v, hm, fun p hp hpo => ?_⟩
      have hpn := ok.readsIn c _ p hp
      by_cases hpr : p ∈ rest
      · right
        have hno : normal π w.db p c = true := by
          simp [normal, hpn.2, hcc, hm.2.2 p hp hpo]
        exact ⟨(ge.edge p c).2 (Or.inl ⟨hpr, hcn, hno⟩), hno, hv p hp hpo⟩
      · left
        have hpe : ∀ e, Prod π e p → e ∉ rest := fun e he her => hpr (ge.prodEdge (w0 := w) ok he her).2
        refine ⟨?_, fun e he => Or.inl (hpe e he)⟩
        rcases hv p hp hpo with h | h | ⟨e, h1, h2, _⟩
        · exact h
        · exact absurd (ge.sched p hpn.1 h) hpr
        · exact absurd (ge.sched e h1.1 h2) (hpe e h1)
  · intro x _ hm; exact Or.inr hm
  · intro x hx
    simpa [startD] using hx
  · intro p; exact Or.inl rfl
  · intro e he; cases he
  · intro c hc _ hd; exact absurd hd (hDr c hc)
  · intro p hp _ _ hch
    rcases hch with h | h
    · simp [startD, sched, ge.nodes p hp, h]
    · exact absurd rfl h.1
  · intro p hp _ hd; exact absurd hd (hDr p hp)

theorem running_K (ok : π.Ok) (hj : clean = true → J π w.db) (hk : ∀ p, w.db.known p = w.content p)
    (hjobs : 0 < c.jobs) (hx : ∀ n, c.expanded n = true) (hg : graph π w = some g0)
    (hr : Running c (work π clean (normal π w.db)) g0 (startD π w) s) :
    ∃ rest, WF g0 π.root rest ∧ GE π w.db rest g0.edges ∧ Tup.Exec.Inv c g0 π.root rest s ∧
      π.root ∈ s.popped ∧ (∀ n, g0.trans n = .none) ∧
      K π clean w rest g0.edges s.db (Done s) (Failed s) := by
  obtain ⟨rest, hwf, ge, ht⟩ := graph_ge ok hg
  refine ⟨rest, hwf, ge, ?_⟩
  obtain ⟨s0, h0, hreach⟩ := hr
  obtain ⟨s1, h1, hi, hp, hdead, hfail, hpc, hdb⟩ := Tup.Exec.start_inv (D := D) hjobs hwf (startD π w)
  rw [h0] at h1; injection h1 with h1; subst h1
  have hfin0 : s0.fin = [] ∧ s0.failedL = [] := by
    simp only [Tup.Exec.start] at h0
    split at h0
    · cases h0
    · simp only [Option.map_eq_some_iff] at h0
      obtain ⟨_, _, rfl⟩ := h0; exact ⟨rfl, rfl⟩
  induction hreach with
  | refl =>
    refine ⟨hi, by rw [hp]; simp, ht, ?_⟩
    rw [hdb]
    refine K.start ok ge hj hk ?_ ?_
    · rintro x (h | h)
      · rw [hp] at h; simpa using h
      · rw [hfin0.1] at h; cases h
    · rintro x (h | h)
      · rw [hfin0.2] at h; cases h
      · rw [hfin0.1] at h; cases h
  | @tail s s' _ hst ih =>
    obtain ⟨hi, hroot, _, k⟩ := ih
    have hi' := Tup.Exec.step_inv hwf hi hroot hst
    refine ⟨hi', (Tup.Exec.step_mono hst).1 hroot, ht, ?_⟩
    cases hst with
    | main h =>
      obtain ⟨q1, q2, q3, _⟩ := main_same hx hi'.noAbort h
      rw [q1]; exact k.congr q2 q3
    | @finish n b db' hn hw =>
      refine (k.work ok ge (env_of hi hwf ht hroot hn) hw).congr ?_ ?_
      · intro x; simp only [Done, List.mem_cons, Prod.mk.injEq]; grind
      · intro x; simp only [Failed, List.mem_cons, Prod.mk.injEq]; grind
    | die _ => exact k.congr (fun _ => Iff.rfl) (fun _ => Iff.rfl)

end Tup.Update
