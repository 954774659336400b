import Verif.Todo.Spec
import Verif.Generate.Order
import Verif.Graph.Props
import Verif.Transient.Props

/-! Helpers for C82. -/

namespace Tup.Todo

open Tup.Exec Tup.Graph

variable {counts : Nat → Bool} {c : Cfg} {g0 : Exec.Graph} {root : Nat} {rest : List Nat}

/-- What has been printed are the counted nodes whose work function has returned. -/
structure Told (counts : Nat → Bool) (c : Cfg) (g0 : Exec.Graph) (rest : List Nat) (s : S (List Nat)) : Prop where
  log : ∀ x, x ∈ s.db ↔ counts x = true ∧ x ∈ s.started ∧ x ∉ s.running
  nodup : s.db.Nodup
  order : ∀ a b u v, s.db = u ++ b :: v → Downstream g0 a b → HasJob c rest a → counts a = true → a ∈ v
  fin : ∀ n ok, (n, ok) ∈ s.fin → ok = true
  failed : s.failedL = []

theorem popped_down {D : Type} {s : S D} (hi : Inv c g0 root rest s) {a b : Nat} (h : Downstream g0 a b) (hb : b ∈ s.started ∨ b ∈ s.popped) : a ∈ s.popped := by
  induction h with
  | one h =>
    rcases hb with hb | hb
    · exact hi.startedOrder _ hb _ h
    · exact hi.gi.popOrder _ hb _ h
  | tail _ h ih =>
    rcases hb with hb | hb
    · exact ih (.inr (hi.startedOrder _ hb _ h))
    · exact ih (.inr (hi.gi.popOrder _ hb _ h))

theorem told_step (hwf : WF g0 root rest) (htr : ∀ n ∈ rest, counts n = true → g0.trans n = .none) {s s' : S (List Nat)} (hi : Inv c g0 root rest s)
    (hi' : Inv c g0 root rest s') (ht : Told counts c g0 rest s) (hst : Step c (work counts) s s') : Told counts c g0 rest s' := by
  have htn : ∀ n ∈ rest, counts n = true → s.g.trans n ≠ .delete := by
    intro n hn hc h
    rcases hi.gi.tr n with h1 | h1
    · rw [htr n hn hc, h] at h1; cases h1
    · rw [htr n hn hc] at h1; cases h1.1
  cases hst with
  | die h => exact ⟨ht.log, ht.nodup, ht.order, ht.fin, ht.failed⟩
  | @finish n ok db' hn hw =>
    obtain ⟨hw, hok⟩ := hw
    have hrn : s.running.Nodup := ((List.nodup_append.1 ((List.nodup_append.1 hi.gi.nodup).2.1)).1)
    have hfin : ∀ m ok', (m, ok') ∈ (n, ok) :: s.fin → ok' = true := by
      intro m ok' h
      rcases List.mem_cons.1 h with h | h
      · cases h; exact hok
      · exact ht.fin m ok' h
    by_cases hc : counts n = true
    · rw [if_pos hc] at hw
      have hnl : n ∉ s.db := fun h => ((ht.log n).1 h).2.2 hn
      have hnr : n ∈ rest := by
        have hm := hi.heldStart n (List.mem_append_left _ hn)
        by_cases hd : s.g.trans n = .delete
        · rcases List.mem_cons.1 (hi.poppedSub n (hi.gi.delPop n hd).1) with h | h
          · subst h
            rcases hi.gi.tr n with h1 | h1
            · rw [hwf.rootTrans, hd] at h1; cases h1
            · rw [hwf.rootTrans] at h1; cases h1.1
          · exact h
        · exact hi.startedSub n (hm.1 hd)
      have hns : n ∈ s.started := (hi.heldStart n (List.mem_append_left _ hn)).1 (htn n hnr hc)
      refine ⟨?_, ?_, ?_, hfin, ht.failed⟩
      · intro x
        simp only
        rw [hw, List.mem_cons, ht.log]
        by_cases hx : x = n
        · subst hx
          refine ⟨fun _ => ⟨hc, hns, ?_⟩, fun _ => .inl rfl⟩
          rw [hrn.mem_erase_iff]
          exact fun h => h.1 rfl
        · rw [hrn.mem_erase_iff]
          constructor
          · rintro (h | h)
            · exact absurd h hx
            · exact ⟨h.1, h.2.1, fun h' => h.2.2 h'.2⟩
          · intro h
            exact .inr ⟨h.1, h.2.1, fun h' => h.2.2 ⟨hx, h'⟩⟩
      · simp only
        rw [hw]
        exact List.nodup_cons.2 ⟨hnl, ht.nodup⟩
      · intro a b u v huv hab ha hca
        simp only at huv
        rw [hw] at huv
        cases u with
        | cons x u => exact ht.order a b u v (List.cons.inj huv).2 hab ha hca
        | nil =>
          obtain ⟨h1, h2⟩ := List.cons.inj huv
          subst h1 h2
          have hp := popped_down hi hab (.inl hns)
          rw [ht.log]
          have hroot : a ≠ root := by
            rintro rfl
            exact (List.nodup_cons.1 hwf.nodup).1 ha.1
          refine ⟨hca, ?_, ?_⟩
          · rcases hi.poppedHow a hp with h | h | h
            · exact absurd h hroot
            · exact h
            · rw [ha.2] at h; cases h
          · intro hr
            exact htn a ha.1 hca (hi.gi.popLive a hp (List.mem_append_right _ (List.mem_append_left _ hr)))
    · rw [if_neg hc] at hw
      refine ⟨?_, by simp only; rw [hw]; exact ht.nodup, by simp only; rw [hw]; exact ht.order, hfin, ht.failed⟩
      intro x
      simp only
      rw [hw, ht.log, hrn.mem_erase_iff]
      constructor
      · rintro ⟨h1, h2, h3⟩
        exact ⟨h1, h2, fun h => h3 h.2⟩
      · rintro ⟨h1, h2, h3⟩
        exact ⟨h1, h2, fun h => h3 ⟨by rintro rfl; exact hc h1, h⟩⟩
  | main hm =>
    obtain ⟨hdb, h⟩ := Generate.main_cases hm
    rcases h with ⟨h1, h2, h3⟩ | ⟨n, r, h1, h2, h3, h4, h5⟩
    · refine ⟨by rw [hdb, h1, h2]; exact ht.log, by rw [hdb]; exact ht.nodup, by rw [hdb]; exact ht.order, ?_, ?_⟩
      · rcases h3 with ⟨h3, _⟩ | ⟨n, ok, h3, _⟩
        · rw [h3]; exact ht.fin
        · intro m ok' hm'
          exact ht.fin m ok' (by rw [h3]; exact List.mem_cons_of_mem _ hm')
      · rcases h3 with ⟨_, h3⟩ | ⟨n, ok, h3, h4⟩
        · rw [h3]; exact ht.failed
        · rw [h4, ht.fin n ok (by rw [h3]; exact List.mem_cons_self), if_pos rfl]
          exact ht.failed
    · refine ⟨?_, by rw [hdb]; exact ht.nodup, by rw [hdb]; exact ht.order, by rw [h3]; exact ht.fin, by rw [h4]; exact ht.failed⟩
      intro x
      have hnp := hi.pend n (.inl (by rw [h1]; exact List.mem_cons_self))
      by_cases hd : s.g.trans n = .delete
      · rw [if_pos hd] at h5
        rw [hdb, h5, h2, ht.log, List.mem_cons, not_or]
        constructor
        · rintro ⟨g1, g2, g3⟩
          exact ⟨g1, g2, by rintro rfl; exact htn _ (hi.startedSub _ g2) g1 hd, g3⟩
        · rintro ⟨g1, g2, _, g3⟩
          exact ⟨g1, g2, g3⟩
      · rw [if_neg hd] at h5
        have hns := hnp.1 hd
        rw [hdb, h5, h2, ht.log, List.mem_cons, List.mem_cons, not_or]
        constructor
        · rintro ⟨g1, g2, g3⟩
          exact ⟨g1, .inr g2, by rintro rfl; exact hns g2, g3⟩
        · rintro ⟨g1, g2, g3, g4⟩
          exact ⟨g1, g2.resolve_left g3, g4⟩

theorem told_all (hj : 0 < c.jobs) (hwf : WF g0 root rest) (htr : ∀ n ∈ rest, counts n = true → g0.trans n = .none) {s : S (List Nat)}
    (hs : Running c (work counts) g0 [] s) : Told counts c g0 rest s := by
  obtain ⟨s0, h0, hr⟩ := hs
  have hst : s0.running = [] ∧ s0.started = [] ∧ s0.fin = [] ∧ s0.failedL = [] ∧ s0.db = [] := by
    unfold start at h0
    rw [hwf.nodes] at h0
    simp only at h0
    cases hpop : popNode { g0 with nodeList := rest } root with
    | none => rw [hpop] at h0; cases h0
    | some g => rw [hpop] at h0; cases h0; exact ⟨rfl, rfl, rfl, rfl, rfl⟩
  induction hr with
  | refl =>
    obtain ⟨h1, h2, h3, h4, h5⟩ := hst
    refine ⟨?_, by rw [h5]; exact List.nodup_nil, ?_, ?_, h4⟩
    · intro x; rw [h5, h2]; simp
    · intro a b u v h; rw [h5] at h; simp at h
    · intro n ok h; rw [h3] at h; cases h
  | @tail s1 s2 hr' hst' ih =>
    obtain ⟨hi, hp⟩ := running_inv hj hwf ⟨s0, h0, hr'⟩
    exact told_step hwf htr hi (step_inv hwf hi hp hst') ih hst'

/-- When the executor reports success. -/
theorem printed (hj : 0 < c.jobs) (hwf : WF g0 root rest) (htr : ∀ n ∈ rest, counts n = true → g0.trans n = .none) {s : S (List Nat)}
    (hs : Running c (work counts) g0 [] s) (hd : s.pc = .done true) :
    s.db.Nodup ∧ (∀ x, x ∈ s.db ↔ HasJob c rest x ∧ counts x = true) ∧
      ∀ a b u v, s.db = u ++ b :: v → Downstream g0 a b → HasJob c rest a → counts a = true → a ∈ v := by
  have ht := told_all hj hwf htr hs
  obtain ⟨_, hjobs⟩ := c33_success_means_all_done hj hwf hs hd
  refine ⟨ht.nodup, fun x => ?_, ht.order⟩
  rw [ht.log]
  constructor
  · rintro ⟨h1, h2, _⟩
    exact ⟨(c30_at_most_once hj hwf hs).2 x h2, h1⟩
  · rintro ⟨h1, h2⟩
    exact ⟨h2, (hjobs x h1).1, (hjobs x h1).2.1⟩

/-- Without circles the executor can only be stopped by a signal. -/
theorem completes (hj : 0 < c.jobs) (hwf : WF g0 root rest) (hac : Acyclic g0) : ∃ s, Running c (work counts) g0 [] s ∧ s.pc = .done true := by
  obtain ⟨s0, h0, _, _, hdead, _, _, _⟩ := start_inv (D := List Nat) (c := c) hj hwf []
  obtain ⟨bound, hb⟩ := c32_terminates (w := work counts) hj hwf h0
  have reachN : ∀ {k s}, ReachN c (work counts) s0 k s → Reach c (work counts) s0 s := by
    intro k s h
    induction h with
    | refl => exact .refl
    | tail _ h ih => exact .tail ih h
  have key : ∀ k, (∃ s, ReachN c (work counts) s0 k s ∧ s.dead = false ∧ s.failedL = [] ∧ (∀ n ok, (n, ok) ∈ s.fin → ok = true)) ∨
      ∃ s, Running c (work counts) g0 [] s ∧ s.dead = false ∧ s.failedL = [] ∧ ∃ ok, s.pc = .done ok := by
    intro k
    induction k with
    | zero =>
      refine .inl ⟨s0, .refl, hdead, ?_, ?_⟩
      all_goals
        unfold start at h0
        rw [hwf.nodes] at h0
        simp only at h0
        cases hpop : popNode { g0 with nodeList := rest } root with
        | none => rw [hpop] at h0; cases h0
        | some g => rw [hpop] at h0; cases h0; simp
    | succ k ih =>
      rcases ih with ⟨s, h1, h2, h3, h4⟩ | h
      · rcases c32_no_deadlock hj hwf (w := work counts) (fun db g n => ⟨_, _, rfl, rfl⟩) ⟨s0, h0, reachN h1⟩ with h | ⟨s', h⟩ | ⟨⟨n, hn⟩, _⟩
        · exact .inr ⟨s, ⟨s0, h0, reachN h1⟩, h2, h3, h⟩
        · refine .inl ⟨s', .tail h1 (.main h), by rw [(main_mono h).2.2.2.2.2.1]; exact h2, ?_, ?_⟩
          · obtain ⟨_, ⟨_, _, ⟨_, g⟩ | ⟨n, ok, g, g'⟩⟩ | ⟨n, r, _, _, _, g, _⟩⟩ := Generate.main_cases h
            · rw [g]; exact h3
            · rw [g', h4 n ok (by rw [g]; exact List.mem_cons_self), if_pos rfl]; exact h3
            · rw [g]; exact h3
          · obtain ⟨_, ⟨_, _, ⟨g, _⟩ | ⟨n, ok, g, _⟩⟩ | ⟨n, r, _, _, g, _, _⟩⟩ := Generate.main_cases h
            · rw [g]; exact h4
            · exact fun m ok' hm => h4 m ok' (by rw [g]; exact List.mem_cons_of_mem _ hm)
            · rw [g]; exact h4
        · refine .inl ⟨_, .tail h1 (.finish hn ⟨rfl, rfl⟩), h2, h3, ?_⟩
          intro m ok' hm
          rcases List.mem_cons.1 hm with hm | hm
          · cases hm; rfl
          · exact h4 m ok' hm
      · exact .inr h
  rcases key (bound + 1) with ⟨s, h1, _⟩ | ⟨s, h1, h2, h3, ok, h4⟩
  · exact absurd (hb _ _ h1) (by omega)
  · have hi := (running_inv hj hwf h1).1
    have := c32_failure_free_completes hj hwf hac h1 h4 h2 (by rw [hi.failCount, h3]; rfl)
    exact ⟨s, h1, by rw [h4, this.1]⟩

theorem makeEdge_exp {o : Op} {b b' : B} (h : makeEdge o b = some b') (hb : ∀ x, b.expanded x = true → ∃ a, (a, x) ∈ b.edges) :
    ∀ x, b'.expanded x = true → ∃ a, (a, x) ∈ b'.edges := by
  have hf : (findOrCreate o.dst b).expanded = b.expanded ∧ (findOrCreate o.dst b).edges = b.edges := by
    unfold findOrCreate
    split <;> exact ⟨rfl, rfl⟩
  unfold makeEdge at h
  simp only at h
  split at h
  · cases h
  · injection h with h
    subst h
    intro x hx
    by_cases hxo : x = o.dst
    · exact ⟨o.src, by rw [hxo]; exact List.mem_cons_self⟩
    · have : b.expanded x = true := by
        rw [← hf.1]
        simp only at hx
        split at hx
        · exact hx
        · simpa only [upd, if_neg hxo] using hx
      obtain ⟨a, ha⟩ := hb x this
      refine ⟨a, List.mem_cons_of_mem _ ?_⟩
      split
      · rw [hf.2]; exact ha
      · simp only; rw [hf.2]; exact ha

theorem addLinks_exp {os : List Op} : ∀ {b b' : B}, addLinks os b = some b' → (∀ x, b.expanded x = true → ∃ a, (a, x) ∈ b.edges) →
    ∀ x, b'.expanded x = true → ∃ a, (a, x) ∈ b'.edges := by
  induction os with
  | nil => intro b b' h hb; rw [addLinks] at h; cases h; exact hb
  | cons o os ih =>
    intro b b' h hb
    rw [addLinks] at h
    split at h
    · cases h
    · rename_i b1 h1
      exact ih h (makeEdge_exp h1 hb)

theorem loop_exp {ops : Nat → List Op} : ∀ {fuel : Nat} {b b' : B}, loop ops fuel b = .ok b' → (∀ x, b.expanded x = true → ∃ a, (a, x) ∈ b.edges) →
    ∀ x, b'.expanded x = true → ∃ a, (a, x) ∈ b'.edges := by
  intro fuel
  induction fuel with
  | zero =>
    intro b b' h hb
    rw [loop] at h
    split at h
    · cases h; exact hb
    · cases h
  | succ fuel ih =>
    intro b b' h hb
    rw [loop] at h
    split at h
    · cases h; exact hb
    · split at h
      · split at h
        · cases h
        · rename_i b1 h1
          have h2 := addLinks_exp h1 hb
          exact ih h h2
      · exact ih h hb
      · cases h

theorem expanded_all {l : Links} {U sched : List Nat} (h : Closed l root U sched) {b : B} (hb : buildGraph l root U sched = .ok b) :
    (∀ x ∈ b.nodeList, x ≠ root → b.expanded x = true) ∧ b.expanded root = false := by
  constructor
  · rcases build_spec h with ⟨b', e, hi, hp⟩ | ⟨e, _⟩
    · rw [e] at hb; injection hb with hb; subst hb
      exact fun x hx hr => hi.base.exp x ((hi.base.mem x).2 (.inl hx)) hr
    · rw [e] at hb; cases hb
  · cases he : b.expanded root with
    | false => rfl
    | true =>
      exfalso
      obtain ⟨rest, h1, h2, h3, h4⟩ := c28_graph_is_reachable_part h hb
      have : ∃ a, (a, root) ∈ b.edges := by
        unfold buildGraph at hb
        split at hb
        · cases hb
        · rename_i b1 hb1
          exact loop_exp hb (addLinks_exp hb1 (by intro x hx; cases hx)) root he
      obtain ⟨a, ha⟩ := this
      rw [h4.mem_iff] at ha
      simp only [List.mem_append, List.mem_flatMap, List.mem_map, Prod.mk.injEq] at ha
      rcases ha with ⟨n, hn, x, hx, rfl, rfl⟩ | ⟨s, hs, rfl, rfl⟩
      · obtain ⟨s, hs, hst⟩ := (h3 n).1 hn
        have : x ∈ rest := (h3 x).2 ⟨s, hs, hst.tail hx⟩
        exact (List.nodup_cons.1 h2).1 this
      · exact h.root (h.sched _ hs)

variable {w : World} {U sched : List Nat}

theorem plus_of_down {r : Nat → Nat → Prop} {g : Exec.Graph} (hr : ∀ a b, (a, b) ∈ g.edges → a ≠ root → r a b) (h0 : ∀ a, (a, root) ∉ g.edges) {a b : Nat} (h : Downstream g a b)
    (ha : a ≠ root) : Plus r a b := by
  induction h with
  | one h => exact .one (hr _ _ h ha)
  | @tail x y hx hd ih =>
    refine .tail ih (hr _ _ hd ?_)
    rintro rfl
    cases hx with
    | one h => exact h0 _ h
    | tail _ h => exact h0 _ h

theorem down_of_plus {r : Nat → Nat → Prop} {g : Exec.Graph} (hr : ∀ a b, r a b → (a, b) ∈ g.edges) {a b : Nat} (h : Plus r a b) : Downstream g a b := by
  induction h with
  | one h => exact .one (hr _ _ h)
  | tail _ h ih => exact .tail ih (hr _ _ h)

/-- The graph before anything is cut off. -/
theorem graph_ok (hc : Closed w.toLinks root U sched) (hk : Ok w root U) {b : B} (hb : buildGraph w.toLinks root U sched = .ok b) :
    ∃ rest, WF (w.graph b) root rest ∧ (∀ x, x ∈ rest ↔ Behind w sched x) ∧
      (∀ x y, (x, y) ∈ (w.graph b).edges ↔ Leads w sched x y ∨ (x = root ∧ y ∈ sched)) ∧ b.nodeList = root :: rest ∧ root ∉ rest := by
  obtain ⟨rest, h1, h2, h3⟩ := c28_graph_ready_for_executor hc hb w.isCmd w.inputs hk.rootInput hk.rootCmd w.trans
    (by intro n; unfold World.trans; split <;> simp) (by simp [World.trans, hk.rootGen])
    (by
      intro n hn
      unfold World.trans
      rw [if_neg]
      intro h
      rw [Bool.and_eq_true] at h
      rw [(hk.genCmd n h.1).1] at hn
      cases hn)
    (by
      intro a b hab ha
      have : w.isGen a = true := by
        unfold World.trans at ha
        split at ha
        · rename_i h
          exact (Bool.and_eq_true _ _ ▸ h : _ ∧ _).1
        · cases ha
      simp [World.trans, hk.genLinks a b hab this])
  have hnl : b.nodeList = root :: rest := h1.nodes
  refine ⟨rest, h1, h2, ?_, hnl, (List.nodup_cons.1 h1.nodup).1⟩
  intro x y
  refine (h3 x y).trans ?_
  unfold Leads
  constructor
  · rintro (⟨g1, g2⟩ | g | ⟨g1, g2, g3, g4⟩)
    · have hx := (h2 x).1 g1
      obtain ⟨s, hs, hst⟩ := hx
      exact .inl ⟨⟨s, hs, hst⟩, ⟨s, hs, hst.tail g2⟩, .inl g2⟩
    · exact .inr g
    · exact .inl ⟨(h2 x).1 g1, (h2 y).1 g2, .inr ⟨g3, g4⟩⟩
  · rintro (⟨g1, g2, g3 | g3⟩ | g)
    · exact .inl ⟨(h2 x).2 g1, g3⟩
    · exact .inr (.inr ⟨(h2 x).2 g1, (h2 y).2 g2, g3⟩)
    · exact .inr (.inl g)

theorem before_of {l : List Nat} {a b : Nat} (hb : b ∈ l) (h : ∀ u v, l.reverse = u ++ b :: v → a ∈ v) : Before l a b := by
  obtain ⟨u, v, huv⟩ := List.append_of_mem (List.mem_reverse.2 hb)
  have ha := h u v huv
  obtain ⟨x, y, rfl⟩ := List.append_of_mem ha
  refine ⟨y.reverse, x.reverse, u.reverse, ?_⟩
  have := congrArg List.reverse huv
  rw [List.reverse_reverse] at this
  rw [this]
  simp

theorem perm_length {l l' : List Nat} (h : l.Nodup) (h' : l'.Nodup) (hm : ∀ x, x ∈ l ↔ x ∈ l') : l.length = l'.length :=
  ((List.perm_ext_iff_of_nodup h h').2 hm).length_eq

/-- A phase in which nothing is cut off. -/
theorem phase_none (hc : Closed w.toLinks root U sched) (hk : Ok w root U) (hg : ∀ x, Behind w sched x → counts x = true → w.isGen x = false) {r : Shown}
    (h : Phase w root U sched counts none (some r)) :
    r.printed.Nodup ∧ (∀ x, x ∈ r.printed ↔ Behind w sched x ∧ counts x = true) ∧ r.num = r.printed.length ∧ r.pruned = [] ∧
      ∀ a b, a ∈ r.printed → b ∈ r.printed → Plus (Leads w sched) a b → Before r.printed a b := by
  cases h with
  | @ran b s hb hs hd =>
    obtain ⟨rest, h1, h2, h3, h4, h5⟩ := graph_ok hc hk hb
    obtain ⟨he1, he2⟩ := expanded_all hc hb
    have hex : ∀ x ∈ rest, b.expanded x = true := fun x hx => he1 x (by rw [h4]; exact List.mem_cons_of_mem _ hx) (by rintro rfl; exact h5 hx)
    obtain ⟨p1, p2, p3⟩ := printed (c := ⟨false, 1, b.expanded⟩) Nat.one_pos h1 (fun n hn hcn => by
      show w.trans n = .none
      simp [World.trans, hg n ((h2 n).1 hn) hcn]) hs hd
    have hmem : ∀ x, x ∈ s.db.reverse ↔ Behind w sched x ∧ counts x = true := by
      intro x
      rw [List.mem_reverse, p2, ← h2]
      exact ⟨fun g => ⟨g.1.1, g.2⟩, fun g => ⟨⟨g.1, hex x g.1⟩, g.2⟩⟩
    refine ⟨List.nodup_iff_pairwise_ne.2 (List.pairwise_reverse.2 (p1.imp fun h => Ne.symm h)), hmem, ?_, rfl, ?_⟩
    · show (b.nodeList.filter _).length - 0 = s.db.reverse.length
      rw [Nat.sub_zero, List.length_reverse]
      refine perm_length ?_ p1 ?_
      · rw [h4]
        exact List.Pairwise.filter _ h1.nodup
      · intro x
        rw [List.mem_filter, p2, h4]
        simp only [World.info, Bool.and_eq_true, HasJob]
        constructor
        · rintro ⟨g1, g2, g3⟩
          rcases List.mem_cons.1 g1 with rfl | g1
          · rw [he2] at g2; cases g2
          · exact ⟨⟨g1, g2⟩, g3⟩
        · rintro ⟨⟨g1, g2⟩, g3⟩
          exact ⟨List.mem_cons_of_mem _ g1, g2, g3⟩
    · intro x y hx hy hxy
      refine before_of hy fun u v huv => ?_
      rw [List.reverse_reverse] at huv
      refine p3 x y u v huv (down_of_plus (fun a b hab => (h3 a b).2 (.inl hab)) hxy) ?_ ((hmem x).1 hx).2
      have := (h2 x).2 ((hmem x).1 hx).1
      exact ⟨this, hex x this⟩

theorem acyclic (hc : Closed w.toLinks root U sched) (hk : Ok w root U) {b : B} (hb : buildGraph w.toLinks root U sched = .ok b) (hn : NoCircle w sched) : Acyclic (w.graph b) := by
  obtain ⟨rest, h1, h2, h3, h4, h5⟩ := graph_ok hc hk hb
  have h0 : ∀ a, (a, root) ∉ (w.graph b).edges := fun a ha => h5 (h1.dst _ _ ha)
  intro n hd
  by_cases hnr : n = root
  · subst hnr
    cases hd with
    | one h => exact h0 _ h
    | tail _ h => exact h0 _ h
  · refine hn n (plus_of_down (r := Leads w sched) ?_ h0 hd hnr)
    intro a b' hab ha
    exact ((h3 a b').1 hab).resolve_right fun h => ha h.1

theorem build_ok (hc : Closed w.toLinks root U sched) (hn : NoCircle w sched) : ∃ b, buildGraph w.toLinks root U sched = .ok b := by
  refine c28_no_cycle_builds hc ?_
  intro s hs n hsn hp
  refine hn n ?_
  have key : ∀ {x y}, Plus (Linked w.toLinks) x y → Behind w sched x → Plus (Leads w sched) x y ∧ Behind w sched y := by
    intro x y h hx
    induction h with
    | one h =>
      obtain ⟨t, ht, htx⟩ := hx
      have hy : Behind w sched _ := ⟨t, ht, htx.tail h⟩
      exact ⟨.one ⟨⟨t, ht, htx⟩, hy, .inl h⟩, hy⟩
    | tail _ h ih =>
      obtain ⟨t, ht, htx⟩ := ih.2
      have hy : Behind w sched _ := ⟨t, ht, htx.tail h⟩
      exact ⟨.tail ih.1 ⟨⟨t, ht, htx⟩, hy, .inl h⟩, hy⟩
  exact (key hp ⟨s, hs, hsn⟩).1

theorem kind_cmd {b : B} {n : Nat} : (w.info counts b).kind n = .cmd ↔ w.isCmd n = true := by
  simp only [World.info]
  cases w.isCmd n <;> cases w.isFile n <;> cases w.isGroup n <;> simp

theorem kind_file {b : B} {n : Nat} (h : (w.info counts b).kind n = .file) : w.isFile n = true := by
  simp only [World.info] at h
  revert h
  cases w.isCmd n <;> cases w.isFile n <;> cases w.isGroup n <;> simp

theorem kind_group {b : B} {n : Nat} (h : (w.info counts b).kind n ≠ .group) (hg : w.isGroup n = true → w.isCmd n = false ∧ w.isFile n = false) : w.isGroup n = false := by
  simp only [World.info] at h
  cases hgr : w.isGroup n with
  | false => rfl
  | true =>
    obtain ⟨h1, h2⟩ := hg hgr
    simp [h1, h2, hgr] at h

/-- The graph after the rest was cut off. -/
theorem cut_ok (hc : Closed w.toLinks root U w.modify) (hk : Ok w root U) {ts : List Nat} (ht : TargetsOk w root ts) {b : B} (hb : buildGraph w.toLinks root U w.modify = .ok b) :
    ∃ rest, WF (w.cut counts root b (some ts)).1 root rest ∧ (∀ x ∈ rest, Behind w w.modify x) ∧
      (∀ x, w.isCmd x = true → (x ∈ rest ↔ Behind w w.modify x ∧ ∃ t ∈ ts, Star (Leads w w.modify) x t)) ∧
      (∀ x, w.isCmd x = true → counts x = true → (x ∈ (w.cut counts root b (some ts)).2 ↔ Behind w w.modify x ∧ x ∉ rest)) ∧
      (∀ x ∈ (w.cut counts root b (some ts)).2, Behind w w.modify x ∧ counts x = true) ∧ (w.cut counts root b (some ts)).2.Nodup ∧
      (∀ n, (w.cut counts root b (some ts)).1.trans n = .none ∨ (w.cut counts root b (some ts)).1.trans n = w.trans n) ∧
      (∀ e ∈ (w.cut counts root b (some ts)).1.edges, e ∈ (w.graph b).edges) ∧
      ∀ x y, y ∈ rest → w.isCmd y = true → Plus (Leads w w.modify) x y → Downstream (w.cut counts root b (some ts)).1 x y := by
  obtain ⟨rest, h1, h2, h3, h4, h5⟩ := graph_ok hc hk hb
  obtain ⟨he1, he2⟩ := expanded_all hc hb
  have hex : ∀ x ∈ rest, b.expanded x = true := fun x hx => he1 x (by rw [h4]; exact List.mem_cons_of_mem _ hx) (by rintro rfl; exact h5 hx)
  have hgn : (w.graph b).nodeList = root :: rest := h1.nodes
  have hE : ∀ e ∈ (w.graph b).edges, e.1 ∈ (w.graph b).nodeList ∧ e.2 ∈ (w.graph b).nodeList := by
    rintro ⟨x, y⟩ he
    rw [hgn]
    exact ⟨h1.src x y he, List.mem_cons_of_mem _ (h1.dst x y he)⟩
  have h0 : ∀ a, (a, root) ∉ (w.graph b).edges := fun a ha => h5 (h1.dst _ _ ha)
  have hT : ∀ t ∈ ts, t ∈ rest := fun t h => (h2 t).2 (ht.behind t h)
  have hT' : ∀ t ∈ ts, t ∈ (w.graph b).nodeList := fun t h => by rw [hgn]; exact List.mem_cons_of_mem _ (hT t h)
  have hne : ∀ x ∈ rest, x ≠ root := by rintro x hx rfl; exact h5 hx
  have hL : ∀ x y, x ≠ root → (x, y) ∈ (w.graph b).edges → Leads w w.modify x y := fun x y hx h => ((h3 x y).1 h).resolve_right fun h => hx h.1
  have hp : Produced (w.info counts b) root (w.graph b).edges := by
    refine ⟨h0, ?_, ?_⟩
    · intro h
      rw [kind_cmd] at h
      rw [hk.rootCmd] at h; cases h
    · intro c d hcd hcc hdg hde
      rw [kind_cmd] at hcc
      have hcr : c ≠ root := by rintro rfl; rw [hk.rootCmd] at hcc; cases hcc
      have hm := ht.made c d (hL c d hcr hcd) hcc (kind_group hdg (ht.group d)) hde
      refine ⟨?_, ?_⟩
      · intro h
        rw [kind_cmd] at h
        rw [hm.1] at h; cases h
      · intro a ha
        by_cases har : a = root
        · exact .inr har
        · exact .inl (hm.2 a (hL a d har ha))
  obtain ⟨rest', q1, q2⟩ := c36_pruned_ready_for_executor (i := w.info counts b) (all := false) h1 hT (fun a f haf hf => by
    refine Classical.byContradiction fun har => ?_
    have := ht.file a f (hL a f har haf)
    rw [kind_file hf] at this; cases this)
  have hnodes : (prune (w.info counts b) false root (w.graph b).nodeList (w.graph b).edges (w.graph b).trans ts).nodes = root :: rest' := q1.nodes
  have hrr : root ∉ rest' := fun h => h5 (q2 _ h)
  have hstar : ∀ x ∈ rest, ∀ t, Star (EdgeRel (w.graph b).edges) x t ↔ Star (Leads w w.modify) x t := by
    intro x hx t
    constructor
    · rintro (h | h)
      · exact .inl h
      · right
        have key : ∀ {y}, Plus (EdgeRel (w.graph b).edges) x y → Plus (Leads w w.modify) x y ∧ y ∈ rest := by
          intro y hy
          induction hy with
          | one h => exact ⟨.one (hL _ _ (hne _ hx) h), h1.dst _ _ h⟩
          | tail _ h ih => exact ⟨.tail ih.1 (hL _ _ (hne _ ih.2) h), h1.dst _ _ h⟩
        exact (key h).1
    · rintro (h | h)
      · exact .inl h
      · exact .inr (h.mono fun a b hab => (h3 a b).2 (.inl hab))
  refine ⟨rest', q1, fun x hx => (h2 x).1 (q2 x hx), ?_, ?_, ?_, ?_, ?_, ?_, ?_⟩
  · intro x hx
    have hmem : x ∈ rest' ↔ x ∈ (prune (w.info counts b) false root (w.graph b).nodeList (w.graph b).edges (w.graph b).trans ts).nodes := by
      rw [hnodes, List.mem_cons]
      refine ⟨.inr, fun h => h.resolve_left ?_⟩
      rintro rfl
      rw [hk.rootCmd] at hx; cases hx
    constructor
    · intro h
      have hr := q2 x h
      refine ⟨(h2 x).1 hr, ?_⟩
      obtain ⟨t, g1, g2⟩ := (c36_commands_kept (all := false) (trans := (w.graph b).trans) hE hT' hp (by rw [hgn]; exact List.mem_cons_of_mem _ hr) (kind_cmd.2 hx)).1.1 (hmem.1 h)
      exact ⟨t, g1, (hstar x hr t).1 g2⟩
    · rintro ⟨g1, t, g2, g3⟩
      have hr := (h2 x).2 g1
      exact hmem.2 ((c36_commands_kept (all := false) (trans := (w.graph b).trans) hE hT' hp (by rw [hgn]; exact List.mem_cons_of_mem _ hr) (kind_cmd.2 hx)).1.2 ⟨t, g2, (hstar x hr t).2 g3⟩)
  · intro x hx hcx
    have hxr : x ≠ root := by rintro rfl; rw [hk.rootCmd] at hx; cases hx
    constructor
    · intro h
      have hn : x ∈ rest := by
        have : x ∈ (w.graph b).nodeList := by
          have := (List.mem_filter.1 h).1
          exact (List.mem_filter.1 this).1
        rw [hgn] at this
        exact (List.mem_cons.1 this).resolve_left hxr
      refine ⟨(h2 x).1 hn, fun h' => ?_⟩
      exact (c36_commands_kept (all := false) (trans := (w.graph b).trans) hE hT' hp (by rw [hgn]; exact List.mem_cons_of_mem _ hn) (kind_cmd.2 hx)).2.2 h
        (by rw [hnodes]; exact List.mem_cons_of_mem _ h')
    · rintro ⟨g1, g2⟩
      have hr := (h2 x).2 g1
      refine (c36_commands_kept (all := false) (trans := (w.graph b).trans) hE hT' hp (by rw [hgn]; exact List.mem_cons_of_mem _ hr) (kind_cmd.2 hx)).2.1 ?_ ?_
      · simp only [World.info, hex x hr, hcx, Bool.and_self]
      · rw [hnodes, List.mem_cons]
        rintro (h | h)
        · exact hxr h
        · exact g2 h
  · intro x h
    obtain ⟨g1, g2⟩ := List.mem_filter.1 h
    obtain ⟨g3, g4⟩ := List.mem_filter.1 g1
    rw [hgn] at g3
    simp only [World.info, Bool.and_eq_true] at g2
    rw [Bool.and_eq_true] at g4
    exact ⟨(h2 x).1 ((List.mem_cons.1 g3).resolve_left (of_decide_eq_true g4.2)), g2.2⟩
  · refine List.Pairwise.filter _ (List.Pairwise.filter _ ?_)
    rw [hgn]
    exact h1.nodup
  · intro n
    show (if _ then _ else _) = _ ∨ _
    by_cases hq : ((w.graph b).edges.any fun e => e.1 = n && e.2 ∈ (w.graph b).nodeList.filter fun m =>
        m ∉ mark (w.info counts b) (w.graph b).edges (markFuel (w.info counts b) (w.graph b).edges (w.graph b).nodeList ts) ts [] && m ≠ root) = true
    · left; exact if_pos hq
    · right; exact if_neg hq
  · intro e he
    exact (List.mem_filter.1 he).1
  · intro x y hy hcy hxy
    have hyn : y ∈ (prune (w.info counts b) false root (w.graph b).nodeList (w.graph b).edges (w.graph b).trans ts).nodes := by rw [hnodes]; exact List.mem_cons_of_mem _ hy
    obtain ⟨k1, k2, _⟩ := c36_kept_complete (all := false) (trans := (w.graph b).trans) hE hT' hp (kind_cmd.2 hcy) hyn
    have hxy' : Plus (EdgeRel (w.graph b).edges) x y := hxy.mono fun a b hab => (h3 a b).2 (.inl hab)
    have hedge : ∀ a d, (a, d) ∈ (w.graph b).edges → a ∈ (prune (w.info counts b) false root (w.graph b).nodeList (w.graph b).edges (w.graph b).trans ts).nodes →
        d ∈ (prune (w.info counts b) false root (w.graph b).nodeList (w.graph b).edges (w.graph b).trans ts).nodes → (a, d) ∈ (w.cut counts root b (some ts)).1.edges := by
      intro a d had ha hd
      have ha := (List.mem_filter.1 ha).2
      have hd := (List.mem_filter.1 hd).2
      exact List.mem_filter.2 ⟨had, by rw [Bool.and_eq_true]; exact ⟨ha, hd⟩⟩
    have key : ∀ m, Plus (EdgeRel (w.graph b).edges) x m → Star (EdgeRel (w.graph b).edges) m y → Downstream (w.cut counts root b (some ts)).1 x m := by
      intro m hm
      induction hm with
      | @one m h =>
        intro hs
        refine .one (hedge x m h (k1 x (.head h hs)) ?_)
        rcases hs with rfl | hs
        · exact hyn
        · exact k1 m hs
      | @tail p m hp' h ih =>
        intro hs
        refine .tail (ih (.inr (.head h hs))) (hedge p m h (k1 p (.head h hs)) ?_)
        rcases hs with rfl | hs
        · exact hyn
        · exact k1 m hs
    exact key y hxy' (.inl rfl)

/-- The phase of the commands, when something was named. -/
theorem phase_some (hc : Closed w.toLinks root U w.modify) (hk : Ok w root U) {ts : List Nat} (ht : TargetsOk w root ts) {r : Shown} (h : Phase w root U w.modify w.isCmd (some ts) (some r)) :
    r.printed.Nodup ∧ (∀ x, x ∈ r.printed ↔ Behind w w.modify x ∧ w.isCmd x = true ∧ ∃ t ∈ ts, Star (Leads w w.modify) x t) ∧ r.num = r.printed.length ∧
      r.pruned.Nodup ∧ (∀ x, x ∈ r.pruned ↔ Behind w w.modify x ∧ w.isCmd x = true ∧ x ∉ r.printed) ∧
      ∀ a b, a ∈ r.printed → b ∈ r.printed → Plus (Leads w w.modify) a b → Before r.printed a b := by
  cases h with
  | @ran b s hb hs hd =>
    obtain ⟨rest, h1, h2, h3, h4, h5, h6, h7, _, h8⟩ := cut_ok (counts := w.isCmd) hc hk ht hb
    obtain ⟨rest0, g1, g2, g3, g4, g5⟩ := graph_ok hc hk hb
    obtain ⟨he1, he2⟩ := expanded_all hc hb
    have hex : ∀ x, Behind w w.modify x → b.expanded x = true := fun x hx => he1 x (by rw [g4]; exact List.mem_cons_of_mem _ ((g2 x).2 hx)) (by rintro rfl; exact g5 ((g2 _).2 hx))
    obtain ⟨p1, p2, p3⟩ := printed (c := ⟨false, 1, b.expanded⟩) Nat.one_pos h1 (fun n _ hcn => by
      rcases h7 n with h | h
      · exact h
      · rw [h, World.trans, if_neg]
        intro h
        rw [Bool.and_eq_true] at h
        rw [(hk.genCmd n h.1).1] at hcn; cases hcn) hs hd
    have hmem : ∀ x, x ∈ s.db ↔ Behind w w.modify x ∧ w.isCmd x = true ∧ ∃ t ∈ ts, Star (Leads w w.modify) x t := by
      intro x
      rw [p2]
      constructor
      · rintro ⟨q1, q2⟩
        have := (h3 x q2).1 q1.1
        exact ⟨this.1, q2, this.2⟩
      · rintro ⟨q1, q2, q3⟩
        exact ⟨⟨(h3 x q2).2 ⟨q1, q3⟩, hex x q1⟩, q2⟩
    have hpr : ∀ x, x ∈ (w.cut w.isCmd root b (some ts)).2 ↔ Behind w w.modify x ∧ w.isCmd x = true ∧ x ∉ s.db := by
      intro x
      constructor
      · intro h
        obtain ⟨q1, q2⟩ := h5 x h
        exact ⟨q1, q2, fun h' => ((h4 x q2 q2).1 h).2 ((p2 x).1 h').1.1⟩
      · rintro ⟨q1, q2, q3⟩
        exact (h4 x q2 q2).2 ⟨q1, fun h' => q3 ((p2 x).2 ⟨⟨h', hex x q1⟩, q2⟩)⟩
    refine ⟨List.nodup_iff_pairwise_ne.2 (List.pairwise_reverse.2 (p1.imp fun h => Ne.symm h)), fun x => by rw [List.mem_reverse]; exact hmem x, ?_, h6,
      fun x => by rw [List.mem_reverse]; exact hpr x, ?_⟩
    · show (b.nodeList.filter _).length - (w.cut w.isCmd root b (some ts)).2.length = s.db.reverse.length
      rw [List.length_reverse]
      have : (b.nodeList.filter (w.info w.isCmd b).counted).length = (s.db ++ (w.cut w.isCmd root b (some ts)).2).length := by
        refine perm_length ?_ ?_ ?_
        · rw [g4]
          exact List.Pairwise.filter _ g1.nodup
        · refine List.nodup_append.2 ⟨p1, h6, ?_⟩
          rintro x hx y hy rfl
          exact ((hpr x).1 hy).2.2 hx
        · intro x
          rw [List.mem_filter, List.mem_append, hpr, g4]
          simp only [World.info, Bool.and_eq_true]
          constructor
          · rintro ⟨q1, q2, q3⟩
            by_cases hx : x ∈ s.db
            · exact .inl hx
            · right
              rcases List.mem_cons.1 q1 with rfl | q1
              · rw [he2] at q2; cases q2
              · exact ⟨(g2 x).1 q1, q3, hx⟩
          · intro h
            have : Behind w w.modify x ∧ w.isCmd x = true := by
              rcases h with h | h
              · have := (hmem x).1 h
                exact ⟨this.1, this.2.1⟩
              · exact ⟨h.1, h.2.1⟩
            exact ⟨List.mem_cons_of_mem _ ((g2 x).2 this.1), hex x this.1, this.2⟩
      rw [this, List.length_append]
      omega
    · intro x y hx hy hxy
      refine before_of hy fun u v huv => ?_
      rw [List.reverse_reverse] at huv
      rw [List.mem_reverse] at hx hy
      have hx' := (p2 x).1 hx
      have hy' := (p2 y).1 hy
      exact p3 x y u v huv (h8 x y hy'.1.1 hy'.2 hxy) hx'.1 hx'.2

/-- Every phase can end well. -/
theorem phase_ends (hc : Closed w.toLinks root U sched) (hk : Ok w root U) (hn : NoCircle w sched) : ∃ r, Phase w root U sched counts none (some r) := by
  obtain ⟨b, hb⟩ := build_ok hc hn
  obtain ⟨rest, h1, _⟩ := graph_ok hc hk hb
  obtain ⟨s, hs, hd⟩ := completes (counts := counts) (c := ⟨false, 1, b.expanded⟩) Nat.one_pos h1 (acyclic hc hk hb hn)
  exact ⟨_, .ran hb hs hd⟩

theorem phase_ends_some (hc : Closed w.toLinks root U w.modify) (hk : Ok w root U) (hn : NoCircle w w.modify) {ts : List Nat} (ht : TargetsOk w root ts) :
    ∃ r, Phase w root U w.modify w.isCmd (some ts) (some r) := by
  obtain ⟨b, hb⟩ := build_ok hc hn
  obtain ⟨rest, h1, _, _, _, _, _, _, h8, _⟩ := cut_ok (counts := w.isCmd) hc hk ht hb
  have hac : Acyclic (w.cut w.isCmd root b (some ts)).1 := by
    intro n hd
    refine acyclic hc hk hb hn n ?_
    have key : ∀ {x y}, Downstream (w.cut w.isCmd root b (some ts)).1 x y → Downstream (w.graph b) x y := by
      intro x y h
      induction h with
      | one h => exact .one (h8 _ h)
      | tail _ h ih => exact .tail ih (h8 _ h)
    exact key hd
  obtain ⟨s, hs, hd⟩ := completes (counts := w.isCmd) (c := ⟨false, 1, b.expanded⟩) Nat.one_pos h1 hac
  exact ⟨_, .ran hb hs hd⟩

end Tup.Todo
