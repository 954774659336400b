import Verif.Graph.Lemmas2
import Verif.Exec.Props

/-! Properties C28, C29, C36, C38, C39 (see /verif/properties.jsonl). -/

namespace Tup.Graph

open Tup.Exec (Trans WF Downstream Acyclic Running)

variable {l : Links} {root : Nat} {U sched : List Nat}

/-! ## C28 -/

/-- Building the graph always ends, with a graph or with the circular dependency error: the internal
error "STATE_FINISHED node in plist" cannot occur and the step budget is sufficient. -/
theorem c28_loop_ends (h : Closed l root U sched) :
    buildGraph l root U sched ≠ .internal ∧ buildGraph l root U sched ≠ .more := by
  rcases build_spec h with ⟨b, e, _⟩ | ⟨e, _⟩ <;> simp [e]

/-- A graph that was built contains, besides its root, exactly the nodes reachable from the scheduled ones
through recorded links, each once.  Its edges are exactly the recorded links of those nodes (with
multiplicity), and one edge from the root to every scheduled node. -/
theorem c28_graph_is_reachable_part (h : Closed l root U sched) {b : B}
    (hb : buildGraph l root U sched = .ok b) :
    ∃ rest, b.nodeList = root :: rest ∧ (root :: rest).Nodup ∧
      (∀ x, x ∈ rest ↔ ∃ s ∈ sched, Star (Linked l) s x) ∧
      b.edges.Perm (rest.flatMap (fun n => (l.links n ++ l.groupLinks n).map (n, ·)) ++
        sched.map (root, ·)) := by
  rcases build_spec h with ⟨b', e, hi, hp⟩ | ⟨e, _⟩
  · rw [e] at hb; injection hb with hb; subst hb
    obtain ⟨tl, htl⟩ := hi.base.hd
    have hnd := hi.base.nodup
    rw [hp, List.append_nil, htl] at hnd
    refine ⟨tl, htl, hnd, ?_, ?_⟩
    · intro x
      have := final_nodes (opsOk_update h) hi hp h.sched x
      rw [htl, List.tail_cons] at this
      rw [this]
      constructor
      · rintro ⟨r, h1, h2⟩; exact ⟨r, h1, h2.mono (fun a b => (succ_updateOps l a b).1)⟩
      · rintro ⟨r, h1, h2⟩; exact ⟨r, h1, h2.mono (fun a b => (succ_updateOps l a b).2)⟩
    · have he := hi.edges
      rw [hp, htl] at he
      simp only [List.tail_cons, List.filter_nil, List.append_nil] at he
      refine he.trans (List.Perm.of_eq ?_)
      congr 2
      funext n
      simp only [updateOps, List.map_append, List.map_map]
      rfl
  · rw [e] at hb; cases hb

/-- Without cycles among the nodes to be built, the graph is built. -/
theorem c28_no_cycle_builds (h : Closed l root U sched)
    (hac : ∀ s ∈ sched, ∀ n, Star (Linked l) s n → ¬ Plus (Linked l) n n) :
    ∃ b, buildGraph l root U sched = .ok b := by
  rcases build_spec h with ⟨b, e, _⟩ | ⟨_, n, ⟨r, hr, h1⟩, h2⟩
  · exact ⟨b, e⟩
  · exact absurd h2 (hac r hr n h1)

/-- What the executor needs to know about its graph holds for every graph that is built, with the edges
for sticky inputs added.  `trans` marks only generated files (src/tup/graph.c:80-84), which point at
commands and groups. -/
theorem c28_graph_ready_for_executor (h : Closed l root U sched) {b : B}
    (hb : buildGraph l root U sched = .ok b) (isCmd : Nat → Bool) (sticky : Nat → List Nat)
    (hst : ∀ n, root ∉ sticky n) (hroot : isCmd root = false) (trans : Nat → Trans) (ht : ∀ n, trans n ≠ .delete)
    (htr : trans root = .none) (htc : ∀ n, isCmd n = true → trans n = .none)
    (hte : ∀ a b, Linked l a b → trans a = .processing → trans b = .none) :
    ∃ rest, WF (toExec b (addStickies isCmd sticky b.nodeList) trans) root rest ∧
      (∀ x, x ∈ rest ↔ ∃ s ∈ sched, Star (Linked l) s x) ∧
      (∀ a b', (a, b') ∈ (toExec b (addStickies isCmd sticky b.nodeList) trans).edges ↔
        (a ∈ rest ∧ Linked l a b') ∨ (a = root ∧ b' ∈ sched) ∨
        (a ∈ rest ∧ b' ∈ rest ∧ isCmd b' = true ∧ a ∈ sticky b')) := by
  obtain ⟨rest, h1, h2, h3, h4⟩ := c28_graph_is_reachable_part h hb
  obtain ⟨hr, hnd⟩ := List.nodup_cons.1 h2
  have hE : ∀ a b', (a, b') ∈ b.edges ↔ (a ∈ rest ∧ Linked l a b') ∨ (a = root ∧ b' ∈ sched) := by
    intro a b'
    rw [h4.mem_iff]
    simp only [List.mem_append, List.mem_flatMap, List.mem_map, Prod.mk.injEq, Linked]
    constructor
    · rintro (⟨n, hn, x, hx, rfl, rfl⟩ | ⟨s, hs, rfl, rfl⟩)
      · exact Or.inl ⟨hn, hx⟩
      · exact Or.inr ⟨rfl, hs⟩
    · rintro (⟨h5, h6⟩ | ⟨rfl, h6⟩)
      · exact Or.inl ⟨a, h5, b', h6, rfl, rfl⟩
      · exact Or.inr ⟨b', h6, rfl, rfl⟩
  have hS : ∀ a b', (a, b') ∈ addStickies isCmd sticky b.nodeList ↔
      a ∈ rest ∧ b' ∈ rest ∧ isCmd b' = true ∧ a ∈ sticky b' := by
    intro a b'
    simp only [addStickies, List.mem_flatMap, List.mem_map, List.mem_filter, decide_eq_true_eq,
      Prod.mk.injEq, h1, List.mem_cons]
    constructor
    · rintro ⟨n, ⟨hn1, hn2⟩, x, ⟨hx1, hx2⟩, rfl, rfl⟩
      refine ⟨?_, ?_, hn2, hx1⟩
      · rcases hx2 with rfl | hx2
        · exact absurd hx1 (hst _)
        · exact hx2
      · rcases hn1 with rfl | hn1
        · rw [hroot] at hn2; cases hn2
        · exact hn1
    · rintro ⟨q1, q2, q3, q4⟩
      exact ⟨b', ⟨Or.inr q2, q3⟩, a, ⟨q4, Or.inr q1⟩, rfl, rfl⟩
  have hAll : ∀ a b', (a, b') ∈ (toExec b (addStickies isCmd sticky b.nodeList) trans).edges ↔
        (a ∈ rest ∧ Linked l a b') ∨ (a = root ∧ b' ∈ sched) ∨
        (a ∈ rest ∧ b' ∈ rest ∧ isCmd b' = true ∧ a ∈ sticky b') := by
    intro a b'
    simp only [toExec, List.mem_append, hE, hS]
    constructor
    · rintro (q | q | q)
      · exact Or.inr (Or.inr q)
      · exact Or.inl q
      · exact Or.inr (Or.inl q)
    · rintro (q | q | q)
      · exact Or.inr (Or.inl q)
      · exact Or.inr (Or.inr q)
      · exact Or.inl q
  have hp : b.plist = [] ∧ ∀ n ∈ rest, b.st n = .fin := by
    rcases build_spec h with ⟨b', e, hi, hp⟩ | ⟨e, _⟩
    · rw [e] at hb; injection hb with hb; subst hb
      refine ⟨hp, ?_⟩
      intro n hn
      exact hi.base.finL n (by rw [h1]; simp [hn]) (fun hc => hr (hc ▸ hn))
    · rw [e] at hb; cases hb
  refine ⟨rest, ?_, h3, hAll⟩
  constructor
  · exact h1
  · exact h2
  · exact hp.1
  · intro n hn; simp [toExec, hp.2 n hn]
  · intro a b' he
    rcases (hAll a b').1 he with q | q | q
    · simp [q.1]
    · simp [q.1]
    · simp [q.1]
  · intro a b' he
    rcases (hAll a b').1 he with ⟨q1, q2⟩ | q | q
    · obtain ⟨s, hs, hst⟩ := (h3 a).1 q1
      exact (h3 b').2 ⟨s, hs, hst.tail q2⟩
    · exact (h3 b').2 ⟨b', q.2, Or.inl rfl⟩
    · exact q.2.1
  · intro b' hb'
    obtain ⟨s, hs, hst⟩ := (h3 b').1 hb'
    rcases hst with rfl | hst
    · exact ⟨root, (hAll root s).2 (Or.inr (Or.inl ⟨rfl, hs⟩))⟩
    · cases hst with
      | one q => exact ⟨s, (hAll _ _).2 (Or.inl ⟨(h3 s).2 ⟨s, hs, Or.inl rfl⟩, q⟩)⟩
      | tail q1 q2 => exact ⟨_, (hAll _ _).2 (Or.inl ⟨(h3 _).2 ⟨s, hs, Or.inr q1⟩, q2⟩)⟩
  · exact htr
  · exact ht
  · intro a b' he hpr
    simp only [toExec] at hpr ⊢
    rcases (hAll a b').1 he with ⟨q1, q2⟩ | q | q
    · exact hte _ _ q2 hpr
    · rw [q.1, htr] at hpr; cases hpr
    · exact htc _ q.2.2.1

/-! A database with seven nodes: 1 → 2 → 3 → 4, 1 → 5 → 4, 7 → 1, group link 4 → 6; 1 and 3 scheduled.
7 is not part of the graph. -/

def exL : Links where
  links n := match n with | 1 => [2, 5] | 2 => [3] | 3 => [4] | 5 => [4] | 7 => [1] | _ => []
  groupLinks n := match n with | 4 => [6] | _ => []

theorem exL_closed : Closed exL 0 [1, 2, 3, 4, 5, 6, 7] [1, 3] where
  sched := by decide
  links := by
    intro n hn m hm
    simp only [Linked, exL] at hm
    revert hm
    simp only [List.mem_cons, List.not_mem_nil, or_false] at hn
    rcases hn with rfl | rfl | rfl | rfl | rfl | rfl | rfl <;> simp <;> omega
  root := by decide
  nodup := by decide

example : (match buildGraph exL 0 [1, 2, 3, 4, 5, 6, 7] [1, 3] with
    | .ok b => (b.nodeList, b.edges.length) | _ => ([], 0)) = ([0, 6, 4, 3, 5, 2, 1], 8) := by decide

/-! ## C29 -/

/-- The circular dependency error is only given if there is a cycle among the nodes to be built. -/
theorem c29_error_means_cycle (h : Closed l root U sched)
    (hb : buildGraph l root U sched = .circular) :
    ∃ s ∈ sched, ∃ n, Star (Linked l) s n ∧ Plus (Linked l) n n := by
  rcases build_spec h with ⟨b, e, _⟩ | ⟨_, n, ⟨r, hr, h1⟩, h2⟩
  · rw [e] at hb; cases hb
  · exact ⟨r, hr, n, h1, h2⟩

/-- If there is a cycle among the nodes to be built, then either building the graph fails with the circular
dependency error, or the executor starts nothing that is on the cycle or depends on it, and never reports
success (by `c32_terminates` it does stop). -/
theorem c29_cycle_is_an_error {D : Type} (h : Closed l root U sched) {s x : Nat} (hs : s ∈ sched)
    (hsx : Star (Linked l) s x) (hx : Plus (Linked l) x x) (isCmd : Nat → Bool) (sticky : Nat → List Nat)
    (hst : ∀ n, root ∉ sticky n) (hroot : isCmd root = false) (trans : Nat → Trans) (ht : ∀ n, trans n ≠ .delete)
    (htr : trans root = .none) (htc : ∀ n, isCmd n = true → trans n = .none)
    (hte : ∀ a b, Linked l a b → trans a = .processing → trans b = .none)
    {c : Tup.Exec.Cfg} (hj : 0 < c.jobs) {w : Tup.Exec.Work D} {db0 : D} :
    buildGraph l root U sched = .circular ∨
    ∃ b, buildGraph l root U sched = .ok b ∧
      ∀ e, Running c w (toExec b (addStickies isCmd sticky b.nodeList) trans) db0 e →
        x ∉ e.started ∧ (∀ n, Plus (Linked l) x n → n ∉ e.started) ∧ e.pc ≠ .done true := by
  rcases build_spec h with ⟨b, e, _⟩ | ⟨e, _⟩
  · right
    refine ⟨b, e, ?_⟩
    obtain ⟨rest, hwf, hmem, hedge⟩ := c28_graph_ready_for_executor h e isCmd sticky hst hroot trans ht htr
      htc hte
    have hstar : ∀ n, Plus (Linked l) x n → n ∈ rest := by
      intro n hn
      refine (hmem n).2 ⟨s, hs, ?_⟩
      rcases hsx with rfl | hsx
      · exact Or.inr hn
      · exact Or.inr (hsx.trans hn)
    have hxr : x ∈ rest := (hmem x).2 ⟨s, hs, hsx⟩
    have hdown : ∀ n, Plus (Linked l) x n →
        Downstream (toExec b (addStickies isCmd sticky b.nodeList) trans) x n := by
      intro n hn
      induction hn with
      | one q => exact .one ((hedge _ _).2 (Or.inl ⟨hxr, q⟩))
      | tail q1 q2 ih => exact .tail ih ((hedge _ _).2 (Or.inl ⟨hstar _ q1, q2⟩))
    intro ex hex
    obtain ⟨r1, r2, r3⟩ := Tup.Exec.c29_cycle_reported hj hwf (hdown x hx) hex
    exact ⟨r1, fun n hn => r2 n (hdown n hn), r3⟩
  · exact Or.inl e

/-- The check in `make_edge` alone is not enough: with two scheduled nodes the cycle 1 → 2 → 3 → 1 gets into
the graph unnoticed, because 2 was put below 1 on the stack, and is expanded, before 1 was looked at. -/
def cycL : Links where
  links n := match n with | 1 => [2] | 2 => [3] | 3 => [1] | _ => []
  groupLinks _ := []

theorem c29_build_misses_cycle :
    Closed cycL 0 [1, 2, 3] [2, 1] ∧ Plus (Linked cycL) 1 1 ∧
      ∃ b, buildGraph cycL 0 [1, 2, 3] [2, 1] = .ok b := by
  refine ⟨⟨by decide, ?_, by decide, by decide⟩, ?_, ?_⟩
  · intro n hn m hm
    simp only [Linked, cycL] at hm
    revert hm
    simp only [List.mem_cons, List.not_mem_nil, or_false] at hn
    rcases hn with rfl | rfl | rfl <;> simp <;> omega
  · exact .tail (.tail (.one (b := 2) (Or.inl (by simp [cycL]))) (c := 3) (Or.inl (by simp [cycL])))
      (Or.inl (by simp [cycL]))
  · refine ⟨(match buildGraph cycL 0 [1, 2, 3] [2, 1] with | .ok b => b | _ => empty 0), ?_⟩
    rfl

/-- With one scheduled node the same cycle is found while building. -/
example : buildGraph cycL 0 [1, 2, 3] [1] = .circular := rfl

/-! ## C39 -/

/-- The reachability test answers yes exactly when some valid node other than the starting point can be
reached; it fails only if there is a cycle. -/
theorem c39_connected {links : Nat → List Nat} {src : Nat} {valid : Nat → Bool}
    (h : Closed ⟨links, fun _ => []⟩ root U [src]) :
    let conn := ∃ v, v ≠ src ∧ valid v = true ∧ Plus (fun a b => b ∈ links a) src v
    (nodesAreConnected links root U src valid = some true ∧ conn) ∨
    (nodesAreConnected links root U src valid = some false ∧ ¬ conn) ∨
    (nodesAreConnected links root U src valid = none ∧
      ∃ n, Star (fun a b => b ∈ links a) src n ∧ Plus (fun a b => b ∈ links a) n n) := by
  have hL : ∀ a b, Succ (updateOps ⟨links, fun _ => []⟩) a b ↔ b ∈ links a := by
    intro a b; rw [succ_updateOps]; simp [Linked]
  have hops := opsOk_update h
  obtain ⟨b, e1, e2, e3, e4⟩ := start_spec hops h.sched
  simp only [List.map_cons, List.map_nil] at e1
  simp only [nodesAreConnected, e1]
  rcases connLoop_spec hops src valid (2 * U.length) b e2 (by rw [e4]; simp) e3 with
    ⟨f1, r, hr, x, f2, f3, f4⟩ | ⟨f1, b', f2, f3, f4⟩ | ⟨f1, n, ⟨r, hr, f2⟩, f3⟩
  · left
    simp only [List.mem_singleton] at hr
    subst hr
    refine ⟨f1, x, f3, f4, ?_⟩
    rcases f2 with f2 | f2
    · exact absurd f2.symm f3
    · exact f2.mono (fun a b => (hL a b).1)
  · right; left
    refine ⟨f1, ?_⟩
    rintro ⟨v, v1, v2, v3⟩
    have := (final_nodes hops f2 f3 h.sched v).2
      ⟨src, by simp, Or.inr (v3.mono (fun a b => (hL a b).2))⟩
    exact f4 v this ⟨v1, v2⟩
  · right; right
    simp only [List.mem_singleton] at hr
    subst hr
    exact ⟨f1, n, f2.mono (fun a b => (hL a b).1), f3.mono (fun a b => (hL a b).1)⟩

theorem exConn_closed : Closed ⟨exL.links, fun _ => []⟩ 0 [1, 2, 3, 4, 5, 6, 7] [2] where
  sched := by decide
  links := by
    intro n hn m hm
    exact exL_closed.links n hn m (by rcases hm with h | h; exact Or.inl h; simp at h)
  root := by decide
  nodup := by decide

example : nodesAreConnected exL.links 0 [1, 2, 3, 4, 5, 6, 7] 2 (· == 4) = some true := by decide
example : nodesAreConnected exL.links 0 [1, 2, 3, 4, 5, 6, 7] 2 (· == 5) = some false := by decide

/-! ## C38 -/

/-- The trimming step of the group check: it leaves nothing exactly when the graph has no cycle. -/
theorem c38_trim_finds_cycles {nodes : List Nat} {edges : List (Nat × Nat)} (hn : nodes.Nodup)
    (he : ∀ e ∈ edges, e.1 ∈ nodes ∧ e.2 ∈ nodes) :
    groupCircular nodes edges = true ↔ ∃ x, Plus (EdgeRel edges) x x := by
  have := trim_empty_iff hn he
  simp only [groupCircular, ne_eq, decide_not, Bool.not_eq_true', decide_eq_false_iff_not, this,
    Classical.not_forall, Classical.not_not]

/-- The whole group check: the graph is always built, and the error is given exactly when a group
reachable from the ones to be checked (along "filled by a command that uses") leads back to itself. -/
theorem c38_group_cycles {rows : Nat → List (Nat × Nat)} {groups : List Nat}
    (h : GroupRows rows root U groups) :
    ∃ b, buildGroupGraph rows root U groups = .ok b ∧
      (groupCircular b.nodeList b.edges = true ↔
        ∃ g ∈ groups, ∃ x, Star (GroupDep rows) g x ∧ Plus (GroupDep rows) x x) := by
  have hops : OpsOk (groupOps rows) root U := by
    refine ⟨?_, ?_, h.root, h.nodup⟩
    · intro x hx o ho
      rcases (succ_groupOps rows x o.dst).1 ⟨o, ho, rfl⟩ with ⟨c, q⟩ | ⟨t, q⟩
      · exact (h.dst x hx _ _ q).1
      · exact (h.dst x hx _ _ q).2
    · intro x _ o ho hc
      simp only [groupOps, List.mem_flatMap, List.mem_cons, List.not_mem_nil, or_false] at ho
      obtain ⟨_, _, rfl | rfl⟩ := ho <;> simp at hc
  -- initial invariant
  have h0 : BInv (groupOps rows) root U [] [] (empty root) := by
    constructor
    · exact base_empty root
    · intro l1 n l2 _ hp; simp [empty] at hp
    · intro x hx hr; simp [empty] at hx; exact absurd hx hr
    · intro x hx hr; simp [empty] at hx; exact absurd hx hr
    · simp
    · intro x _ hs; simp [empty] at hs
    · simp [empty]
  obtain ⟨hi, hini⟩ := groups_spec (E0 := []) hops groups [] (empty root) h0 (fun _ => rfl) h.checked
  simp only [List.nil_append] at hi
  have hms : bMeasure U (groups.foldl (fun b n => addGroup n b) (empty root)) ≤ 2 * U.length := by
    simp only [bMeasure]
    rw [sum_stM_init U _ (fun x _ => hini x)]
    exact Nat.le_refl _
  -- a cycle along Succ is not needed: no checked edges, so `circular` is impossible
  have hnc : ∀ (fuel : Nat) (b : B), loop (groupOps rows) fuel b ≠ .circular := by
    have hadd : ∀ (os : List Op) (b : B), (∀ o ∈ os, o.check = false) → addLinks os b ≠ none := by
      intro os
      induction os with
      | nil => intro b _; simp [addLinks]
      | cons o os ih =>
        intro b ho
        have hc := ho o (by simp)
        simp only [addLinks, makeEdge, hc, Bool.false_eq_true, false_and, if_false]
        exact ih _ (fun o' h' => ho o' (by simp [h']))
    intro fuel
    induction fuel with
    | zero => intro b; simp only [loop]; split <;> simp
    | succ fuel ih =>
      intro b
      simp only [loop]
      split
      · simp
      · split
        · split
          · rename_i hnone
            refine absurd hnone (hadd _ _ ?_)
            intro o ho
            simp only [groupOps, List.mem_flatMap, List.mem_cons, List.not_mem_nil, or_false] at ho
            obtain ⟨_, _, rfl | rfl⟩ := ho <;> rfl
          · exact ih _
        · exact ih _
        · simp
  rcases loop_spec hops (2 * U.length) _ hi hms with ⟨b, f1, f2, f3⟩ | ⟨f1, _⟩
  · refine ⟨b, f1, ?_⟩
    obtain ⟨tl, htl⟩ := f2.base.hd
    have hnd := f2.base.nodup
    rw [f3, List.append_nil] at hnd
    have hnodes := final_nodes hops f2 f3 h.checked
    rw [htl, List.tail_cons] at hnodes
    have hedges : ∀ a c, (a, c) ∈ b.edges ↔ ∃ x ∈ tl, ∃ to cmd, (to, cmd) ∈ rows x ∧
        ((a = cmd ∧ c = to) ∨ (a = x ∧ c = cmd)) := by
      intro a c
      have := f2.edges
      rw [f3, htl] at this
      simp only [List.tail_cons, List.filter_nil, List.append_nil] at this
      rw [this.mem_iff]
      simp only [List.mem_flatMap, List.mem_map, groupOps, Op.edge]
      constructor
      · rintro ⟨x, hx, o, ⟨⟨to, cmd⟩, hr, ho⟩, he⟩
        refine ⟨x, hx, to, cmd, hr, ?_⟩
        simp only [List.mem_cons, List.not_mem_nil, or_false] at ho
        rcases ho with rfl | rfl
        · left; simpa [eq_comm] using he
        · right; simpa [eq_comm] using he
      · rintro ⟨x, hx, to, cmd, hr, ⟨rfl, rfl⟩ | ⟨rfl, rfl⟩⟩
        · exact ⟨x, hx, _, ⟨_, hr, List.mem_cons_self⟩, rfl⟩
        · exact ⟨a, hx, _, ⟨_, hr, List.mem_cons_of_mem _ List.mem_cons_self⟩, rfl⟩
    have htlc : ∀ a c, a ∈ tl → Succ (groupOps rows) a c → c ∈ tl := by
      intro a c ha hs
      obtain ⟨r, hr, h1⟩ := (hnodes a).1 ha
      exact (hnodes c).2 ⟨r, hr, h1.tail hs⟩
    have hin : ∀ e ∈ b.edges, e.1 ∈ b.nodeList ∧ e.2 ∈ b.nodeList := by
      rintro ⟨a, c⟩ he
      obtain ⟨x, hx, to, cmd, hr, q⟩ := (hedges a c).1 he
      have h1 : to ∈ tl := htlc x to hx ((succ_groupOps rows x to).2 (Or.inl ⟨_, hr⟩))
      have h2 : cmd ∈ tl := htlc x cmd hx ((succ_groupOps rows x cmd).2 (Or.inr ⟨_, hr⟩))
      rw [htl]
      rcases q with ⟨rfl, rfl⟩ | ⟨rfl, rfl⟩ <;> simp_all
    rw [c38_trim_finds_cycles hnd hin]
    -- nodes with rows, or groups, are reached through groups only
    have hreachG : ∀ x, (∃ r ∈ groups, Star (Succ (groupOps rows)) r x) →
        (∃ r ∈ groups, Star (GroupDep rows) r x) ∨ (∃ y t, (∃ r ∈ groups, Star (GroupDep rows) r y) ∧ (t, x) ∈ rows y) := by
      rintro x ⟨r, hr, hs⟩
      rcases hs with rfl | hs
      · exact Or.inl ⟨r, hr, Or.inl rfl⟩
      · have step : ∀ a c, ((∃ r ∈ groups, Star (GroupDep rows) r a) ∨
            (∃ y t, (∃ r ∈ groups, Star (GroupDep rows) r y) ∧ (t, a) ∈ rows y)) →
            Succ (groupOps rows) a c →
            ((∃ r ∈ groups, Star (GroupDep rows) r c) ∨
            (∃ y t, (∃ r ∈ groups, Star (GroupDep rows) r y) ∧ (t, c) ∈ rows y)) := by
          intro a c hc hsucc
          rcases hc with ⟨r', hr', q⟩ | ⟨y, t, _, q⟩
          · rcases (succ_groupOps rows a c).1 hsucc with ⟨k, hk⟩ | ⟨k, hk⟩
            · exact Or.inl ⟨r', hr', q.tail ⟨k, hk⟩⟩
            · exact Or.inr ⟨a, k, ⟨r', hr', q⟩, hk⟩
          · have := h.cmdNoRows _ _ _ q
            rcases (succ_groupOps rows a c).1 hsucc with ⟨k, hk⟩ | ⟨k, hk⟩ <;> simp [this] at hk
        induction hs with
        | one q => exact step _ _ (Or.inl ⟨r, hr, Or.inl rfl⟩) q
        | tail _ q ih => exact step _ _ ih q
    have hgrp : ∀ x, x ∈ tl → rows x ≠ [] → ∃ r ∈ groups, Star (GroupDep rows) r x := by
      intro x hx hne
      rcases hreachG x ((hnodes x).1 hx) with q | ⟨y, t, _, q⟩
      · exact q
      · exact absurd (h.cmdNoRows _ _ _ q) hne
    have hE1 : ∀ a c, (a, c) ∈ b.edges → rows a ≠ [] → a ∈ tl ∧ ∃ t, (t, c) ∈ rows a := by
      intro a c he hne
      obtain ⟨x, hx, to, cmd, hr, ⟨rfl, rfl⟩ | ⟨rfl, rfl⟩⟩ := (hedges a c).1 he
      · exact absurd (h.cmdNoRows _ _ _ hr) hne
      · exact ⟨hx, to, hr⟩
    constructor
    · rintro ⟨x, hx⟩
      -- every node on a cycle is a command or a group; take the group
      -- along a path from a group: ends at a group reached by GroupDep, or at a command
      have path : ∀ a c, Plus (EdgeRel b.edges) a c → rows a ≠ [] →
          Plus (GroupDep rows) a c ∨ (∃ y t, Star (GroupDep rows) a y ∧ (t, c) ∈ rows y) := by
        intro a c hp hne
        induction hp with
        | one q => obtain ⟨_, t, q⟩ := hE1 _ _ q hne; exact Or.inr ⟨a, t, Or.inl rfl, q⟩
        | @tail p k _ q2 ih =>
          obtain ⟨x, hx, to, cmd, hr, ⟨rfl, rfl⟩ | ⟨rfl, rfl⟩⟩ := (hedges _ _).1 q2
          · -- p is a command, k a group
            rcases ih with ih | ⟨y, t, hy, hyt⟩
            · -- a command reached as a group: impossible
              exfalso
              cases ih with
              | one q => obtain ⟨c', q⟩ := q; exact (h.cmdNotGroup _ _ _ hr).2 _ _ q
              | tail _ q => obtain ⟨c', q⟩ := q; exact (h.cmdNotGroup _ _ _ hr).2 _ _ q
            · left
              have hrow := h.product y k t x p hyt hr
              rcases hy with rfl | hy
              · exact .one ⟨p, hrow⟩
              · exact .tail hy ⟨p, hrow⟩
          · -- p is a group
            right
            rcases ih with ih | ⟨y, t, hy, hyt⟩
            · exact ⟨p, to, Or.inr ih, hr⟩
            · have := h.cmdNoRows _ _ _ hyt
              simp [this] at hr
      have hcyc : ∃ x, Plus (EdgeRel b.edges) x x ∧ rows x ≠ [] := by
        by_cases hxr : rows x = []
        · -- x is a command; its predecessor on the cycle is a group
          obtain ⟨⟨a, ha, hae⟩, _⟩ := knot_cycle b.edges x hx
          refine ⟨a, ha, ?_⟩
          obtain ⟨y, hy, to, cmd, hr, ⟨rfl, rfl⟩ | ⟨rfl, rfl⟩⟩ := (hedges a x).1 hae
          · -- x = to would be a group: then it has an outgoing edge, so rows
            obtain ⟨_, ⟨d, _, hd⟩⟩ := knot_cycle b.edges x hx
            obtain ⟨y', hy', to', cmd', hr', ⟨rfl, rfl⟩ | ⟨rfl, rfl⟩⟩ := (hedges x d).1 hd
            · exact absurd hr ((h.cmdNotGroup _ _ _ hr').2 _ _)
            · rw [hxr] at hr'; simp at hr'
          · intro hc; rw [hc] at hr; simp at hr
        · exact ⟨x, hx, hxr⟩
      obtain ⟨g, hg, hgr⟩ := hcyc
      have hgt : g ∈ tl := by
        obtain ⟨_, ⟨d, _, hd⟩⟩ := knot_cycle b.edges g hg
        exact (hE1 _ _ hd hgr).1
      obtain ⟨r, hr, hrs⟩ := hgrp g hgt hgr
      refine ⟨r, hr, g, hrs, ?_⟩
      rcases path g g hg hgr with q | ⟨y, t, _, q⟩
      · exact q
      · exact absurd (h.cmdNoRows _ _ _ q) hgr
    · rintro ⟨g, hg, x, hgx, hx⟩
      refine ⟨x, ?_⟩
      have hsucc : ∀ a c, GroupDep rows a c → Succ (groupOps rows) a c :=
        fun a c ⟨k, hk⟩ => (succ_groupOps rows a c).2 (Or.inl ⟨k, hk⟩)
      have hxt : x ∈ tl := (hnodes x).2 ⟨g, hg, hgx.mono hsucc⟩
      have lift : ∀ a c, Plus (GroupDep rows) a c → a ∈ tl → Plus (EdgeRel b.edges) a c ∧ c ∈ tl := by
        intro a c hp ha
        have one : ∀ p k, p ∈ tl → GroupDep rows p k → Plus (EdgeRel b.edges) p k ∧ k ∈ tl := by
          rintro p k hpt ⟨cmd, hr⟩
          refine ⟨.tail (.one (b := cmd) ?_) ?_, htlc p k hpt (hsucc p k ⟨cmd, hr⟩)⟩
          · exact (hedges _ _).2 ⟨p, hpt, k, cmd, hr, Or.inr ⟨rfl, rfl⟩⟩
          · exact (hedges _ _).2 ⟨p, hpt, k, cmd, hr, Or.inl ⟨rfl, rfl⟩⟩
        induction hp with
        | one q => exact one _ _ ha q
        | tail _ q ih =>
          obtain ⟨i1, i2⟩ := ih
          obtain ⟨j1, j2⟩ := one _ _ i2 q
          exact ⟨i1.trans j1, j2⟩
      exact (lift x x hx hxt).1
  · exact absurd f1 (hnc _ _)

/-! Groups 1, 2, 3; command 11 uses 1 and fills 2 and 3, command 12 uses 2 and fills 1 (a cycle). -/

def exRows : Nat → List (Nat × Nat)
  | 1 => [(2, 11), (3, 11)]
  | 2 => [(1, 12)]
  | _ => []

theorem exRows_mem {n to cmd : Nat} (h : (to, cmd) ∈ exRows n) :
    (n = 1 ∧ to = 2 ∧ cmd = 11) ∨ (n = 1 ∧ to = 3 ∧ cmd = 11) ∨ (n = 2 ∧ to = 1 ∧ cmd = 12) := by
  unfold exRows at h
  split at h <;> simp at h <;> omega

theorem exRows_ok : GroupRows exRows 0 [1, 2, 3, 11, 12] [3, 1] where
  checked := by decide
  dst := by
    intro n _ to cmd h
    rcases exRows_mem h with ⟨rfl, rfl, rfl⟩ | ⟨rfl, rfl, rfl⟩ | ⟨rfl, rfl, rfl⟩ <;> decide
  cmdNoRows := by
    intro n to cmd h
    rcases exRows_mem h with ⟨rfl, rfl, rfl⟩ | ⟨rfl, rfl, rfl⟩ | ⟨rfl, rfl, rfl⟩ <;> rfl
  cmdNotGroup := by
    intro n to cmd h
    rcases exRows_mem h with ⟨rfl, rfl, rfl⟩ | ⟨rfl, rfl, rfl⟩ | ⟨rfl, rfl, rfl⟩ <;>
      refine ⟨by decide, fun m c hc => ?_⟩ <;> have := exRows_mem hc <;> omega
  product := by
    intro a b to fr cmd h1 h2
    rcases exRows_mem h1 with ⟨rfl, rfl, rfl⟩ | ⟨rfl, rfl, rfl⟩ | ⟨rfl, rfl, rfl⟩ <;>
      rcases exRows_mem h2 with ⟨rfl, rfl, h⟩ | ⟨rfl, rfl, h⟩ | ⟨rfl, rfl, h⟩ <;> simp_all [exRows]
  root := by decide
  nodup := by decide

example : (match buildGroupGraph exRows 0 [1, 2, 3, 11, 12] [3, 1] with
    | .ok b => groupCircular b.nodeList b.edges | _ => false) = true := by decide

/-! ## C36 -/

section prune
variable {i : Info} {all : Bool} {nodes targets : List Nat} {edges : List (Nat × Nat)}
  {trans : Nat → Trans}

/-- A command stays in the graph for a partial update exactly when one of the targets depends on it (or it
is one itself); every other command that was to be run is scheduled for the next update. -/
theorem c36_commands_kept (hE : ∀ e ∈ edges, e.1 ∈ nodes ∧ e.2 ∈ nodes)
    (hT : ∀ t ∈ targets, t ∈ nodes) (hp : Produced i root edges) {x : Nat} (hx : x ∈ nodes)
    (hk : i.kind x = .cmd) :
    (x ∈ (prune i all root nodes edges trans targets).nodes ↔
      ∃ t ∈ targets, Star (EdgeRel edges) x t) ∧
    (i.counted x = true → x ∉ (prune i all root nodes edges trans targets).nodes →
      x ∈ (prune i all root nodes edges trans targets).scheduled) ∧
    (x ∈ (prune i all root nodes edges trans targets).scheduled →
      x ∉ (prune i all root nodes edges trans targets).nodes) := by
  have hm := marked_char hE hT hp x
  have hxr : x ≠ root := fun hc => hp.rootKind (hc ▸ hk)
  have hm' : x ∈ mark i edges (markFuel i edges nodes targets) targets [] ↔
      ∃ t ∈ targets, Star (EdgeRel edges) x t := by
    rw [hm]
    constructor
    · rintro (q | ⟨c, c1, c2, c3, c4, _⟩ | ⟨q, _⟩)
      · exact q
      · exact absurd hk (hp.unique c x c2 c1 c3 c4).1
      · exact absurd q hxr
    · exact Or.inl
  have hkept : x ∈ (prune i all root nodes edges trans targets).nodes ↔
      x ∈ mark i edges (markFuel i edges nodes targets) targets [] := by
    simp only [prune, List.mem_filter, hx, hk]
    simp
    exact fun h => absurd h hxr
  refine ⟨hkept.trans hm', ?_, ?_⟩
  · intro hc hnot
    rw [hkept] at hnot
    simp only [prune, List.mem_filter]
    simp [hx, hxr, hnot, hc]
  · intro hs
    rw [hkept]
    simp only [prune, List.mem_filter] at hs
    simp at hs
    exact hs.1.2.1

/-- A kept command keeps everything it depends on, and all its own outputs (groups and exclusions aside),
with the edges between them: it runs with complete inputs and the update knows all its outputs. -/
theorem c36_kept_complete (hE : ∀ e ∈ edges, e.1 ∈ nodes ∧ e.2 ∈ nodes)
    (hT : ∀ t ∈ targets, t ∈ nodes) (hp : Produced i root edges) {x : Nat} (hk : i.kind x = .cmd)
    (hx : x ∈ (prune i all root nodes edges trans targets).nodes) :
    (∀ a, Plus (EdgeRel edges) a x → a ∈ (prune i all root nodes edges trans targets).nodes) ∧
    (∀ a, (a, x) ∈ edges → (a, x) ∈ (prune i all root nodes edges trans targets).edges) ∧
    (∀ d, (x, d) ∈ edges → i.kind d ≠ .group → i.excl d = false →
      d ∈ (prune i all root nodes edges trans targets).nodes ∧
      (x, d) ∈ (prune i all root nodes edges trans targets).edges) := by
  have hxn : x ∈ nodes := by simp only [prune, List.mem_filter] at hx; exact hx.1
  obtain ⟨t, ht, hs⟩ := (c36_commands_kept hE hT hp hxn hk).1.1 hx
  have hmx : x ∈ mark i edges (markFuel i edges nodes targets) targets [] :=
    (marked_char hE hT hp x).2 (Or.inl ⟨t, ht, hs⟩)
  have hma : ∀ a, Plus (EdgeRel edges) a x →
      a ∈ mark i edges (markFuel i edges nodes targets) targets [] := by
    intro a ha
    refine (marked_char hE hT hp a).2 (Or.inl ⟨t, ht, ?_⟩)
    rcases hs with rfl | hs
    · exact Or.inr ha
    · exact Or.inr (ha.trans hs)
  have hnode : ∀ a, a ∈ nodes → a ∈ mark i edges (markFuel i edges nodes targets) targets [] →
      a ∈ (prune i all root nodes edges trans targets).nodes := by
    intro a h1 h2
    simp only [prune, List.mem_filter]
    simp [h1, h2]
  have hedge : ∀ a c, (a, c) ∈ edges →
      a ∈ mark i edges (markFuel i edges nodes targets) targets [] →
      c ∈ mark i edges (markFuel i edges nodes targets) targets [] →
      (a, c) ∈ (prune i all root nodes edges trans targets).edges := by
    intro a c h1 h2 h3
    simp only [prune, List.mem_filter]
    simp [h1, h2, h3]
  refine ⟨?_, ?_, ?_⟩
  · intro a ha
    refine hnode a ?_ (hma a ha)
    have : ∃ d, (a, d) ∈ edges := by
      clear hx hk hs hmx hma hxn
      induction ha with
      | one h => exact ⟨_, h⟩
      | tail _ _ ih => exact ih
    obtain ⟨d, hd⟩ := this
    exact (hE _ hd).1
  · intro a ha
    exact hedge a x ha (hma a (.one ha)) hmx
  · intro d hd hg hex
    have hmd := (marked_char hE hT hp d).2 (Or.inr (Or.inl ⟨x, hk, hd, hg, hex, t, ht, hs⟩))
    exact ⟨hnode d (hE _ hd).2 hmd, hedge x d hd hmx hmd⟩

/-- The pruned graph is fit for the executor again. -/
theorem c36_pruned_ready_for_executor {g0 : Tup.Exec.Graph} {rest : List Nat} (hwf : WF g0 root rest)
    (hT : ∀ t ∈ targets, t ∈ rest)
    (hfile : ∀ a f, (a, f) ∈ g0.edges → i.kind f = .file → a = root) :
    ∃ rest', WF { g0 with
        nodeList := (prune i all root g0.nodeList g0.edges g0.trans targets).nodes
        edges := (prune i all root g0.nodeList g0.edges g0.trans targets).edges
        trans := (prune i all root g0.nodeList g0.edges g0.trans targets).trans } root rest' ∧
      ∀ x ∈ rest', x ∈ rest := by
  have hnl := hwf.nodes
  have hE : ∀ e ∈ g0.edges, e.1 ∈ g0.nodeList ∧ e.2 ∈ g0.nodeList := by
    rintro ⟨a, b⟩ he
    rw [hnl]
    exact ⟨hwf.src a b he, List.mem_cons_of_mem _ (hwf.dst a b he)⟩
  have hT' : ∀ t ∈ targets, t ∈ g0.nodeList := by
    intro t ht; rw [hnl]; exact List.mem_cons_of_mem _ (hT t ht)
  have hroot : root ∉ rest := (List.nodup_cons.1 hwf.nodup).1
  have hmi := fun x => marked_iff (i := i) hE hT' x
  have hmup : ∀ a b, (a, b) ∈ g0.edges →
      b ∈ mark i g0.edges (markFuel i g0.edges g0.nodeList targets) targets [] →
      a ∈ mark i g0.edges (markFuel i g0.edges g0.nodeList targets) targets [] := by
    intro a b he hb
    obtain ⟨t, ht, hs⟩ := (hmi b).1 hb
    refine (hmi a).2 ⟨t, ht, hs.tail ?_⟩
    simp only [Nbr, markNbrs, List.mem_append, List.mem_map, List.mem_filter, decide_eq_true_eq]
    exact Or.inr ⟨(a, b), ⟨he, rfl⟩, rfl⟩
  refine ⟨(prune i all root g0.nodeList g0.edges g0.trans targets).nodes.tail, ?_, ?_⟩
  · have hnodes : (prune i all root g0.nodeList g0.edges g0.trans targets).nodes =
        root :: (prune i all root g0.nodeList g0.edges g0.trans targets).nodes.tail := by
      simp only [prune, hnl]
      rw [List.filter_cons_of_pos (by simp)]
      rfl
    have hmem : ∀ x, x ∈ (prune i all root g0.nodeList g0.edges g0.trans targets).nodes.tail →
        x ∈ rest ∧ (x ∈ mark i g0.edges (markFuel i g0.edges g0.nodeList targets) targets [] ∨
          (all = false ∧ i.kind x = .file)) := by
      intro x hx
      have hx' := hx
      simp only [prune, hnl] at hx
      rw [List.filter_cons_of_pos (by simp)] at hx
      simp only [List.tail_cons, List.mem_filter] at hx
      refine ⟨hx.1, ?_⟩
      have hxr : x ≠ root := fun hc => hroot (hc ▸ hx.1)
      by_cases hm : x ∈ mark i g0.edges (markFuel i g0.edges g0.nodeList targets) targets []
      · exact Or.inl hm
      · right
        rw [hnl] at hm
        have := hx.2
        simp [hx.1, hxr, hm] at this
        exact this
    have hnd : (prune i all root g0.nodeList g0.edges g0.trans targets).nodes.Nodup := by
      simp only [prune]
      refine List.Pairwise.filter _ ?_
      rw [hnl]; exact hwf.nodup
    have hedge : ∀ a b, (a, b) ∈ (prune i all root g0.nodeList g0.edges g0.trans targets).edges →
        (a, b) ∈ g0.edges ∧ a ∈ (prune i all root g0.nodeList g0.edges g0.trans targets).nodes ∧
        b ∈ (prune i all root g0.nodeList g0.edges g0.trans targets).nodes := by
      intro a b he
      simp only [prune, List.mem_filter, Bool.and_eq_true, decide_eq_true_eq] at he ⊢
      exact ⟨he.1, ⟨(hE _ he.1).1, he.2.1⟩, ⟨(hE _ he.1).2, he.2.2⟩⟩
    constructor
    · exact hnodes
    · rw [← hnodes]; exact hnd
    · exact hwf.plist
    · intro n hn; exact hwf.noproc n (hmem n hn).1
    · intro a b he
      rw [← hnodes]
      exact (hedge a b he).2.1
    · intro a b he
      obtain ⟨e1, e2, e3⟩ := hedge a b he
      rw [hnodes] at e3
      rcases List.mem_cons.1 e3 with h1 | h1
      · exact absurd (h1 ▸ hwf.dst a b e1) hroot
      · exact h1
    · intro b hb
      obtain ⟨hbr, hbm⟩ := hmem b hb
      obtain ⟨a, ha⟩ := hwf.reach b hbr
      have hbn : b ∈ (prune i all root g0.nodeList g0.edges g0.trans targets).nodes := by
        rw [hnodes]; exact List.mem_cons_of_mem _ hb
      refine ⟨a, ?_⟩
      have han : a ∈ (prune i all root g0.nodeList g0.edges g0.trans targets).nodes := by
        by_cases har : a = root
        · rw [har, hnodes]; simp
        · rcases hbm with hm | ⟨_, hf⟩
          · have := hmup a b ha hm
            simp only [prune, List.mem_filter]
            simp [(hE _ ha).1, this]
          · exact absurd (hfile a b ha hf) har
      simp only [prune, List.mem_filter, Bool.and_eq_true, decide_eq_true_eq] at han hbn ⊢
      exact ⟨ha, han.2, hbn.2⟩
    · simp only [prune]
      split
      · rfl
      · exact hwf.rootTrans
    · intro n
      simp only [prune]
      split
      · simp
      · exact hwf.notDelete n
    · intro a b he hpr
      simp only [prune] at hpr ⊢
      have e1 := (hedge a b he).1
      split at hpr
      · cases hpr
      · split
        · rfl
        · exact hwf.transEdge a b e1 hpr
  · intro x hx
    simp only [prune, hnl] at hx
    rw [List.filter_cons_of_pos (by simp)] at hx
    simp only [List.tail_cons, List.mem_filter] at hx
    exact hx.1

end prune

/-! Root 0; files 1, 2; command 3 (from 1) makes 4 and 5; command 6 (from 4) makes 7; command 8 (from 2)
makes 9.  Target 4: 3 is kept, 6 and 8 are scheduled for later. -/

def exI : Info where
  kind n := if n = 3 ∨ n = 6 ∨ n = 8 then .cmd else if n = 1 ∨ n = 2 then .file else .other
  excl _ := false
  counted n := n = 3 || n = 6 || n = 8

def exE : List (Nat × Nat) := [(0, 1), (0, 2), (1, 3), (3, 4), (3, 5), (4, 6), (6, 7), (2, 8), (8, 9)]

theorem exE_produced : Produced exI 0 exE where
  rootNoIn := by intro a; simp [exE]
  rootKind := by decide
  unique := by
    intro c d h hc _ _
    simp only [exE, List.mem_cons, Prod.mk.injEq, List.not_mem_nil, or_false] at h
    rcases h with ⟨rfl, rfl⟩ | ⟨rfl, rfl⟩ | ⟨rfl, rfl⟩ | ⟨rfl, rfl⟩ | ⟨rfl, rfl⟩ | ⟨rfl, rfl⟩ | ⟨rfl, rfl⟩ |
      ⟨rfl, rfl⟩ | ⟨rfl, rfl⟩ <;>
      first
        | exact absurd hc (by decide)
        | exact ⟨by decide, by intro a ha; simp [exE] at ha; omega⟩

example : (prune exI false 0 [0, 9, 8, 2, 7, 6, 5, 4, 3, 1] exE (fun _ => .none) [4]).nodes = [0, 2, 5, 4, 3, 1] ∧
    (prune exI false 0 [0, 9, 8, 2, 7, 6, 5, 4, 3, 1] exE (fun _ => .none) [4]).scheduled = [8, 6] := by decide

end Tup.Graph
