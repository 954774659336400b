import Verif.Transient.Pass
import Verif.Exec.Props

/-! Property C61 (see /verif/properties.jsonl). -/

namespace Tup.Transient

open Tup.Graph
open Tup.Exec (Trans WF Dep Running Step JobDone HasJob)

variable {d : Db} {root : Nat} {U : List Nat}

/-- Building the graph ends with a graph or one of the two errors. -/
theorem c61_ends (h : DbOk d root U) : build d root U ≠ .more := by
  rcases build_spec h with ⟨b, e, _⟩ | ⟨e, _⟩ | ⟨e, _⟩ <;> simp [e]

/-- The commands in the graph are exactly those that are reached from a modified node, and those transient ones
whose missing outputs are needed, directly or through other transient commands. -/
theorem c61_commands (h : DbOk d root U) {b : B} (hb : build d root U = .ok b) {x : Nat} (hx : d.isCmd x = true) :
    x ∈ b.nodeList ↔ Changed d x ∨ Wanted d x := by
  rcases build_spec h with ⟨b', e, hf⟩ | ⟨e, _⟩ | ⟨e, _⟩
  · rw [e] at hb; injection hb with hb; subst hb
    rw [← hf.mem]
    constructor
    · exact fun hm => hf.cmds x hm hx
    · rintro (q | q)
      · exact hf.base x q (cmd_not_lost h hx)
      · exact hf.wanted_mem h q
  · rw [e] at hb; cases hb
  · rw [e] at hb; cases hb

/-- Everything else in the graph: what is reached, except the missing outputs of transient commands that are not
run, and the outputs of those that are.  A file that could come from two transient commands is left out. -/
theorem c61_files (h : DbOk d root U) {b : B} (hb : build d root U = .ok b) {x : Nat} (hx : d.isCmd x = false)
    (hr : x ≠ root) (hs : ∀ c, Waiting d c → ¬ Changed d c → x ∈ d.links c → Sole d c x) :
    x ∈ b.nodeList ↔ (Changed d x ∧ ¬ Lost d x) ∨ ∃ c, Wanted d c ∧ x ∈ d.links c := by
  rcases build_spec h with ⟨b', e, hf⟩ | ⟨e, _⟩ | ⟨e, _⟩
  · rw [e] at hb; injection hb with hb; subst hb
    rw [← hf.mem]
    constructor
    · intro hm
      rcases hf.rest x hm hr hx with q | ⟨c, _, q1, q2⟩
      · by_cases hl : Lost d x
        · obtain ⟨c, l1, l2, l3, l4⟩ := hl
          by_cases hc : c ∈ b'.nodes
          · exact Or.inr ⟨c, (hf.cmds c hc l1.2.1).resolve_left l2, l3⟩
          · exact absurd hm (hf.rejected c l1 hc x l3 l4).1
        · exact Or.inl ⟨q, hl⟩
      · exact Or.inr ⟨c, q1, q2⟩
    · rintro (⟨q1, q2⟩ | ⟨c, q1, q2⟩)
      · exact hf.base x q1 q2
      · have hw := q1.waiting
        exact (hf.ends c x (hf.outs c (hf.wanted_mem h q1) q1 x q2 (hs c hw.1 hw.2 q2))).2.1
  · rw [e] at hb; cases hb
  · rw [e] at hb; cases hb

/-- The graph, with the edges for declared inputs, meets what the executor needs.  It has an edge from every command
in it to each of its outputs, and from each declared input of a command to that command. -/
theorem c61_ready_for_executor (h : DbOk d root U) {b : B} (hb : build d root U = .ok b) (inputs : Nat → List Nat)
    (hin : ∀ o r, o ∈ inputs r ↔ r ∈ d.sticky o) (hroot : d.sticky root = []) (trans : Nat → Trans)
    (ht : ∀ n, trans n ≠ .delete) (htr : trans root = .none) (htc : ∀ n, d.isCmd n = true → trans n = .none)
    (hte : ∀ a b, Linked d.toLinks a b → trans a = .processing → trans b = .none) :
    let g := toExec b (addStickies d.isCmd inputs b.nodeList) trans
    ∃ rest, b.nodeList = root :: rest ∧ WF g root rest ∧ (∀ x ∈ rest, b.expanded x = true) ∧
      (∀ c o, c ∈ rest → d.isCmd c = true → o ∈ d.links c → Sole d c o → Dep g c o) ∧
      (∀ o r, o ∈ rest → r ∈ rest → r ∈ d.sticky o → Dep g o r) := by
  rcases build_spec h with ⟨b', e, hf⟩ | ⟨e, _⟩ | ⟨e, _⟩
  · rw [e] at hb; injection hb with hb; subst hb
    obtain ⟨rest, hl⟩ := hf.hd
    have hnd := hf.nodup
    rw [hl] at hnd
    obtain ⟨hr, _⟩ := List.nodup_cons.1 hnd
    have hmem : ∀ x, x ∈ b'.nodes ↔ x = root ∨ x ∈ rest := by intro x; rw [hf.mem, hl, List.mem_cons]
    have hS : ∀ a x, (a, x) ∈ addStickies d.isCmd inputs b'.nodeList ↔ a ∈ rest ∧ x ∈ rest ∧ x ∈ d.sticky a := by
      intro a x
      simp only [addStickies, List.mem_flatMap, List.mem_map, List.mem_filter, decide_eq_true_eq,
        Prod.mk.injEq, hl, List.mem_cons]
      constructor
      · rintro ⟨n, ⟨hn1, hn2⟩, y, ⟨hy1, hy2⟩, rfl, rfl⟩
        have hs := (hin y n).1 hy1
        refine ⟨?_, ?_, hs⟩
        · rcases hy2 with rfl | q
          · rw [hroot] at hs; cases hs
          · exact q
        · rcases hn1 with rfl | q
          · rw [h.rootCmd] at hn2; cases hn2
          · exact q
      · rintro ⟨q1, q2, q3⟩
        exact ⟨x, ⟨Or.inr q2, h.users a x q3⟩, a, ⟨(hin a x).2 q3, Or.inr q1⟩, rfl, rfl⟩
    have hE : ∀ a x, (a, x) ∈ (toExec b' (addStickies d.isCmd inputs b'.nodeList) trans).edges ↔
        (a ∈ rest ∧ x ∈ rest ∧ x ∈ d.sticky a) ∨ (a, x) ∈ b'.edges := by
      intro a x; simp only [toExec, List.mem_append, hS]
    refine ⟨rest, hl, ?_, ?_, ?_, ?_⟩
    · constructor
      · exact hl
      · exact hnd
      · exact hf.plist
      · intro n _; simp [toExec, hf.noproc n]
      · intro a x he
        rcases (hE a x).1 he with q | q
        · simp [q.1]
        · simpa using (hmem a).1 (hf.ends a x q).1
      · intro a x he
        rcases (hE a x).1 he with q | q
        · exact q.2.1
        · obtain ⟨_, q2, q3⟩ := hf.ends a x q
          exact ((hmem x).1 q2).resolve_left q3
      · intro x hx
        obtain ⟨a, q⟩ := hf.into x ((hmem x).2 (Or.inr hx)) (fun e => hr (e ▸ hx))
        exact ⟨a, (hE a x).2 (Or.inr q)⟩
      · exact htr
      · exact ht
      · intro a x he hpr
        simp only [toExec] at hpr ⊢
        rcases (hE a x).1 he with q | q
        · exact htc x (h.users a x q.2.2)
        · rcases hf.sound a x q with ⟨q1, _⟩ | ⟨_, q1 | q1⟩
          · rw [q1, htr] at hpr; cases hpr
          · exact hte a x q1 hpr
          · exact htc x (h.users a x q1)
    · intro x hx
      exact hf.exp x ((hmem x).2 (Or.inr hx)) (fun e => hr (e ▸ hx))
    · intro c o hc hcc ho hs
      refine (hE c o).2 (Or.inr ?_)
      have hcn := (hmem c).2 (Or.inr hc)
      rcases hf.cmds c hcn hcc with q | q
      · refine hf.edge c o q ⟨Or.inl ho, ?_⟩ (cmd_not_lost h hcc) ?_
        · rintro ⟨_, q2, _⟩; rw [hcc] at q2; cases q2
        · rintro ⟨c', l1, l2, l3, _⟩
          have := hs c' l1 l2 l3
          rw [this] at l2; exact l2 q
      · exact hf.outs c hcn q o ho hs
    · intro o r ho hr' hs
      exact (hE o r).2 (Or.inl ⟨ho, hr', hs⟩)
  · rw [e] at hb; cases hb
  · rw [e] at hb; cases hb

/-- When a command that has a temporary file as a declared input is started, a transient command that makes this file
and is in the graph has run successfully; and the file is not deleted until the command is done too. -/
theorem c61_made_first {D : Type} (h : DbOk d root U) {b : B} (hb : build d root U = .ok b) (inputs : Nat → List Nat)
    (hin : ∀ o r, o ∈ inputs r ↔ r ∈ d.sticky o) (hroot : d.sticky root = []) (trans : Nat → Trans)
    (ht : ∀ n, trans n ≠ .delete) (htr : trans root = .none) (htc : ∀ n, d.isCmd n = true → trans n = .none)
    (hte : ∀ a b, Linked d.toLinks a b → trans a = .processing → trans b = .none)
    {cf : Tup.Exec.Cfg} (hj : 0 < cf.jobs) (hexp : cf.expanded = b.expanded) {w : Tup.Exec.Work D} {db0 : D}
    {s s' : Tup.Exec.S D} (hs : Running cf w (toExec b (addStickies d.isCmd inputs b.nodeList) trans) db0 s)
    (hst : Step cf w s s') {c o r : Nat} (hr : r ∉ s.started) (hr' : r ∈ s'.started)
    (hc : Wanted d c ∨ (Changed d c ∧ d.isCmd c = true)) (ho : o ∈ d.links c) (hu : r ∈ d.sticky o)
    (hsole : Sole d c o) :
    JobDone s c ∧ o ∉ s.cleaned := by
  obtain ⟨rest, hl, hwf, hx, hD1, hD2⟩ := c61_ready_for_executor h hb inputs hin hroot trans ht htr htc hte
  generalize hg : toExec b (addStickies d.isCmd inputs b.nodeList) trans = g at hs hwf hD1 hD2
  have hccmd : d.isCmd c = true := by
    rcases hc with q | q
    · exact q.waiting.1.2.1
    · exact q.2
  have hcl : c ∈ b.nodeList := (c61_commands h hb hccmd).2 (by
    rcases hc with q | q
    · exact Or.inr q
    · exact Or.inl q.1)
  have hcr : c ∈ rest := by
    rw [hl] at hcl
    rcases List.mem_cons.1 hcl with q | q
    · rw [q, h.rootCmd] at hccmd; cases hccmd
    · exact q
  have hdco : Dep g c o := hD1 c o hcr hccmd ho hsole
  have hor : o ∈ rest := hwf.dst c o hdco
  have hs' : Running cf w g db0 s' := by
    obtain ⟨s0, q1, q2⟩ := hs
    exact ⟨s0, q1, .tail q2 hst⟩
  have hrr : r ∈ rest := ((Tup.Exec.c30_at_most_once hj hwf hs').2 r hr').1
  have hdor : Dep g o r := hD2 o r hor hrr hu
  have hjo : JobDone s o := Tup.Exec.c30_dependencies_done_first hj hwf hs hst hr hr' hdor
    ⟨hor, by rw [hexp]; exact hx o hor⟩
  refine ⟨?_, ?_⟩
  · obtain ⟨hi, _⟩ := Tup.Exec.running_inv hj hwf hs
    have hap : c ∈ s.popped := hi.startedOrder o hjo.1 c hdco
    have hacl : c ∉ s.cleaned := by
      intro hq
      have := hi.cleanedTr c hq
      have h2 := hi.gi.tr c
      rw [this] at h2
      have h3 : g.trans c = .none := by rw [← hg]; exact htc c hccmd
      rcases h2 with q | q
      · rw [h3] at q; cases q
      · rw [h3] at q; cases q.1
    refine ⟨?_, ?_, ?_, ?_⟩
    · rcases hi.poppedHow c hap with h1 | h1 | h1
      · exact absurd (h1 ▸ hcr) (List.nodup_cons.1 hwf.nodup).1
      · exact h1
      · rw [hexp, hx c hcr] at h1; cases h1
    · intro hq
      exact hacl ((hi.heldStart c (by simp [hq])).2 (hi.gi.popLive c hap (by simp [hq])))
    · intro ok hq
      have hm : c ∈ s.running ++ s.fin.map (·.1) := by
        rw [List.mem_append]; right; exact List.mem_map.2 ⟨(c, ok), hq, rfl⟩
      exact hacl ((hi.heldStart c hm).2 (hi.gi.popLive c hap (by rw [List.mem_append]; right; exact hm)))
    · intro hq
      exact hacl ((hi.failHow c hq).2 (hi.gi.popLive c hap (by simp [(hi.gi.fail c hq).1])))
  · intro hq
    have := (Tup.Exec.c30_transient_deleted_last hj hwf hs).2 o hq
    exact hr (this.2 r hdor ⟨hrr, by rw [hexp]; exact hx r hrr⟩).1

/-- The circular dependency error means a cycle among what is reached. -/
theorem c61_circular (h : DbOk d root U) (hb : build d root U = .circular) :
    ∃ n, Changed d n ∧ Plus (Follows d) n n := by
  rcases build_spec h with ⟨b, e, _⟩ | ⟨e, _⟩ | ⟨_, q⟩
  · rw [e] at hb; cases hb
  · rw [e] at hb; cases hb
  · exact q

/-- The graph is built if there is no cycle among what is reached, no file or group is filled by two transient
commands that are not reached, and each of these commands has either no output in the graph already or all its
outputs left from the earlier update. -/
theorem c61_no_error (h : DbOk d root U) (hac : ∀ n, Changed d n → ¬ Plus (Follows d) n n)
    (hnd : ∀ c, Waiting d c → ¬ Changed d c → (d.links c).Nodup)
    (hso : ∀ c, Waiting d c → ¬ Changed d c → ∀ o ∈ d.links c, Sole d c o)
    (hout : ∀ c, Waiting d c → ¬ Changed d c → (∀ o ∈ d.links c, o ∈ d.kept) ∨ ∀ o ∈ d.links c, ¬ Changed d o) :
    ∃ b, build d root U = .ok b := by
  rcases build_spec h with ⟨b, e, _⟩ | ⟨_, c, h1, h2, ⟨o, h3, h4⟩, h5⟩ | ⟨_, n, q1, q2⟩
  · exact ⟨b, e⟩
  · exfalso
    obtain ⟨o', q1, q2 | ⟨c', q2, q3, q4⟩⟩ := h5 (hnd c h1 h2)
    · rcases hout c h1 h2 with r | r
      · exact h4 (r o h3)
      · exact r o' q1 q2
    · exact q2 (hso c h1 h2 o' q1 c' q3.waiting.1 q3.waiting.2 q4)
  · exact absurd q2 (hac n q1)

/-! ## Examples -/

/-- A database given by lists of pairs. -/
def look (l : List (Nat × Nat)) (n : Nat) : List Nat := (l.filter (·.1 = n)).map (·.2)

theorem mem_look {l : List (Nat × Nat)} {n m : Nat} : m ∈ look l n ↔ (n, m) ∈ l := by
  simp only [look, List.mem_map, List.mem_filter, decide_eq_true_eq, Prod.exists]
  constructor
  · rintro ⟨a, b, ⟨q, rfl⟩, rfl⟩; exact q
  · intro q; exact ⟨n, m, ⟨q, rfl⟩, rfl⟩

def ofLists (links sticky : List (Nat × Nat)) (cmds temps modify kept : List Nat) : Db :=
  ⟨⟨look links, fun _ => []⟩, look sticky, fun n => decide (n ∈ cmds), fun n => decide (n ∈ temps), modify, kept⟩

theorem ofLists_ok {links sticky : List (Nat × Nat)} {cmds temps modify kept U : List Nat}
    (h : (∀ n ∈ modify, n ∈ U) ∧ (∀ n ∈ kept, n ∈ U) ∧ (∀ p ∈ links, p.2 ∈ U) ∧ 0 ∉ U ∧ U.Nodup ∧ modify.Nodup ∧
      kept.Nodup ∧ 0 ∉ cmds ∧ (∀ p ∈ links, p.1 ∈ cmds → p.2 ∉ cmds) ∧ (∀ p ∈ sticky, p.2 ∈ cmds) ∧
      (∀ p ∈ links, (p.2, p.1) ∉ sticky)) : DbOk (ofLists links sticky cmds temps modify kept) 0 U := by
  obtain ⟨h1, h2, h3, h4, h5, h6, h7, h8, h9, h10, h11⟩ := h
  refine ⟨h1, h2, ?_, h4, h5, h6, h7, ?_, ?_, ?_, ?_⟩
  · intro n _ m hm
    rcases hm with q | q
    · exact h3 (n, m) (mem_look.1 q)
    · cases q
  · simpa [ofLists] using h8
  · intro c o hc ho
    simp only [ofLists, decide_eq_true_eq, decide_eq_false_iff_not] at hc ⊢
    exact h9 (c, o) (mem_look.1 ho) hc
  · intro o r hr
    simp only [ofLists, decide_eq_true_eq]
    exact h10 (o, r) (mem_look.1 hr)
  · intro c o ho hs
    exact h11 (c, o) (mem_look.1 ho) (mem_look.1 hs)

theorem changed_in {links sticky : List (Nat × Nat)} {cmds temps modify kept : List Nat} (S : List Nat)
    (hs : ∀ n ∈ modify, (n ∈ cmds ∧ n ∈ temps) ∨ n ∈ S) (hk : ∀ n ∈ kept, n ∈ S)
    (hc : ∀ p ∈ links, p.1 ∈ S → p.2 ∈ S) {x : Nat} (hx : Changed (ofLists links sticky cmds temps modify kept) x) :
    x ∈ S := by
  obtain ⟨s, h1, h2⟩ := hx
  have hsS : s ∈ S := by
    rcases h1 with ⟨q1, q2⟩ | q
    · refine (hs s q1).resolve_left (fun q => q2 ?_)
      simp only [ofLists, decide_eq_true_eq]; exact q
    · exact hk s q
  have hf : ∀ a b, Follows (ofLists links sticky cmds temps modify kept) a b → a ∈ S → b ∈ S := by
    rintro a b ⟨q | q, _⟩ ha
    · exact hc (a, b) (mem_look.1 q) ha
    · cases q
  rcases h2 with rfl | h2
  · exact hsS
  · induction h2 with
    | one q => exact hf _ _ q hsS
    | tail _ q ih => exact hf _ _ q ih

/-- The source file 1 is compiled by the transient command 2 to 3, this by the transient 4 to 5, and 6 makes 7 of
this and the source file 8.  The transient command 9 makes 10 for 11.  The file 8 has changed, and none of 3, 5 and
10 exist. -/
def exD : Db := ofLists [(1, 2), (2, 3), (3, 4), (4, 5), (5, 6), (6, 7), (8, 6), (9, 10), (10, 11), (11, 12)]
  [(1, 2), (3, 4), (5, 6), (8, 6), (10, 11)] [2, 4, 6, 9, 11] [2, 4, 9, 3, 5, 10] [2, 4, 8, 9] []

def exU : List Nat := [1, 2, 3, 4, 5, 6, 7, 8, 9, 10, 11, 12]

theorem exD_ok : DbOk exD 0 exU := ofLists_ok (by decide)

/-- 6 is run because of 8, 4 for 6, and 2 for 4. -/
theorem exD_built : (match build exD 0 exU with | .ok b => b.nodeList | _ => []) = [0, 7, 6, 8, 5, 4, 3, 2] := by
  decide

theorem exD_six : Changed exD 6 :=
  ⟨8, Or.inl ⟨by decide, by decide⟩, Or.inr (.one ⟨Or.inl (by decide), by decide⟩)⟩

theorem exD_changed {x : Nat} (h : Changed exD x) : x ∈ [8, 6, 7] :=
  changed_in [8, 6, 7] (by decide) (by decide) (by decide) h

theorem exD_wanted : Wanted exD 2 := by
  have h4 : Wanted exD 4 := .reached (o := 5) (r := 6) ⟨by decide, by decide, by decide⟩
    (fun h => absurd (exD_changed h) (by decide)) (by decide) (by decide) (by decide) exD_six
  exact .wanted (o := 3) (r := 4) ⟨by decide, by decide, by decide⟩
    (fun h => absurd (exD_changed h) (by decide)) (by decide) (by decide) (by decide) h4

/-- The hypotheses of `c61_no_error` hold for it. -/
example : ∃ b, build exD 0 exU = .ok b := by
  have hw : ∀ c, Waiting exD c → c = 2 ∨ c = 4 ∨ c = 9 := by
    rintro c ⟨h1, h2, _⟩
    simp only [exD, ofLists, List.mem_cons, List.not_mem_nil, or_false] at h1
    rcases h1 with rfl | rfl | rfl | rfl
    · simp
    · simp
    · exact absurd h2 (by decide)
    · simp
  refine c61_no_error exD_ok ?_ ?_ ?_ ?_
  · intro n _ hp
    have : ∀ a b, Plus (Follows exD) a b → (a = 8 ∨ a < b) ∧ b ≠ 8 := by
      have h1 : ∀ a b, Follows exD a b → (a = 8 ∨ a < b) ∧ b ≠ 8 := by
        rintro a b ⟨q | q, _⟩
        · have := mem_look.1 q
          simp only [List.mem_cons, Prod.mk.injEq, List.not_mem_nil, or_false] at this
          omega
        · cases q
      intro a b hab
      induction hab with
      | one q => exact h1 _ _ q
      | tail _ q ih => have := h1 _ _ q; omega
    have := this n n hp
    omega
  · intro c hc _
    rcases hw c hc with rfl | rfl | rfl <;> decide
  · intro c hc _ o ho c' hc' _ ho'
    rcases hw c hc with rfl | rfl | rfl <;> rcases hw c' hc' with rfl | rfl | rfl <;>
      first | rfl | (have a := mem_look.1 ho; have b := mem_look.1 ho'; simp at a b; omega)
  · intro c hc _
    right
    intro o ho hch
    have := exD_changed hch
    have a := mem_look.1 ho
    rcases hw c hc with rfl | rfl | rfl <;> simp at a this <;> omega

/-- The hypotheses of `c61_made_first`: 4 needs 3, which 2 makes. -/
example : (∀ c', Waiting exD c' → ¬ Changed exD c' → 3 ∈ exD.links c' → c' = 2) ∧ 4 ∈ exD.sticky 3 ∧ 3 ∈ exD.links 2 := by
  refine ⟨?_, by decide, by decide⟩
  intro c' _ _ h
  have := mem_look.1 h
  simp at this
  exact this

/-! ## What goes wrong -/

/-- Two transient commands, 2 and 4, each put their file into the group 10, which is an input of the modified
command 6. -/
def shD : Db := ofLists [(2, 3), (2, 10), (4, 5), (4, 10), (10, 6), (6, 7)] [(10, 6)] [2, 4, 6] [2, 4, 3, 5] [2, 4, 6] []

/-- The update gives up with an internal error: the group is put into the graph by the first command and then
expected to be new for the second. -/
theorem c61_shared_group : DbOk shD 0 [2, 3, 4, 5, 6, 7, 10] ∧ build shD 0 [2, 3, 4, 5, 6, 7, 10] = .internal := by
  refine ⟨ofLists_ok (by decide), ?_⟩
  rfl

/-- The transient command 2 makes 3 and 4, of which only 3 is still there; 4 is an input of the modified
command 5. -/
def loD : Db := ofLists [(2, 3), (2, 4), (4, 5), (5, 6)] [(4, 5)] [2, 5] [2, 3, 4] [2, 5] [3]

/-- The same error. -/
theorem c61_leftover_output : DbOk loD 0 [2, 3, 4, 5, 6] ∧ build loD 0 [2, 3, 4, 5, 6] = .internal := by
  refine ⟨ofLists_ok (by decide), ?_⟩
  rfl

/-- The source file 1 is made to 3 by the transient command 2, for the commands 4 and 6.  The last update ended with
an error of 6, so that 3 is still there.  Now 1 has changed. -/
def leD : Db := ofLists [(1, 2), (2, 3), (3, 4), (4, 5), (3, 6), (6, 7)] [(1, 2), (3, 4), (3, 6)] [2, 4, 6] [2, 3] [1, 6] [3]

/-- The command 4 is not run again, though it depends on what has changed. -/
theorem c61_leftover : DbOk leD 0 [1, 2, 3, 4, 5, 6, 7] ∧ 1 ∈ leD.modify ∧ Star (Linked leD.toLinks) 1 4 ∧
    (match build leD 0 [1, 2, 3, 4, 5, 6, 7] with | .ok b => b.nodeList | _ => [4]) = [0, 3, 7, 6, 2, 1] := by
  refine ⟨ofLists_ok (by decide), by decide, ?_, by decide⟩
  exact Or.inr (.tail (.tail (.one (b := 2) (Or.inl (by decide))) (c := 3) (Or.inl (by decide))) (Or.inl (by decide)))

end Tup.Transient
