import Verif.Exec.Spec

/-! Invariants of the executor. -/

namespace Tup.Exec

@[simp, grind =] theorem upd_apply {α : Type} (f : Nat → α) (n : Nat) (v : α) (m : Nat) :
    upd f n v m = if m = n then v else f m := rfl

theorem mem_outs {g : Graph} {n d : Nat} : d ∈ g.outs n ↔ (n, d) ∈ g.edges := by
  simp only [Graph.outs, List.mem_map, List.mem_filter, decide_eq_true_eq]
  constructor
  · rintro ⟨⟨a, b⟩, ⟨h, h1⟩, h2⟩
    simp only at h1 h2
    subst h1; subst h2; exact h
  · intro h; exact ⟨(n, d), ⟨h, rfl⟩, rfl⟩

theorem hasIncoming_iff {g : Graph} {n : Nat} : g.hasIncoming n = true ↔ ∃ a, (a, n) ∈ g.edges := by
  simp only [Graph.hasIncoming, List.any_eq_true, decide_eq_true_eq]
  constructor
  · rintro ⟨⟨a, b⟩, h, h1⟩; simp only at h1; subst h1; exact ⟨a, h⟩
  · rintro ⟨a, h⟩; exact ⟨(a, n), h, rfl⟩

/-- the effect of `popDests` -/
theorem popDests_spec : ∀ (ds : List Nat) (g : Graph),
    (∀ d ∈ ds, (d ∈ g.nodeList ∧ g.proc d = false) ∨ (d ∈ g.plist ∧ g.proc d = true)) →
    (g.nodeList ++ g.plist).Nodup →
    ∃ g', popDests ds g = some g' ∧ g'.edges = g.edges ∧ g'.trans = g.trans ∧
      (∀ x, x ∈ g'.nodeList ↔ x ∈ g.nodeList ∧ x ∉ ds) ∧
      (∀ x, x ∈ g'.plist ↔ x ∈ g.plist ∨ x ∈ ds) ∧
      (g'.nodeList ++ g'.plist).Perm (g.nodeList ++ g.plist) ∧
      (∀ x, g'.proc x = (g.proc x || decide (x ∈ ds))) ∧
      g'.plist.length ≤ g.plist.length + ds.length := by
  intro ds
  induction ds with
  | nil =>
    intro g _ _
    exact ⟨g, rfl, rfl, rfl, by simp, by simp, List.Perm.refl _, by simp, by simp⟩
  | cons d ds ih =>
    intro g h hnd
    rw [popDests]
    by_cases hp : g.proc d = true
    · rw [if_pos hp]
      have hd : d ∈ g.plist := by
        rcases h d (by simp) with h1 | h1
        · rw [hp] at h1; simp at h1
        · exact h1.1
      have hdn : d ∉ g.nodeList := by
        intro h2
        rw [List.nodup_append] at hnd
        exact hnd.2.2 d h2 d hd rfl
      obtain ⟨g', e1, e2, e3, e4, e5, e6, e7, e8⟩ := ih g (fun x hx => h x (by simp [hx])) hnd
      refine ⟨g', e1, e2, e3, ?_, ?_, e6, ?_, by simp; omega⟩
      · intro x; rw [e4]; grind
      · intro x; rw [e5]; grind
      · intro x; rw [e7]; grind
    · rw [if_neg hp]
      have hd : d ∈ g.nodeList := by
        rcases h d (by simp) with h1 | h1
        · exact h1.1
        · exact absurd h1.2 hp
      rw [if_pos hd]
      have hperm : (g.nodeList.erase d ++ d :: g.plist).Perm (g.nodeList ++ g.plist) := by
        refine List.perm_middle.trans ?_
        exact (List.Perm.append_right _ (List.perm_cons_erase hd)).symm
      have hnl : g.nodeList.Nodup := (List.nodup_append.1 hnd).1
      obtain ⟨g', e1, e2, e3, e4, e5, e6, e7, e8⟩ := ih
        { g with nodeList := g.nodeList.erase d, plist := d :: g.plist, proc := upd g.proc d true }
        (by
          intro x hx
          simp only [upd_apply]
          by_cases hxd : x = d
          · right; simp [hxd]
          · rcases h x (by simp [hx]) with h1 | h1
            · left; simp only [if_neg hxd]; exact ⟨(List.mem_erase_of_ne hxd).2 h1.1, h1.2⟩
            · right; simp only [if_neg hxd]; exact ⟨List.mem_cons_of_mem _ h1.1, h1.2⟩)
        (hperm.nodup_iff.2 hnd)
      refine ⟨g', e1, e2, e3, ?_, ?_, e6.trans hperm, ?_, ?_⟩
      · intro x
        rw [e4]
        simp only [hnl.mem_erase_iff, List.mem_cons, not_or]
        grind
      · intro x; rw [e5]; simp only [List.mem_cons]; grind
      · intro x; rw [e7]; simp only [upd_apply, List.mem_cons]; grind
      · simp only [List.length_cons] at e8 ⊢; omega

theorem popDests_mono : ∀ (ds : List Nat) (g g' : Graph), popDests ds g = some g' →
    g'.edges = g.edges ∧ g'.trans = g.trans ∧ g'.plist.length ≤ g.plist.length + ds.length := by
  intro ds
  induction ds with
  | nil => intro g g' h; injection h with h; subst h; simp
  | cons d ds ih =>
    intro g g' h
    rw [popDests] at h
    split at h
    · obtain ⟨h1, h2, h3⟩ := ih g g' h
      exact ⟨h1, h2, by simp only [List.length_cons]; omega⟩
    · split at h
      · obtain ⟨h1, h2, h3⟩ := ih _ g' h
        exact ⟨h1, h2, by simp only [List.length_cons] at h3 ⊢; omega⟩
      · cases h

theorem popNode_trans_ne {g g' : Graph} {n : Nat} (h : popNode g n = some g')
    (ht : g.trans n = .delete) : g'.trans n = .delete := by
  unfold popNode at h
  simp only at h
  split at h
  · cases h
  · rename_i g1 h1
    rw [if_neg (by rw [ht]; simp)] at h
    injection h with h; subst h
    rw [(popDests_mono _ _ _ h1).2.1]; exact ht

/-- Graph part of the invariant.  `held` are the nodes that are on no list but not finished either. -/
structure GInv (g0 : Graph) (root : Nat) (rest : List Nat) (g : Graph) (held popped failedL : List Nat) :
    Prop where
  nodup : (g.nodeList ++ g.plist ++ held).Nodup
  sub : ∀ x, x ∈ g.nodeList ++ g.plist ++ held → x ∈ root :: rest
  cover : ∀ x ∈ root :: rest, x ∈ g.nodeList ++ g.plist ++ held ∨ x ∈ popped
  dst : ∀ a b, (a, b) ∈ g.edges →
    (b ∈ g.nodeList ∧ g.proc b = false) ∨ (b ∈ g.plist ∧ g.proc b = true)
  src : ∀ a b, (a, b) ∈ g.edges → a ∈ g.nodeList ++ g.plist ++ held
  fail : ∀ x ∈ failedL, x ∈ g.nodeList ∧ ∀ a, (a, x) ∉ g.edges
  wait : ∀ x ∈ g.nodeList, x ∈ failedL ∨ ∃ a, (a, x) ∈ g.edges
  hist : ∀ a b, (a, b) ∈ g0.edges → (a, b) ∈ g.edges ∨ a ∈ popped
  orig : ∀ a b, (a, b) ∈ g.edges → (a, b) ∈ g0.edges ∨ (g.trans b = .delete ∧ (b, a) ∈ g0.edges)
  tr : ∀ x, g.trans x = g0.trans x ∨ (g0.trans x = .processing ∧ g.trans x = .delete)
  delPop : ∀ x, g.trans x = .delete → x ∈ popped ∧ ∀ b, (x, b) ∉ g.edges
  delEdge : ∀ x d, g.trans x = .delete → (x, d) ∈ g0.edges → (d, x) ∈ g.edges ∨ d ∈ popped
  popLive : ∀ x ∈ popped, x ∈ g.nodeList ++ g.plist ++ held → g.trans x = .delete
  popOrder : ∀ x ∈ popped, ∀ a, (a, x) ∈ g0.edges → a ∈ popped
  heldEdge : ∀ x ∈ held, ∀ a, (a, x) ∉ g.edges

variable {g0 : Graph} {root : Nat} {rest : List Nat} {g : Graph} {held popped failedL : List Nat}

theorem GInv.perm {held' : List Nat} (h : GInv g0 root rest g held popped failedL)
    (hp : held.Perm held') : GInv g0 root rest g held' popped failedL := by
  have hp' : (g.nodeList ++ g.plist ++ held).Perm (g.nodeList ++ g.plist ++ held') :=
    List.Perm.append_left _ hp
  constructor
  · exact hp'.nodup_iff.1 h.nodup
  · intro x hx; exact h.sub x (hp'.mem_iff.2 hx)
  · intro x hx; rw [← hp'.mem_iff]; exact h.cover x hx
  · exact h.dst
  · intro a b hab; exact hp'.mem_iff.1 (h.src a b hab)
  · exact h.fail
  · exact h.wait
  · exact h.hist
  · exact h.orig
  · exact h.tr
  · exact h.delPop
  · exact h.delEdge
  · intro x hx hl; exact h.popLive x hx (hp'.mem_iff.2 hl)
  · exact h.popOrder
  · intro x hx; exact h.heldEdge x (hp.mem_iff.2 hx)

/-- handing the first node of plist out -/
theorem GInv.take {n : Nat} {ps : List Nat} (h : GInv g0 root rest g held popped failedL)
    (hp : g.plist = n :: ps) (hin : ∀ a, (a, n) ∉ g.edges) :
    GInv g0 root rest { g with plist := ps } (n :: held) popped failedL := by
  have hmem : ∀ x, x ∈ g.nodeList ++ ps ++ n :: held ↔ x ∈ g.nodeList ++ g.plist ++ held := by
    intro x; rw [hp]; simp only [List.mem_append, List.mem_cons]; grind
  have hperm : (g.nodeList ++ ps ++ n :: held).Perm (g.nodeList ++ g.plist ++ held) := by
    rw [hp]
    refine List.perm_middle.trans ?_
    simp only [List.append_assoc]
    exact (List.perm_middle).symm
  constructor
  · exact hperm.nodup_iff.2 h.nodup
  · intro x hx; exact h.sub x ((hmem x).1 hx)
  · intro x hx; have := h.cover x hx; rw [← hmem x] at this; exact this
  · intro a b hab
    have := h.dst a b hab
    rw [hp] at this
    have hne : b ≠ n := fun e => hin a (e ▸ hab)
    simp only [List.mem_cons] at this
    grind
  · intro a b hab; exact (hmem a).2 (h.src a b hab)
  · exact h.fail
  · exact h.wait
  · exact h.hist
  · exact h.orig
  · exact h.tr
  · exact h.delPop
  · exact h.delEdge
  · intro x hx hl; exact h.popLive x hx ((hmem x).1 hl)
  · exact h.popOrder
  · intro x hx a
    rcases List.mem_cons.1 hx with rfl | hx
    · exact hin a
    · exact h.heldEdge x hx a

/-- putting the first node of plist back on node_list -/
theorem GInv.back {n : Nat} {ps : List Nat} (h : GInv g0 root rest g held popped failedL)
    (hp : g.plist = n :: ps) (hin : ∃ a, (a, n) ∈ g.edges) :
    GInv g0 root rest { g with plist := ps, nodeList := n :: g.nodeList, proc := upd g.proc n false }
      held popped failedL := by
  have hmem : ∀ x, x ∈ n :: g.nodeList ++ ps ++ held ↔ x ∈ g.nodeList ++ g.plist ++ held := by
    intro x; rw [hp]; simp only [List.mem_append, List.mem_cons]; grind
  have hperm : (n :: g.nodeList ++ ps ++ held).Perm (g.nodeList ++ g.plist ++ held) := by
    rw [hp]
    simp only [List.append_assoc, List.cons_append]
    exact (List.perm_middle).symm
  have hnd := hperm.nodup_iff.2 h.nodup
  constructor
  · exact hnd
  · intro x hx; exact h.sub x ((hmem x).1 hx)
  · intro x hx; have := h.cover x hx; rw [← hmem x] at this; exact this
  · intro a b hab
    have := h.dst a b hab
    rw [hp] at this
    simp only [List.mem_cons, upd_apply] at this ⊢
    grind
  · intro a b hab; exact (hmem a).2 (h.src a b hab)
  · intro x hx
    exact ⟨List.mem_cons_of_mem _ (h.fail x hx).1, (h.fail x hx).2⟩
  · intro x hx
    rcases List.mem_cons.1 hx with rfl | hx
    · exact Or.inr hin
    · exact h.wait x hx
  · exact h.hist
  · exact h.orig
  · exact h.tr
  · exact h.delPop
  · exact h.delEdge
  · intro x hx hl; exact h.popLive x hx ((hmem x).1 hl)
  · exact h.popOrder
  · exact h.heldEdge

/-- a failed job -/
theorem GInv.failNode {n : Nat} (h : GInv g0 root rest g (n :: held) popped failedL) :
    (n ∉ g.nodeList ∧ n ∉ g.plist) ∧
    GInv g0 root rest { g with nodeList := g.nodeList ++ [n] } held popped (n :: failedL) := by
  have hmem : ∀ x, x ∈ g.nodeList ++ [n] ++ g.plist ++ held ↔
      x ∈ g.nodeList ++ g.plist ++ n :: held := by
    intro x; simp only [List.mem_append, List.mem_cons]; grind
  have hperm : (g.nodeList ++ [n] ++ g.plist ++ held).Perm (g.nodeList ++ g.plist ++ n :: held) := by
    simp only [List.append_assoc]
    refine List.Perm.append_left _ ?_
    simp only [List.singleton_append]
    exact (List.perm_middle).symm
  have hn : n ∉ g.nodeList ∧ n ∉ g.plist := by
    have := h.nodup
    rw [List.nodup_append] at this
    have h2 := this.2.2
    constructor
    · intro hc; exact h2 n (by simp [hc]) n (by simp) rfl
    · intro hc; exact h2 n (by simp [hc]) n (by simp) rfl
  refine ⟨hn, ?_⟩
  have hne := h.heldEdge n (by simp)
  constructor
  · exact hperm.nodup_iff.2 h.nodup
  · intro x hx; exact h.sub x ((hmem x).1 hx)
  · intro x hx; have := h.cover x hx; rw [← hmem x] at this; exact this
  · intro a b hab
    have := h.dst a b hab
    simp only [List.mem_append]
    grind
  · intro a b hab; exact (hmem a).2 (h.src a b hab)
  · intro x hx
    rcases List.mem_cons.1 hx with rfl | hx
    · exact ⟨by simp, hne⟩
    · exact ⟨List.mem_append_left _ (h.fail x hx).1, (h.fail x hx).2⟩
  · intro x hx
    rcases List.mem_append.1 hx with hx | hx
    · rcases h.wait x hx with h1 | h1
      · exact Or.inl (by simp [h1])
      · exact Or.inr h1
    · left; simp at hx; simp [hx]
  · exact h.hist
  · exact h.orig
  · exact h.tr
  · exact h.delPop
  · exact h.delEdge
  · intro x hx hl; exact h.popLive x hx ((hmem x).1 hl)
  · exact h.popOrder
  · intro x hx; exact h.heldEdge x (by simp [hx])

/-- popping a node that has no incoming edges -/
theorem GInv.pop {n : Nat} (hwf : WF g0 root rest)
    (h : GInv g0 root rest g (n :: held) popped failedL) :
    ∃ g', popNode g n = some g' ∧ GInv g0 root rest g' held (n :: popped) failedL ∧
      (∀ x, x ∈ g'.nodeList → x ∈ g.nodeList ∨ (x = n ∧ g'.trans n = .delete)) ∧
      (∀ x, x ∈ g'.plist → x ∈ g.plist ∨ x ∈ g.nodeList ∨ (x = n ∧ g'.trans n = .delete)) ∧
      (∀ x, x ∈ g'.plist → x ∉ failedL) ∧
      (∀ x, x ≠ n → g'.trans x = g.trans x) ∧
      (g.trans n = .delete → n ∉ g'.nodeList ∧ n ∉ g'.plist) := by
  have hnd := h.nodup
  have hnd2 := hnd
  rw [List.nodup_append] at hnd2
  have hn : n ∉ g.nodeList ∧ n ∉ g.plist ∧ n ∉ held := by
    refine ⟨fun hc => hnd2.2.2 n (by simp [hc]) n (by simp) rfl,
      fun hc => hnd2.2.2 n (by simp [hc]) n (by simp) rfl, ?_⟩
    exact (List.nodup_cons.1 hnd2.2.1).1
  have hdisj : ∀ x, x ∈ g.nodeList → x ∉ g.plist := by
    intro x h1 h2
    have := hnd2.1
    rw [List.nodup_append] at this
    exact this.2.2 x h1 x h2 rfl
  have hheld : ∀ x ∈ held, x ∉ g.nodeList ∧ x ∉ g.plist := by
    intro x hx
    refine ⟨fun hc => hnd2.2.2 x (by simp [hc]) x (by simp [hx]) rfl,
      fun hc => hnd2.2.2 x (by simp [hc]) x (by simp [hx]) rfl⟩
  have hnin := h.heldEdge n (by simp)
  have hself : (n, n) ∉ g.edges := hnin n
  obtain ⟨g1, e1, e2, e3, e4, e5, e6, e7, _⟩ := popDests_spec (g.outs n) g
    (fun d hd => h.dst n d (mem_outs.1 hd)) hnd2.1
  have hn1 : n ∉ g1.nodeList ∧ n ∉ g1.plist := by
    refine ⟨fun hc => hn.1 ((e4 n).1 hc).1, fun hc => ?_⟩
    rcases (e5 n).1 hc with h1 | h1
    · exact hn.2.1 h1
    · exact hself (mem_outs.1 h1)
  have hpredPop : ∀ a, (a, n) ∈ g0.edges → a ∈ popped := by
    intro a ha
    rcases h.hist a n ha with h1 | h1
    · exact absurd h1 (hnin a)
    · exact h1
  by_cases htr : g.trans n = .processing
  · -- transient
    have hnp : n ∉ popped := by
      intro hc
      have := h.popLive n hc (by simp)
      rw [htr] at this; cases this
    have ht0 : g0.trans n = .processing := by
      rcases h.tr n with h1 | h1
      · rw [← h1]; exact htr
      · exact h1.1
    let ds := g.outs n
    refine ⟨{ nodeList := if ds ≠ [] then n :: g1.nodeList else g1.nodeList
              plist := if ds ≠ [] then g1.plist else n :: g1.plist
              edges := ds.map (·, n) ++ g1.edges.filter (·.1 ≠ n)
              proc := upd g1.proc n false
              trans := upd g1.trans n .delete }, ?_, ?_⟩
    · simp only [popNode, e1]
      rw [if_pos htr, if_neg (by grind)]
    have hedge : ∀ a b, (a, b) ∈ ds.map (·, n) ++ g1.edges.filter (·.1 ≠ n) ↔
        (b = n ∧ (n, a) ∈ g.edges) ∨ (a ≠ n ∧ (a, b) ∈ g.edges) := by
      intro a b
      rw [List.mem_append, e2]
      have : (a, b) ∈ ds.map (·, n) ↔ (b = n ∧ (n, a) ∈ g.edges) := by
        simp only [List.mem_map, Prod.mk.injEq]
        constructor
        · rintro ⟨x, hx, rfl, rfl⟩; exact ⟨rfl, mem_outs.1 hx⟩
        · rintro ⟨rfl, hx⟩; exact ⟨a, mem_outs.2 hx, rfl, rfl⟩
      rw [this]
      simp only [List.mem_filter, decide_not, Bool.not_eq_true', decide_eq_false_iff_not, ne_eq]
      grind
    have hmem : ∀ x, x ∈ (if ds ≠ [] then n :: g1.nodeList else g1.nodeList) ++
        (if ds ≠ [] then g1.plist else n :: g1.plist) ++ held ↔
        x ∈ g.nodeList ++ g.plist ++ n :: held := by
      intro x
      have hp := e6.mem_iff (a := x)
      simp only [List.mem_append, List.mem_cons] at hp ⊢
      split <;> simp only [List.mem_cons] <;> grind
    have hperm : ((if ds ≠ [] then n :: g1.nodeList else g1.nodeList) ++
        (if ds ≠ [] then g1.plist else n :: g1.plist) ++ held).Perm
        (g.nodeList ++ g.plist ++ n :: held) := by
      have hb : (n :: (g1.nodeList ++ g1.plist ++ held)).Perm (g.nodeList ++ g.plist ++ n :: held) := by
        refine ((e6.append_right held).cons n).trans ?_
        exact List.perm_middle.symm
      split
      · simpa using hb
      · refine List.Perm.trans ?_ hb
        simp only [List.append_assoc, List.cons_append]
        exact List.perm_middle
    have hdsne : ∀ d, (n, d) ∈ g.edges → ds ≠ [] := by
      intro d hd hc
      have := mem_outs.2 hd
      change d ∈ ds at this
      rw [hc] at this; simp at this
    have hoE0 : ∀ d, (n, d) ∈ g.edges → (n, d) ∈ g0.edges := by
      intro d hd
      rcases h.orig n d hd with h1 | ⟨h1, h2⟩
      · exact h1
      · have hd' := h.tr d
        rw [h1] at hd'
        rcases hd' with h3 | h3
        · exact absurd h3.symm (hwf.notDelete d)
        · have := hwf.transEdge d n h2 h3.1
          rw [this] at ht0; cases ht0
    have hdt : ∀ d, (n, d) ∈ g.edges → g.trans d ≠ .delete := by
      intro d hd hc
      have h1 := hwf.transEdge n d (hoE0 d hd) ht0
      have h2 := h.tr d
      rw [h1, hc] at h2
      rcases h2 with h2 | h2
      · cases h2
      · cases h2.1
    refine ⟨?_, ?_, ?_, ?_, ?_, ?_⟩
    · constructor
      · exact hperm.nodup_iff.2 hnd
      · intro x hx; exact h.sub x ((hmem x).1 hx)
      · intro x hx
        rcases h.cover x hx with h1 | h1
        · left; exact (hmem x).2 h1
        · right; simp [h1]
      · intro a b hab
        simp only [upd_apply]
        rcases (hedge a b).1 hab with ⟨rfl, hna⟩ | ⟨hne, hab'⟩
        · left
          rw [if_pos (hdsne a hna)]
          simp
        · have hbn : b ≠ n := fun e => hnin a (e ▸ hab')
          rw [if_neg hbn, e7]
          have hd := h.dst a b hab'
          by_cases hb : b ∈ g.outs n
          · right
            refine ⟨?_, by simp [hb]⟩
            have : b ∈ g1.plist := (e5 b).2 (Or.inr hb)
            split <;> simp [this]
          · rcases hd with h1 | h1
            · left
              have : b ∈ g1.nodeList := (e4 b).2 ⟨h1.1, hb⟩
              refine ⟨by split <;> simp [this], by simp [hb, h1.2]⟩
            · right
              have : b ∈ g1.plist := (e5 b).2 (Or.inl h1.1)
              refine ⟨by split <;> simp [this], by simp [h1.2]⟩
      · intro a b hab
        apply (hmem a).2
        rcases (hedge a b).1 hab with ⟨rfl, hna⟩ | ⟨hne, hab'⟩
        · have := h.dst _ a hna
          simp only [List.mem_append]
          grind
        · exact h.src a b hab'
      · intro x hx
        have hf := h.fail x hx
        have hxn : x ≠ n := fun e => hn.1 (e ▸ hf.1)
        refine ⟨?_, ?_⟩
        · have : x ∈ g1.nodeList := (e4 x).2 ⟨hf.1, fun hc => hf.2 n (mem_outs.1 hc)⟩
          dsimp only
          split <;> simp [this]
        · intro a ha
          rcases (hedge a x).1 ha with h1 | h1
          · exact hxn h1.1
          · exact hf.2 a h1.2
      · intro x hx
        have hx' : (x = n ∧ ds ≠ []) ∨ x ∈ g1.nodeList := by
          dsimp only at hx
          split at hx
          · rcases List.mem_cons.1 hx with h1 | h1
            · left; constructor <;> assumption
            · right; exact h1
          · right; exact hx
        rcases hx' with ⟨rfl, hds⟩ | hx'
        · right
          obtain ⟨d, hd⟩ := List.exists_mem_of_ne_nil _ hds
          exact ⟨d, (hedge d x).2 (Or.inl ⟨rfl, mem_outs.1 hd⟩)⟩
        · obtain ⟨h1, h2⟩ := (e4 x).1 hx'
          rcases h.wait x h1 with h3 | ⟨a, h3⟩
          · left; exact h3
          · right
            refine ⟨a, (hedge a x).2 (Or.inr ⟨?_, h3⟩)⟩
            rintro rfl
            exact h2 (mem_outs.2 h3)
      · intro a b hab
        by_cases han : a = n
        · right; simp [han]
        · rcases h.hist a b hab with h1 | h1
          · left; exact (hedge a b).2 (Or.inr ⟨han, h1⟩)
          · right; simp [h1]
      · intro a b hab
        simp only [upd_apply, e3]
        rcases (hedge a b).1 hab with ⟨rfl, hna⟩ | ⟨hne, hab'⟩
        · right; exact ⟨by simp, hoE0 a hna⟩
        · rcases h.orig a b hab' with h1 | h1
          · left; exact h1
          · right; refine ⟨?_, h1.2⟩; split
            · rfl
            · exact h1.1
      · intro x
        simp only [upd_apply, e3]
        by_cases hx : x = n
        · right; rw [if_pos hx, hx]; exact ⟨ht0, rfl⟩
        · rw [if_neg hx]; exact h.tr x
      · intro x hx
        simp only [upd_apply, e3] at hx
        by_cases hxn : x = n
        · refine ⟨by simp [hxn], ?_⟩
          intro b hb
          rcases (hedge x b).1 hb with h1 | h1
          · rw [hxn] at h1; exact hself h1.2
          · exact h1.1 hxn
        · rw [if_neg hxn] at hx
          have := h.delPop x hx
          refine ⟨by simp [this.1], ?_⟩
          intro b hb
          rcases (hedge x b).1 hb with h1 | h1
          · exact hdt x h1.2 hx
          · exact this.2 b h1.2
      · intro x d hx hxd
        simp only [upd_apply, e3] at hx
        by_cases hxn : x = n
        · subst hxn
          rcases h.hist x d hxd with h1 | h1
          · left; exact (hedge d x).2 (Or.inl ⟨rfl, h1⟩)
          · exact absurd h1 hnp
        · rw [if_neg hxn] at hx
          rcases h.delEdge x d hx hxd with h1 | h1
          · by_cases hdn : d = n
            · right; simp [hdn]
            · left; exact (hedge d x).2 (Or.inr ⟨hdn, h1⟩)
          · right; simp [h1]
      · intro x hx hl
        simp only [upd_apply, e3]
        by_cases hxn : x = n
        · rw [if_pos hxn]
        · rw [if_neg hxn]
          rcases List.mem_cons.1 hx with h1 | h1
          · exact absurd h1 hxn
          · exact h.popLive x h1 ((hmem x).1 hl)
      · intro x hx a ha
        rcases List.mem_cons.1 hx with rfl | h1
        · simp [hpredPop a ha]
        · simp [h.popOrder x h1 a ha]
      · intro x hx a ha
        rcases (hedge a x).1 ha with h1 | h1
        · exact hn.2.2 (h1.1 ▸ hx)
        · exact h.heldEdge x (by simp [hx]) a h1.2
    · intro x hx
      dsimp only at hx
      split at hx
      · rcases List.mem_cons.1 hx with h1 | h1
        · right; exact ⟨h1, by simp⟩
        · left; exact ((e4 x).1 h1).1
      · left; exact ((e4 x).1 hx).1
    · intro x hx
      have hx' : x = n ∨ x ∈ g1.plist := by
        dsimp only at hx
        split at hx
        · right; exact hx
        · exact List.mem_cons.1 hx
      rcases hx' with h1 | h1
      · right; right; exact ⟨h1, by simp⟩
      · rcases (e5 x).1 h1 with h2 | h2
        · left; exact h2
        · have := h.dst n x (mem_outs.1 h2)
          grind
    · intro x hx hf
      have hff := h.fail x hf
      have hx' : x = n ∨ x ∈ g1.plist := by
        dsimp only at hx
        split at hx
        · right; exact hx
        · exact List.mem_cons.1 hx
      rcases hx' with h1 | h1
      · exact hn.1 (h1 ▸ hff.1)
      · rcases (e5 x).1 h1 with h2 | h2
        · exact hdisj x hff.1 h2
        · exact hff.2 n (mem_outs.1 h2)
    · intro x hx; simp only [upd_apply, if_neg hx, e3]
    · intro hc; rw [htr] at hc; cases hc
  · -- ordinary node, or transient file already handled: removed from the graph
    refine ⟨{ g1 with edges := g1.edges.filter (·.1 ≠ n) }, ?_, ?_⟩
    · simp only [popNode, e1]
      rw [if_neg htr]
    have hedge : ∀ a b, (a, b) ∈ g1.edges.filter (·.1 ≠ n) ↔ (a ≠ n ∧ (a, b) ∈ g.edges) := by
      intro a b
      rw [e2]
      simp only [List.mem_filter, decide_not, Bool.not_eq_true', decide_eq_false_iff_not, ne_eq]
      grind
    have hmem : ∀ x, x ∈ g1.nodeList ++ g1.plist ++ held ↔
        x ∈ g.nodeList ++ g.plist ++ n :: held ∧ x ≠ n := by
      intro x
      have hp := e6.mem_iff (a := x)
      simp only [List.mem_append, List.mem_cons] at hp ⊢
      grind
    have hperm : (n :: (g1.nodeList ++ g1.plist ++ held)).Perm (g.nodeList ++ g.plist ++ n :: held) := by
      refine ((e6.append_right held).cons n).trans ?_
      exact List.perm_middle.symm
    refine ⟨?_, ?_, ?_, ?_, ?_, ?_⟩
    · constructor
      · exact (List.nodup_cons.1 (hperm.nodup_iff.2 hnd)).2
      · intro x hx; exact h.sub x ((hmem x).1 hx).1
      · intro x hx
        by_cases hxn : x = n
        · right; simp [hxn]
        · rcases h.cover x hx with h1 | h1
          · left; exact (hmem x).2 ⟨h1, hxn⟩
          · right; simp [h1]
      · intro a b hab
        have hab' := ((hedge a b).1 hab).2
        have hd := h.dst a b hab'
        simp only
        rw [e7]
        by_cases hb : b ∈ g.outs n
        · right; exact ⟨(e5 b).2 (Or.inr hb), by simp [hb]⟩
        · rcases hd with h1 | h1
          · left; exact ⟨(e4 b).2 ⟨h1.1, hb⟩, by simp [hb, h1.2]⟩
          · right; exact ⟨(e5 b).2 (Or.inl h1.1), by simp [h1.2]⟩
      · intro a b hab
        exact (hmem a).2 ⟨h.src a b ((hedge a b).1 hab).2, ((hedge a b).1 hab).1⟩
      · intro x hx
        have hf := h.fail x hx
        refine ⟨(e4 x).2 ⟨hf.1, fun hc => hf.2 n (mem_outs.1 hc)⟩, ?_⟩
        intro a ha
        exact hf.2 a ((hedge a x).1 ha).2
      · intro x hx
        obtain ⟨h1, h2⟩ := (e4 x).1 hx
        rcases h.wait x h1 with h3 | ⟨a, h3⟩
        · left; exact h3
        · right
          refine ⟨a, (hedge a x).2 ⟨?_, h3⟩⟩
          rintro rfl
          exact h2 (mem_outs.2 h3)
      · intro a b hab
        by_cases han : a = n
        · right; simp [han]
        · rcases h.hist a b hab with h1 | h1
          · left; exact (hedge a b).2 ⟨han, h1⟩
          · right; simp [h1]
      · intro a b hab
        simp only [e3]
        exact h.orig a b ((hedge a b).1 hab).2
      · intro x; simp only [e3]; exact h.tr x
      · intro x hx
        simp only [e3] at hx
        have := h.delPop x hx
        exact ⟨by simp [this.1], fun b hb => this.2 b ((hedge x b).1 hb).2⟩
      · intro x d hx hxd
        simp only [e3] at hx
        by_cases hdn : d = n
        · right; simp [hdn]
        · rcases h.delEdge x d hx hxd with h1 | h1
          · left; exact (hedge d x).2 ⟨hdn, h1⟩
          · right; simp [h1]
      · intro x hx hl
        simp only [e3]
        have hl' := (hmem x).1 hl
        rcases List.mem_cons.1 hx with h1 | h1
        · exact absurd h1 hl'.2
        · exact h.popLive x h1 hl'.1
      · intro x hx a ha
        rcases List.mem_cons.1 hx with rfl | h1
        · simp [hpredPop a ha]
        · simp [h.popOrder x h1 a ha]
      · intro x hx a ha
        exact h.heldEdge x (by simp [hx]) a ((hedge a x).1 ha).2
    · intro x hx; left; exact ((e4 x).1 hx).1
    · intro x hx
      rcases (e5 x).1 hx with h2 | h2
      · left; exact h2
      · have := h.dst n x (mem_outs.1 h2)
        grind
    · intro x hx hf
      have hff := h.fail x hf
      rcases (e5 x).1 hx with h2 | h2
      · exact hdisj x hff.1 h2
      · exact hff.2 n (mem_outs.1 h2)
    · intro x _; simp only [e3]
    · intro _; exact hn1

variable {D : Type}

/-- The full invariant. -/
structure Inv (c : Cfg) (g0 : Graph) (root : Nat) (rest : List Nat) (s : S D) : Prop where
  gi : GInv g0 root rest s.g (s.running ++ s.fin.map (·.1)) s.popped s.failedL
  noAbort : s.pc ≠ .abort
  le : s.active ≤ c.jobs
  loopLt : s.pc = .loop → s.active < c.jobs
  loopIdle : s.pc = .loop → (s.g.plist = [] ∨ (0 < s.failed ∧ c.keepGoing = false)) → s.active = 0
  doneTrue : s.pc = .done true →
    s.failed = 0 ∧ s.g.nodeList = [] ∧ s.g.plist = [] ∧ s.active = 0
  doneIdle : ∀ b, s.pc = .done b → s.dead = false →
    s.active = 0 ∧ (s.g.plist = [] ∨ (0 < s.failed ∧ c.keepGoing = false)) ∧
      (s.failed = 0 → s.g.nodeList = [] → s.g.plist = [] → b = true)
  failCount : s.failed = s.failedL.length
  startedNodup : s.started.Nodup
  cleanedNodup : s.cleaned.Nodup
  startedOrder : ∀ x ∈ s.started, ∀ a, (a, x) ∈ g0.edges → a ∈ s.popped
  cleanedOrder : ∀ x ∈ s.cleaned, ∀ d, (x, d) ∈ g0.edges → d ∈ s.popped
  cleanedTr : ∀ x ∈ s.cleaned, s.g.trans x = .delete
  pend : ∀ x, x ∈ s.g.plist ∨ (x ∈ s.g.nodeList ∧ x ∉ s.failedL) →
    (s.g.trans x ≠ .delete → x ∉ s.started) ∧ (s.g.trans x = .delete → x ∉ s.cleaned)
  heldStart : ∀ x ∈ s.running ++ s.fin.map (·.1),
    (s.g.trans x ≠ .delete → x ∈ s.started) ∧ (s.g.trans x = .delete → x ∈ s.cleaned)
  failHow : ∀ x ∈ s.failedL,
    (s.g.trans x ≠ .delete → x ∈ s.started) ∧ (s.g.trans x = .delete → x ∈ s.cleaned)
  poppedHow : ∀ x ∈ s.popped, x = root ∨ x ∈ s.started ∨ c.expanded x = false
  poppedSub : ∀ x ∈ s.popped, x ∈ root :: rest
  startedSub : ∀ x ∈ s.started, x ∈ rest
  startedExp : ∀ x ∈ s.started, c.expanded x = true

theorem GInv.root_held (h : GInv g0 root rest g held popped failedL) (hwf : WF g0 root rest)
    (hr : root ∈ popped) : root ∉ g.nodeList ++ g.plist ++ held := by
  intro hc
  have h1 := h.popLive root hr hc
  have h2 := h.tr root
  rw [h1, hwf.rootTrans] at h2
  rcases h2 with h2 | h2
  · cases h2
  · cases h2.1

theorem start_inv {c : Cfg} (hj : 0 < c.jobs) (hwf : WF g0 root rest) (db : D) :
    ∃ s0 : S D, start g0 db = some s0 ∧ Inv c g0 root rest s0 ∧ s0.popped = [root] ∧
      s0.dead = false ∧ s0.failed = 0 ∧ s0.pc = .loop ∧ s0.db = db := by
  have hrr : root ∉ rest := (List.nodup_cons.1 hwf.nodup).1
  have hg : GInv g0 root rest { g0 with nodeList := rest } [root] [] [] := by
    constructor
    · simp only [hwf.plist, List.append_nil]
      rw [List.nodup_append]
      refine ⟨(List.nodup_cons.1 hwf.nodup).2, by simp, ?_⟩
      intro a ha b hb hab
      simp only [List.mem_singleton] at hb
      exact hrr (hb ▸ hab ▸ ha)
    · intro x hx
      simp only [hwf.plist, List.append_nil, List.mem_append, List.mem_cons, List.not_mem_nil,
        or_false] at hx ⊢
      exact hx.symm
    · intro x hx
      left
      simp only [hwf.plist, List.append_nil, List.mem_append, List.mem_cons, List.not_mem_nil,
        or_false] at hx ⊢
      exact hx.symm
    · intro a b hab
      left; exact ⟨hwf.dst a b hab, hwf.noproc b (hwf.dst a b hab)⟩
    · intro a b hab
      have := hwf.src a b hab
      simp only [hwf.plist, List.append_nil, List.mem_append, List.mem_cons, List.not_mem_nil,
        or_false] at this ⊢
      exact this.symm
    · intro x hx; simp at hx
    · intro x hx; right; exact hwf.reach x hx
    · intro a b hab; left; exact hab
    · intro a b hab; left; exact hab
    · intro x; left; rfl
    · intro x hx; exact absurd hx (hwf.notDelete x)
    · intro x d hx; exact absurd hx (hwf.notDelete x)
    · intro x hx; simp at hx
    · intro x hx; simp at hx
    · intro x hx a ha
      simp only [List.mem_singleton] at hx
      exact hrr (hx ▸ hwf.dst a x ha)
  obtain ⟨g', e1, e2, e3, e4, e5, e6, e7⟩ := hg.pop hwf
  refine ⟨{ g := g', running := [], fin := [], dead := false, failed := 0, pc := .loop, db := db,
            started := [], cleaned := [], popped := [root], failedL := [] }, ?_, ?_, rfl, rfl, rfl, rfl, rfl⟩
  · simp only [start, hwf.nodes, e1, Option.map_some]
  · constructor <;> simp_all [S.active]

/-- One step of the main thread preserves the invariant. -/
theorem main_inv {c : Cfg} (hwf : WF g0 root rest) {s s' : S D}
    (h : Inv c g0 root rest s) (hr : root ∈ s.popped) (hm : mainStep c s = some s') :
    Inv c g0 root rest s' := by
  have hrl := h.gi.root_held hwf hr
  unfold mainStep at hm
  split at hm
  · -- loop head
    rename_i hpc
    split at hm
    · -- plist empty
      rename_i hpl
      injection hm with hm; subst hm
      have hidle := h.loopIdle hpc (Or.inl hpl)
      exact { h with
        noAbort := by simp [exitLoop]
        loopLt := by simp [exitLoop]
        loopIdle := by simp [exitLoop]
        doneTrue := by
          intro hd
          simp only [exitLoop, PC.done.injEq, Bool.and_eq_true, decide_eq_true_eq] at hd
          exact ⟨hd.1.1.2, hd.1.2, hd.2, hidle⟩
        doneIdle := by
          intro b hd hdead
          simp only [exitLoop] at hd hdead ⊢
          refine ⟨hidle, Or.inl hpl, ?_⟩
          intro e1 e2 e3
          simp only [PC.done.injEq] at hd
          rw [← hd]; simp [hdead, e1, e2, e3] }
    · rename_i n ps hpl
      split at hm
      · -- dead or failed
        rename_i hstop
        injection hm with hm; subst hm
        exact { h with
          noAbort := by simp [exitLoop]
          loopLt := by simp [exitLoop]
          loopIdle := by simp [exitLoop]
          doneTrue := by
            intro hd
            simp only [exitLoop, PC.done.injEq, Bool.and_eq_true, decide_eq_true_eq] at hd
            rw [hpl] at hd; simp at hd
          doneIdle := by
            intro b hd hdead
            simp only [exitLoop] at hd hdead ⊢
            simp only [hdead, Bool.false_or, Bool.and_eq_true, decide_eq_true_eq,
              Bool.not_eq_true'] at hstop
            refine ⟨h.loopIdle hpc (Or.inr hstop), Or.inr hstop, ?_⟩
            intro e1; omega }
      · rename_i hgo
        split at hm
        · -- still has incoming edges
          rename_i hinc
          injection hm with hm; subst hm
          have hin := hasIncoming_iff.1 hinc
          exact { h with
            gi := h.gi.back hpl hin
            noAbort := by simp
            loopLt := by simp
            loopIdle := by simp
            doneTrue := by simp
            doneIdle := by simp
            pend := by
              intro x hx
              apply h.pend x
              rw [hpl]
              simp only [List.mem_cons] at hx ⊢
              have hf : n ∉ s.failedL := fun hc => (h.gi.fail n hc).2 _ hin.choose_spec
              grind }
        · rename_i hinc
          have hnin : ∀ a, (a, n) ∉ s.g.edges := by
            intro a ha; exact hinc (hasIncoming_iff.2 ⟨a, ha⟩)
          have htake := h.gi.take hpl hnin
          have hnl : n ∈ rest := by
            have h1 := h.gi.sub n (by simp [hpl])
            rcases List.mem_cons.1 h1 with h2 | h2
            · exact absurd (by rw [← h2]; simp [hpl]) hrl
            · exact h2
          have hnps : n ∉ ps ∧ n ∉ s.g.nodeList ∧ n ∉ s.running ++ s.fin.map (·.1) := by
            have := htake.nodup
            rw [List.nodup_append] at this
            refine ⟨fun hc => this.2.2 n (by simp [hc]) n (by simp) rfl,
              fun hc => this.2.2 n (by simp [hc]) n (by simp) rfl, ?_⟩
            exact (List.nodup_cons.1 this.2.1).1
          have hpendn := h.pend n (Or.inl (by simp [hpl]))
          split at hm
          · -- not expanded
            rename_i hexp
            obtain ⟨g', e1, e2, e3, e4, e5, e6, e7⟩ := htake.pop hwf
            rw [e1] at hm
            simp only at hm
            injection hm with hm; subst hm
            simp only at e3 e4 e5 e6 e7
            have htrd : ∀ x, g'.trans x = .delete → s.g.trans x = .delete ∨ x = n := by
              intro x hx
              by_cases hxn : x = n
              · right; exact hxn
              · left; rw [← e6 x hxn]; exact hx
            have hdtr : ∀ x, s.g.trans x = .delete → x ≠ n → g'.trans x = .delete := by
              intro x hx hxn; rw [e6 x hxn]; exact hx
            have hns : c.expanded n = false := by simpa using hexp
            exact { h with
              gi := e2
              noAbort := by simp
              loopLt := by simp
              loopIdle := by simp
              doneTrue := by simp
              doneIdle := by simp
              startedOrder := fun x hx a ha => List.mem_cons_of_mem _ (h.startedOrder x hx a ha)
              cleanedOrder := fun x hx a ha => List.mem_cons_of_mem _ (h.cleanedOrder x hx a ha)
              cleanedTr := by
                intro x hx
                by_cases hxn : x = n
                · exact absurd hx (by
                    have := h.cleanedTr x hx
                    rw [hxn] at this ⊢
                    exact hpendn.2 this)
                · exact hdtr x (h.cleanedTr x hx) hxn
              pend := by
                intro x hx
                by_cases hxn : x = n
                · subst hxn
                  have h1 : x ∉ s.started := fun hc => by
                    have := h.startedExp x hc; rw [hns] at this; cases this
                  refine ⟨fun _ => h1, fun _ hc => ?_⟩
                  exact hpendn.2 (h.cleanedTr x hc) hc
                · have hp := h.pend x (by
                    rw [hpl]
                    rcases hx with hx | hx
                    · have h5 := e5 x hx
                      rcases e4 x hx with h1 | h1 | h1
                      · left; simp [h1]
                      · right; exact ⟨h1, h5⟩
                      · exact absurd h1.1 hxn
                    · rcases e3 x hx.1 with h1 | h1
                      · right; exact ⟨h1, hx.2⟩
                      · exact absurd h1.1 hxn)
                  rw [e6 x hxn]; exact hp
              heldStart := by
                intro x hx
                have hxn : x ≠ n := fun e => hnps.2.2 (e ▸ hx)
                rw [e6 x hxn]; exact h.heldStart x hx
              failHow := by
                intro x hx
                have hxn : x ≠ n := fun e => hnps.2.1 (e ▸ (h.gi.fail x hx).1)
                rw [e6 x hxn]; exact h.failHow x hx
              poppedHow := by
                intro x hx
                rcases List.mem_cons.1 hx with rfl | hx
                · right; right; exact hns
                · exact h.poppedHow x hx
              poppedSub := by
                intro x hx
                rcases List.mem_cons.1 hx with rfl | hx
                · exact List.mem_cons_of_mem _ hnl
                · exact h.poppedSub x hx }
          · rename_i hexp
            split at hm
            · rename_i hfull
              have := h.loopLt hpc
              omega
            · -- start a job
              rename_i hfree
              injection hm with hm; subst hm
              have hnp : s.g.trans n ≠ .delete → n ∉ s.popped := fun ht hc =>
                ht (h.gi.popLive n hc (by simp [hpl]))
              exact { h with
                gi := htake
                noAbort := by simp
                le := by simp only [S.active, List.length_cons] at hfree ⊢; omega
                loopLt := by simp
                loopIdle := by simp
                doneTrue := by simp
                doneIdle := by simp
                startedNodup := by
                  simp only
                  split
                  · exact h.startedNodup
                  · rename_i ht
                    exact List.nodup_cons.2 ⟨hpendn.1 ht, h.startedNodup⟩
                cleanedNodup := by
                  simp only
                  split
                  · rename_i ht
                    exact List.nodup_cons.2 ⟨hpendn.2 ht, h.cleanedNodup⟩
                  · exact h.cleanedNodup
                startedOrder := by
                  intro x hx a ha
                  have hx' : x = n ∨ x ∈ s.started := by
                    simp only at hx; split at hx
                    · right; exact hx
                    · exact List.mem_cons.1 hx
                  rcases hx' with rfl | hx'
                  · rcases h.gi.hist a x ha with h1 | h1
                    · exact absurd h1 (hnin a)
                    · exact h1
                  · exact h.startedOrder x hx' a ha
                cleanedOrder := by
                  intro x hx d hd
                  have hx' : (x = n ∧ s.g.trans n = .delete) ∨ x ∈ s.cleaned := by
                    simp only at hx; split at hx
                    · rcases List.mem_cons.1 hx with h1 | h1
                      · left; exact ⟨h1, by assumption⟩
                      · right; exact h1
                    · right; exact hx
                  rcases hx' with ⟨rfl, ht⟩ | hx'
                  · rcases h.gi.delEdge x d ht hd with h1 | h1
                    · exact absurd h1 (hnin d)
                    · exact h1
                  · exact h.cleanedOrder x hx' d hd
                cleanedTr := by
                  intro x hx
                  simp only at hx ⊢; split at hx
                  · rcases List.mem_cons.1 hx with rfl | h1
                    · assumption
                    · exact h.cleanedTr x h1
                  · exact h.cleanedTr x hx
                pend := by
                  intro x hx
                  simp only at hx ⊢
                  have hxn : x ≠ n := by
                    rintro rfl
                    rcases hx with hx | hx
                    · exact hnps.1 hx
                    · exact hnps.2.1 hx.1
                  have hp := h.pend x (by
                    rw [hpl]
                    rcases hx with hx | hx
                    · left; simp [hx]
                    · right; exact hx)
                  constructor
                  · intro ht
                    have := hp.1 ht
                    split
                    · exact this
                    · simp [hxn, this]
                  · intro ht
                    have := hp.2 ht
                    split
                    · simp [hxn, this]
                    · exact this
                heldStart := by
                  intro x hx
                  simp only at hx ⊢
                  rcases List.mem_cons.1 hx with rfl | hx
                  · constructor
                    · intro ht; rw [if_neg ht]; simp
                    · intro ht; rw [if_pos ht]; simp
                  · have hh := h.heldStart x hx
                    constructor
                    · intro ht
                      have := hh.1 ht
                      split
                      · exact this
                      · simp [this]
                    · intro ht
                      have := hh.2 ht
                      split
                      · simp [this]
                      · exact this
                failHow := by
                  intro x hx
                  have hh := h.failHow x hx
                  simp only
                  constructor
                  · intro ht
                    have := hh.1 ht
                    split
                    · exact this
                    · simp [this]
                  · intro ht
                    have := hh.2 ht
                    split
                    · simp [this]
                    · exact this
                poppedHow := by
                  intro x hx
                  rcases h.poppedHow x hx with h1 | h1 | h1
                  · left; exact h1
                  · right; left
                    simp only; split
                    · exact h1
                    · simp [h1]
                  · right; right; exact h1
                startedSub := by
                  intro x hx
                  simp only at hx; split at hx
                  · exact h.startedSub x hx
                  · rcases List.mem_cons.1 hx with rfl | h1
                    · exact hnl
                    · exact h.startedSub x h1
                startedExp := by
                  intro x hx
                  simp only at hx; split at hx
                  · exact h.startedExp x hx
                  · rcases List.mem_cons.1 hx with rfl | h1
                    · simpa using hexp
                    · exact h.startedExp x h1 }
  · -- check_empties
    rename_i hpc
    split at hm
    · rename_i hcond
      split at hm
      · cases hm
      · rename_i n ok fin' hfin
        have hperm : (s.running ++ s.fin.map (·.1)).Perm (n :: (s.running ++ fin'.map (·.1))) := by
          rw [hfin]; simp only [List.map_cons]; exact List.perm_middle
        have hgi := h.gi.perm hperm
        have hhn := h.heldStart n (by rw [hfin]; simp)
        have hnl : n ∈ rest := by
          have h1 := h.gi.sub n (by rw [hfin]; simp)
          rcases List.mem_cons.1 h1 with h2 | h2
          · exact absurd (by rw [← h2, hfin]; simp) hrl
          · exact h2
        have hnh : n ∉ s.running ++ fin'.map (·.1) := by
          have := hgi.nodup
          rw [List.nodup_append] at this
          exact (List.nodup_cons.1 this.2.1).1
        have hle : s.running.length + fin'.length + 1 ≤ c.jobs := by
          have := h.le
          simp only [S.active, hfin, List.length_cons] at this
          omega
        split at hm
        · -- job succeeded
          obtain ⟨g', e1, e2, e3, e4, e5, e6, e7⟩ := hgi.pop hwf
          rw [e1] at hm
          simp only at hm
          injection hm with hm; subst hm
          have hnlist : n ∉ s.g.nodeList ∧ n ∉ s.g.plist := hgi.failNode.1
          exact { h with
            gi := e2
            noAbort := h.noAbort
            le := by simp only [S.active]; omega
            loopLt := by simp [hpc]
            loopIdle := by simp [hpc]
            doneTrue := by simp [hpc]
            doneIdle := by simp [hpc]
            startedOrder := fun x hx a ha => List.mem_cons_of_mem _ (h.startedOrder x hx a ha)
            cleanedOrder := fun x hx a ha => List.mem_cons_of_mem _ (h.cleanedOrder x hx a ha)
            cleanedTr := by
              intro x hx
              have ht := h.cleanedTr x hx
              by_cases hxn : x = n
              · subst hxn
                rcases e2.tr x with h1 | h1
                · have h2 := h.gi.tr x
                  rw [ht] at h2
                  rcases h2 with h2 | h2
                  · exact absurd h2.symm (hwf.notDelete x)
                  · have h3 := popNode_trans_ne e1 ht
                    exact h3
                · exact h1.2
              · simp only; rw [e6 x hxn]; exact ht
            pend := by
              intro x hx
              simp only at hx ⊢
              by_cases hxn : x = n
              · subst hxn
                have hd : g'.trans x = .delete ∧ s.g.trans x ≠ .delete := by
                  constructor
                  · rcases hx with hx | hx
                    · rcases e4 x hx with h1 | h1 | h1
                      · exact absurd h1 hnlist.2
                      · exact absurd h1 hnlist.1
                      · exact h1.2
                    · rcases e3 x hx.1 with h1 | h1
                      · exact absurd h1 hnlist.1
                      · exact h1.2
                  · intro hc
                    have := e7 hc
                    rcases hx with hx | hx
                    · exact this.2 hx
                    · exact this.1 hx.1
                refine ⟨fun hc => absurd hd.1 hc, fun _ hc => hd.2 (h.cleanedTr x hc)⟩
              · have hp := h.pend x (by
                  rcases hx with hx | hx
                  · have h5 := e5 x hx
                    rcases e4 x hx with h1 | h1 | h1
                    · left; exact h1
                    · right; exact ⟨h1, h5⟩
                    · exact absurd h1.1 hxn
                  · rcases e3 x hx.1 with h1 | h1
                    · right; exact ⟨h1, hx.2⟩
                    · exact absurd h1.1 hxn)
                rw [e6 x hxn]; exact hp
            heldStart := by
              intro x hx
              simp only at hx ⊢
              have hxn : x ≠ n := fun e => hnh (e ▸ hx)
              rw [e6 x hxn]; exact h.heldStart x (hperm.mem_iff.2 (List.mem_cons_of_mem _ hx))
            failHow := by
              intro x hx
              have hxn : x ≠ n := fun e => hnlist.1 (e ▸ (h.gi.fail x hx).1)
              simp only; rw [e6 x hxn]; exact h.failHow x hx
            poppedHow := by
              intro x hx
              rcases List.mem_cons.1 hx with rfl | hx
              · by_cases ht : s.g.trans x = .delete
                · exact h.poppedHow x (h.gi.delPop x ht).1
                · right; left; exact hhn.1 ht
              · exact h.poppedHow x hx
            poppedSub := by
              intro x hx
              rcases List.mem_cons.1 hx with rfl | hx
              · exact List.mem_cons_of_mem _ hnl
              · exact h.poppedSub x hx }
        · -- job failed
          obtain ⟨hnn, hg⟩ := hgi.failNode
          rw [if_neg (by grind)] at hm
          injection hm with hm; subst hm
          exact { h with
            gi := hg
            noAbort := h.noAbort
            le := by simp only [S.active]; omega
            loopLt := by simp [hpc]
            loopIdle := by simp [hpc]
            doneTrue := by simp [hpc]
            doneIdle := by simp [hpc]
            failCount := by simp [h.failCount]
            pend := by
              intro x hx
              simp only [List.mem_append, List.mem_cons, not_or] at hx ⊢
              apply h.pend x
              grind
            heldStart := by
              intro x hx
              exact h.heldStart x (hperm.mem_iff.2 (List.mem_cons_of_mem _ hx))
            failHow := by
              intro x hx
              rcases List.mem_cons.1 hx with rfl | hx
              · exact hhn
              · exact h.failHow x hx }
    · -- back to the loop head
      rename_i hcond
      injection hm with hm; subst hm
      simp only [Bool.or_eq_true, Bool.and_eq_true, decide_eq_true_eq, not_or, not_and,
        Bool.not_eq_true'] at hcond
      exact { h with
        noAbort := by simp
        loopLt := by intro _; have := hcond.1; simp only [S.active] at this ⊢; omega
        loopIdle := by
          intro _ hh
          have h1 : ¬ (s.active > 0) := by
            apply hcond.2
            rcases hh with hh | hh
            · left; left; exact hh
            · right; exact hh
          simp only [S.active] at h1 ⊢; omega
        doneTrue := by simp
        doneIdle := by simp }
  · cases hm
  · cases hm

theorem finish_inv {c : Cfg} {s : S D} {n : Nat} {ok : Bool} {db' : D}
    (h : Inv c g0 root rest s) (hn : n ∈ s.running) :
    Inv c g0 root rest
      { s with running := s.running.erase n, fin := (n, ok) :: s.fin, db := db' } := by
  have hperm : (s.running ++ s.fin.map (·.1)).Perm
      (s.running.erase n ++ ((n, ok) :: s.fin).map (·.1)) := by
    simp only [List.map_cons]
    refine List.Perm.trans ?_ List.perm_middle.symm
    exact List.Perm.append_right _ (List.perm_cons_erase hn)
  have hact : (s.running.erase n).length + ((n, ok) :: s.fin).length = s.active := by
    have := hperm.length_eq
    simp only [List.length_append, List.length_map] at this
    simp only [S.active]; omega
  exact { h with
    gi := h.gi.perm hperm
    noAbort := h.noAbort
    le := by simp only [S.active] at hact ⊢; have := h.le; simp only [S.active] at this; omega
    loopLt := by
      intro hp; simp only [S.active] at hact ⊢
      have := h.loopLt hp; simp only [S.active] at this; omega
    loopIdle := by
      intro hp hh; simp only [S.active] at hact ⊢
      have := h.loopIdle hp hh; simp only [S.active] at this; omega
    doneTrue := by
      intro hp; have := h.doneTrue hp
      simp only [S.active] at hact this ⊢
      exact ⟨this.1, this.2.1, this.2.2.1, by omega⟩
    doneIdle := by
      intro b hp hd; have := h.doneIdle b hp hd
      simp only [S.active] at hact this ⊢
      exact ⟨by omega, this.2⟩
    heldStart := fun x hx => h.heldStart x (hperm.mem_iff.2 hx) }

theorem die_inv {c : Cfg} {s : S D} (h : Inv c g0 root rest s) :
    Inv c g0 root rest { s with dead := true } :=
  { h with
    noAbort := h.noAbort
    le := h.le
    loopLt := h.loopLt
    loopIdle := h.loopIdle
    doneTrue := h.doneTrue
    doneIdle := by intro b _ hd; simp at hd }

theorem step_inv {c : Cfg} {w : Work D} (hwf : WF g0 root rest) {s s' : S D}
    (h : Inv c g0 root rest s) (hr : root ∈ s.popped) (hs : Step c w s s') :
    Inv c g0 root rest s' := by
  cases hs with
  | main hm => exact main_inv hwf h hr hm
  | finish hn _ => exact finish_inv h hn
  | die _ => exact die_inv h

/-- `popped`, `started`, `cleaned` and `failedL` only grow. -/
theorem main_mono {c : Cfg} {s s' : S D} (hm : mainStep c s = some s') :
    s.popped ⊆ s'.popped ∧ s.started ⊆ s'.started ∧ s.cleaned ⊆ s'.cleaned ∧
      s.failedL ⊆ s'.failedL ∧ s.failed ≤ s'.failed ∧ s'.dead = s.dead ∧ s'.db = s.db := by
  unfold mainStep at hm
  repeat' split at hm
  all_goals first
    | (cases hm; done)
    | (injection hm with hm; subst hm
       refine ⟨?_, ?_, ?_, ?_, ?_, ?_, ?_⟩ <;>
        first
        | rfl
        | exact List.Subset.refl _
        | exact List.subset_cons_self _ _
        | exact Nat.le_refl _
        | exact Nat.le_succ _
        | (dsimp only; split <;> first | exact List.Subset.refl _ | exact List.subset_cons_self _ _))

theorem step_mono {c : Cfg} {w : Work D} {s s' : S D} (hs : Step c w s s') :
    s.popped ⊆ s'.popped ∧ s.started ⊆ s'.started ∧ s.cleaned ⊆ s'.cleaned ∧
      s.failedL ⊆ s'.failedL ∧ s.failed ≤ s'.failed := by
  cases hs with
  | main hm => have := main_mono hm; exact ⟨this.1, this.2.1, this.2.2.1, this.2.2.2.1, this.2.2.2.2.1⟩
  | finish _ _ => exact ⟨List.Subset.refl _, List.Subset.refl _, List.Subset.refl _,
      List.Subset.refl _, Nat.le_refl _⟩
  | die _ => exact ⟨List.Subset.refl _, List.Subset.refl _, List.Subset.refl _,
      List.Subset.refl _, Nat.le_refl _⟩

theorem reach_inv {c : Cfg} {w : Work D} (hwf : WF g0 root rest) {s s' : S D}
    (h : Inv c g0 root rest s) (hr : root ∈ s.popped) (hs : Reach c w s s') :
    Inv c g0 root rest s' ∧ root ∈ s'.popped := by
  induction hs with
  | refl => exact ⟨h, hr⟩
  | tail _ hst ih => exact ⟨step_inv hwf ih.1 ih.2 hst, (step_mono hst).1 ih.2⟩

theorem running_inv {c : Cfg} {w : Work D} {db0 : D} (hj : 0 < c.jobs) (hwf : WF g0 root rest) {s : S D}
    (h : Running c w g0 db0 s) : Inv c g0 root rest s ∧ root ∈ s.popped := by
  obtain ⟨s0, h0, hr⟩ := h
  obtain ⟨s1, h1, hi, hp, _⟩ := start_inv (D := D) hj hwf db0
  rw [h0] at h1; injection h1 with h1; subst h1
  exact reach_inv hwf hi (by rw [hp]; simp) hr

/-! ### Termination measure -/

def isProc (t : Nat → Trans) (n : Nat) : Bool := t n = .processing

def wEdge (t : Nat → Trans) (e : Nat × Nat) : Nat :=
  10 + (if t e.1 = .processing then 20 else 0) + (if t e.2 = .processing then 20 else 0)

def gMeasure (L : List Nat) (g : Graph) : Nat :=
  (g.edges.map (wEdge g.trans)).sum + 20 * L.countP (isProc g.trans) + 8 * g.plist.length

def pcMeasure : PC → Nat
  | .loop => 1
  | .check => 2
  | .done _ => 0
  | .abort => 0

/-- Bounds the number of remaining steps. -/
def measure (L : List Nat) (s : S D) : Nat :=
  gMeasure L s.g + 6 * s.running.length + 4 * s.fin.length + pcMeasure s.pc +
    (!s.dead).toNat

theorem sum_filter_split (f : Nat × Nat → Nat) (p : Nat × Nat → Bool) : ∀ l : List (Nat × Nat),
    ((l.filter p).map f).sum + ((l.filter (fun x => !p x)).map f).sum = (l.map f).sum := by
  intro l
  induction l with
  | nil => rfl
  | cons a l ih =>
    by_cases h : p a = true
    · simp [h]; omega
    · simp only [Bool.not_eq_true] at h; simp [h]; omega

theorem sum_map_le (f f' : Nat × Nat → Nat) : ∀ l : List (Nat × Nat), (∀ x ∈ l, f x ≤ f' x) →
    (l.map f).sum ≤ (l.map f').sum := by
  intro l
  induction l with
  | nil => intro _; exact Nat.le_refl _
  | cons a l ih =>
    intro h
    have h1 := h a (by simp)
    have h2 := ih (fun x hx => h x (by simp [hx]))
    simp only [List.map_cons, List.sum_cons]; omega

theorem wEdge_ge (t : Nat → Trans) (e : Nat × Nat) : 10 ≤ wEdge t e := by
  unfold wEdge; omega

theorem wEdge_upd (t : Nat → Trans) (n : Nat) (e : Nat × Nat) :
    wEdge (upd t n .delete) e ≤ wEdge t e := by
  unfold wEdge
  simp only [upd_apply]
  split <;> split <;> split <;> split <;> simp_all

theorem countP_upd (t : Nat → Trans) (n : Nat) : ∀ L : List Nat,
    L.countP (isProc (upd t n .delete)) ≤ L.countP (isProc t) := by
  intro L
  apply List.countP_mono_left
  intro x _
  simp only [isProc, upd_apply]
  split <;> simp

theorem countP_upd_lt (t : Nat → Trans) (n : Nat) (ht : t n = .processing) : ∀ L : List Nat, n ∈ L →
    L.countP (isProc (upd t n .delete)) + 1 ≤ L.countP (isProc t) := by
  intro L
  induction L with
  | nil => intro h; simp at h
  | cons a L ih =>
    intro h
    by_cases ha : a = n
    · subst ha
      have := countP_upd t a L
      have h1 : (a :: L).countP (isProc t) = L.countP (isProc t) + 1 :=
        List.countP_cons_of_pos (by simp [isProc, ht])
      have h2 : (a :: L).countP (isProc (upd t a .delete)) = L.countP (isProc (upd t a .delete)) :=
        List.countP_cons_of_neg (by simp [isProc])
      omega
    · have hn : n ∈ L := by
        rcases List.mem_cons.1 h with h | h
        · exact absurd h.symm ha
        · exact h
      have := ih hn
      have hp : isProc (upd t n .delete) a = isProc t a := by simp [isProc, ha]
      rw [List.countP_cons, List.countP_cons, hp]
      omega

theorem pop_measure {L : List Nat} {g g' : Graph} {n : Nat} (hL : n ∈ L)
    (h : popNode g n = some g') : gMeasure L g' ≤ gMeasure L g := by
  unfold popNode at h
  simp only at h
  split at h
  · cases h
  · rename_i g1 h1
    obtain ⟨e1, e2, e3⟩ := popDests_mono _ _ _ h1
    have hlen : (g.outs n).length = (g.edges.filter (·.1 = n)).length := by simp [Graph.outs]
    have hsplit := sum_filter_split (wEdge g.trans) (fun x => decide (x.1 = n)) g.edges
    have hneg : (fun x : Nat × Nat => !decide (x.1 = n)) = (fun x => decide (x.1 ≠ n)) := by
      funext x; simp
    rw [hneg] at hsplit
    split at h
    · rename_i htr
      split at h
      · cases h
      · injection h with h; subst h
        simp only [gMeasure, e1, e2, List.map_append, List.sum_append]
        have hc := countP_upd_lt g.trans n htr L hL
        have hflip : ((g.outs n).map (·, n)).map (wEdge (upd g.trans n .delete)) =
            (g.edges.filter (·.1 = n)).map (fun e => wEdge (upd g.trans n .delete) (e.2, n)) := by
          simp [Graph.outs, Function.comp_def]
        rw [hflip]
        have hle : ((g.edges.filter (·.1 = n)).map
              (fun e => wEdge (upd g.trans n .delete) (e.2, n))).sum +
              20 * (g.edges.filter (·.1 = n)).length ≤
            ((g.edges.filter (·.1 = n)).map (wEdge g.trans)).sum := by
          have : ∀ l : List (Nat × Nat), (∀ x ∈ l, x.1 = n) →
              (l.map (fun e => wEdge (upd g.trans n .delete) (e.2, n))).sum + 20 * l.length ≤
              (l.map (wEdge g.trans)).sum := by
            intro l
            induction l with
            | nil => intro _; simp
            | cons a l ih =>
              intro hx
              have h2 := ih (fun x hx' => hx x (by simp [hx']))
              have h3 : a.1 = n := hx a (by simp)
              have h4 : wEdge (upd g.trans n .delete) (a.2, n) + 20 ≤ wEdge g.trans a := by
                simp only [wEdge, upd_apply, h3, htr, if_true]
                split <;> split <;> simp_all
              simp only [List.map_cons, List.sum_cons, List.length_cons]
              omega
          apply this
          intro x hx
          simpa using (List.mem_filter.1 hx).2
        have hrest := sum_map_le (wEdge (upd g.trans n .delete)) (wEdge g.trans)
          (g.edges.filter (·.1 ≠ n)) (fun x _ => wEdge_upd _ _ _)
        have hpl : (if g.outs n ≠ [] then g1.plist else n :: g1.plist).length ≤
            g.plist.length + (g.edges.filter (·.1 = n)).length + 1 := by
          split
          · omega
          · simp only [List.length_cons]; omega
        omega
    · injection h with h; subst h
      simp only [gMeasure, e1, e2]
      have hle : 10 * (g.edges.filter (·.1 = n)).length ≤
          ((g.edges.filter (·.1 = n)).map (wEdge g.trans)).sum := by
        have : ∀ l : List (Nat × Nat), 10 * l.length ≤ (l.map (wEdge g.trans)).sum := by
          intro l
          induction l with
          | nil => simp
          | cons a l ih =>
            have := wEdge_ge g.trans a
            simp only [List.map_cons, List.sum_cons, List.length_cons]; omega
        exact this _
      omega

theorem main_measure {c : Cfg} {s s' : S D} (h : Inv c g0 root rest s)
    (hm : mainStep c s = some s') : measure (root :: rest) s' < measure (root :: rest) s := by
  unfold mainStep at hm
  split at hm
  · rename_i hpc
    split at hm
    · injection hm with hm; subst hm
      simp only [measure, exitLoop, hpc, pcMeasure]; omega
    · rename_i n ps hpl
      split at hm
      · injection hm with hm; subst hm
        simp only [measure, exitLoop, hpc, pcMeasure]; omega
      · split at hm
        · injection hm with hm; subst hm
          simp only [measure, gMeasure, hpc, pcMeasure, hpl, List.length_cons]; omega
        · split at hm
          · split at hm
            · injection hm with hm; subst hm
              simp only [measure, hpc, pcMeasure]; omega
            · rename_i g' hg'
              injection hm with hm; subst hm
              have h1 := pop_measure (L := root :: rest) (h.gi.sub n (by simp [hpl])) hg'
              have h2 : gMeasure (root :: rest) { s.g with plist := ps } + 8 =
                  gMeasure (root :: rest) s.g := by
                simp only [gMeasure, hpl, List.length_cons]; omega
              simp only [measure, hpc, pcMeasure]; omega
          · split at hm
            · injection hm with hm; subst hm
              simp only [measure, hpc, pcMeasure]; omega
            · injection hm with hm; subst hm
              simp only [measure, gMeasure, hpc, pcMeasure, hpl, List.length_cons]; omega
  · rename_i hpc
    split at hm
    · split at hm
      · cases hm
      · rename_i n ok fin' hfin
        split at hm
        · split at hm
          · injection hm with hm; subst hm
            simp only [measure, hpc, pcMeasure]; omega
          · rename_i g' hg'
            injection hm with hm; subst hm
            have h1 := pop_measure (L := root :: rest) (h.gi.sub n (by simp [hfin])) hg'
            simp only [measure, hpc, hfin, List.length_cons]; omega
        · split at hm
          · injection hm with hm; subst hm
            simp only [measure, hpc, pcMeasure]; omega
          · injection hm with hm; subst hm
            simp only [measure, gMeasure, hpc, hfin, List.length_cons]; omega
    · injection hm with hm; subst hm
      simp only [measure, hpc, pcMeasure]; omega
  · cases hm
  · cases hm

theorem step_measure {c : Cfg} {w : Work D} {s s' : S D} (h : Inv c g0 root rest s)
    (hs : Step c w s s') : measure (root :: rest) s' < measure (root :: rest) s := by
  cases hs with
  | main hm => exact main_measure h hm
  | finish hn _ =>
    have := List.length_erase_of_mem hn
    have h2 := List.length_pos_of_mem hn
    simp only [measure, List.length_cons]; omega
  | die hd => simp only [measure, hd]; simp

/-! ### Ancestors -/

theorem countP_lt (p q : Nat → Bool) (y : Nat) (hp : p y = false) (hq : q y = true) :
    ∀ L : List Nat, y ∈ L → (∀ x, p x = true → q x = true) → L.countP p < L.countP q := by
  intro L
  induction L with
  | nil => intro h; simp at h
  | cons a L ih =>
    intro h hpq
    rw [List.countP_cons, List.countP_cons]
    by_cases ha : a = y
    · subst ha
      have := List.countP_mono_left (l := L) (p := p) (q := q) (fun x _ => hpq x)
      simp only [hp, hq, if_true]
      simp; omega
    · have hy : y ∈ L := by
        rcases List.mem_cons.1 h with h | h
        · exact absurd h.symm ha
        · exact h
      have := ih hy hpq
      have h3 : (if p a = true then 1 else 0) ≤ (if q a = true then 1 else 0) := by
        by_cases h4 : p a = true
        · rw [if_pos h4, if_pos (hpq a h4)]; exact Nat.le_refl _
        · rw [if_neg h4]; exact Nat.zero_le _
      omega

theorem Downstream.trans {a b c : Nat} (h1 : Downstream g0 a b) (h2 : Downstream g0 b c) :
    Downstream g0 a c := by
  induction h2 with
  | one h => exact .tail h1 h
  | tail _ h ih => exact .tail ih h

open Classical in
/-- number of ancestors of `n` -/
noncomputable def anc (g0 : Graph) (L : List Nat) (n : Nat) : Nat :=
  L.countP (fun x => decide (Downstream g0 x n))

theorem anc_lt (hac : Acyclic g0) {L : List Nat} {a n : Nat} (ha : a ∈ L) (h : Dep g0 a n) :
    anc g0 L a < anc g0 L n := by
  unfold anc
  apply countP_lt _ _ a
  · simpa using hac a
  · simpa using Downstream.one h
  · exact ha
  · intro x hx
    simp only [decide_eq_true_eq] at hx ⊢
    exact .tail hx h

/-- When nothing is running or ready, whatever is left is a failed node or waits for one. -/
theorem stuck_failed {c : Cfg} {s : S D} (hac : Acyclic g0) (h : Inv c g0 root rest s)
    (ha : s.active = 0) (hpl : s.g.plist = []) :
    ∀ n, n ∈ s.g.nodeList → n ∉ s.popped →
      ∃ f ∈ s.failedL, f ∉ s.popped ∧ (f = n ∨ Downstream g0 f n) := by
  have hrun : s.running = [] ∧ s.fin = [] := by
    simp only [S.active] at ha
    exact ⟨List.length_eq_zero_iff.1 (by omega), List.length_eq_zero_iff.1 (by omega)⟩
  have key : ∀ k n, anc g0 (root :: rest) n < k → n ∈ s.g.nodeList → n ∉ s.popped →
      ∃ f ∈ s.failedL, f ∉ s.popped ∧ (f = n ∨ Downstream g0 f n) := by
    intro k
    induction k with
    | zero => intro n hk; omega
    | succ k ih =>
      intro n hk hn hnp
      rcases h.gi.wait n hn with hf | ⟨a, hae⟩
      · exact ⟨n, hf, hnp, Or.inl rfl⟩
      · have htn : s.g.trans n ≠ .delete := fun hc => hnp (h.gi.delPop n hc).1
        have hdep : (a, n) ∈ g0.edges := by
          rcases h.gi.orig a n hae with h1 | h1
          · exact h1
          · exact absurd h1.1 htn
        have hal : a ∈ s.g.nodeList := by
          have := h.gi.src a n hae
          simpa [hpl, hrun.1, hrun.2] using this
        have hap : a ∉ s.popped := by
          intro hc
          have h1 := h.gi.popLive a hc (by simp [hal])
          exact (h.gi.delPop a h1).2 n hae
        have hlt := anc_lt hac (h.gi.sub a (by simp [hal])) hdep
        obtain ⟨f, hf, hfp, hfa⟩ := ih a (by omega) hal hap
        refine ⟨f, hf, hfp, Or.inr ?_⟩
        rcases hfa with rfl | hfa
        · exact .one hdep
        · exact .tail hfa hdep
  intro n; exact key (anc g0 (root :: rest) n + 1) n (by omega)

end Tup.Exec
