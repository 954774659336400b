import Verif.Combine.Spec

/-! Lemmas about the printed graph. -/

namespace Tup.Combine

variable {i : Info} {g g' : G}

theorem remove_nodes {x y : Nat} : y ∈ (removeNode g x).nodes ↔ y ∈ g.nodes ∧ y ≠ x := by
  simp [removeNode]

theorem remove_edges {x : Nat} {e : Edge} : e ∈ (removeNode g x).edges ↔ e ∈ g.edges ∧ e.1 ≠ x ∧ e.2.1 ≠ x := by
  simp [removeNode]

theorem removes (l : List Nat) : ∀ g : G, ((l.foldl removeNode g).nodes = g.nodes.filter (· ∉ l)) ∧
    (∀ e, e ∈ (l.foldl removeNode g).edges ↔ e ∈ g.edges ∧ e.1 ∉ l ∧ e.2.1 ∉ l) ∧ (l.foldl removeNode g).root = g.root := by
  induction l with
  | nil =>
    intro g
    refine ⟨?_, by simp, rfl⟩
    rw [List.foldl_nil, List.filter_eq_self.2]
    simp
  | cons x l ih =>
    intro g
    rw [List.foldl_cons]
    obtain ⟨h1, h2, h3⟩ := ih (removeNode g x)
    refine ⟨?_, fun e => ?_, h3⟩
    · rw [h1]
      simp only [removeNode, List.filter_filter]
      congr 1
      funext y
      simp only [List.mem_cons, not_or]
      grind
    · rw [h2 e, remove_edges]
      simp only [List.mem_cons, not_or]
      grind

theorem unshown_iff {x : Nat} : unshown i x = true ↔ Layout i x := by
  unfold unshown Layout
  generalize "Tupfile".toList = a
  generalize "Tupfile.lua".toList = b
  generalize "Tupdefault.lua".toList = c
  generalize ".gitignore".toList = d
  cases i.kind x <;> simp [or_assoc]

/-! ### Combining -/

theorem mem_addEdge {l : List Edge} {e f : Edge} : f ∈ addEdge l e ↔ f ∈ l ∨ f = e := by
  unfold addEdge
  split
  · rename_i h
    constructor
    · exact .inl
    · rintro (h' | rfl)
      · exact h'
      · exact h
  · simp

theorem fold_add {k : Edge → Edge} {f : Edge} (m : List Edge) : ∀ l : List Edge,
    f ∈ m.foldl (fun l e => addEdge l (k e)) l ↔ f ∈ l ∨ ∃ e ∈ m, f = k e := by
  induction m with
  | nil => intro l; simp
  | cons e m ih =>
    intro l
    rw [List.foldl_cons, ih, mem_addEdge]
    simp only [List.mem_cons]
    grind

theorem mem_move {keep child : Nat} {l : List Edge} {f : Edge} (hk : keep ≠ child) (hc : ∀ e ∈ l, ¬ (e.1 = child ∧ e.2.1 = child)) :
    f ∈ moveEdges keep child l ↔
      f ∈ l ∨ (f.1 = keep ∧ (child, f.2.1, f.2.2) ∈ l) ∨ (f.2.1 = keep ∧ (f.1, child, f.2.2) ∈ l) := by
  unfold moveEdges
  dsimp only
  rw [fold_add (k := fun e => (e.1, keep, e.2.2))]
  simp only [fold_add (k := fun e => (keep, e.2.1, e.2.2)), List.mem_filter, decide_eq_true_eq]
  obtain ⟨a, b, c⟩ := f
  constructor
  · rintro ((h | ⟨⟨e1, e2, e3⟩, ⟨h1, h2⟩, h3⟩) | ⟨⟨e1, e2, e3⟩, ⟨h1 | ⟨⟨d1, d2, d3⟩, ⟨g1, g2⟩, g3⟩, h2⟩, h3⟩)
    · exact .inl h
    · simp only [Prod.mk.injEq] at h2 h3
      obtain ⟨rfl, rfl, rfl⟩ := h3
      subst h2
      exact .inr (.inl ⟨rfl, h1⟩)
    · simp only [Prod.mk.injEq] at h2 h3
      obtain ⟨rfl, rfl, rfl⟩ := h3
      subst h2
      exact .inr (.inr ⟨rfl, h1⟩)
    · simp only [Prod.mk.injEq] at g2 g3 h2
      obtain ⟨rfl, rfl, rfl⟩ := g3
      exact absurd ⟨g2, h2⟩ (hc _ g1)
  · rintro (h | ⟨h1, h2⟩ | ⟨h1, h2⟩)
    · exact .inl (.inl h)
    · exact .inl (.inr ⟨(child, b, c), ⟨h2, rfl⟩, by simp at h1 ⊢; exact h1⟩)
    · exact .inr ⟨(a, child, c), ⟨.inl h2, rfl⟩, by simp at h1 ⊢; exact h1⟩

/-- What holds when the nodes in `P` have been dealt with, `g0` being the graph at the start. -/
structure Inv (i : Info) (h : Nat → Int) (g0 : G) (P : List Nat) (s : S) : Prop where
  uniq : ∀ r ∈ s.reps, ∀ r' ∈ s.reps, r.hash = r'.hash → r = r'
  hash : ∀ r ∈ s.reps, h r.id = r.hash
  count : ∀ r ∈ s.reps, r.count = size h P r.hash
  stands : ∀ r ∈ s.reps, Stands i h P r.id
  all : ∀ y ∈ P, ∃ r ∈ s.reps, r.hash = h y
  nodes : s.g.nodes = g0.nodes.filter fun y => decide (y ∉ P) || s.reps.any fun r => r.id = y
  root : s.g.root = g0.root

theorem size_append {h : Nat → Int} {l : List Nat} {x : Nat} {v : Int} :
    size h (l ++ [x]) v = size h l v + if h x = v then 1 else 0 := by
  unfold size
  rw [List.filter_append, List.length_append]
  congr 1
  by_cases hx : h x = v <;> simp [hx]

/-- The representative of a hash, once it is there. -/
theorem find_rep {s : S} {o : Nd} {v : Int}
    (h : s.reps.find? (fun r => r.hash = v) = some o) : o ∈ s.reps ∧ o.hash = v := by
  refine ⟨List.mem_of_find?_eq_some h, ?_⟩
  have := List.find?_some (p := fun r : Nd => decide (r.hash = v)) h
  simpa using this

theorem inv_step {h : Nat → Int} {g0 : G} {P : List Nat} {s : S} {x : Nat} (hi : Inv i h g0 P s) (hx : x ∉ P) :
    Inv i h g0 (P ++ [x]) (step i s x (h x)) := by
  obtain ⟨u, hh, c, st, al, nd, rt⟩ := hi
  unfold step
  cases hf : s.reps.find? (fun r => r.hash = h x) with
  | none =>
    dsimp only
    have hno : ∀ r ∈ s.reps, r.hash ≠ h x := by
      intro r hr he
      have := List.find?_eq_none.1 hf r hr
      simp [he] at this
    have hz : ∀ y ∈ P, h y ≠ h x := by
      intro y hy he
      obtain ⟨r, hr, hr'⟩ := al y hy
      exact hno r hr (hr'.trans he)
    have hsz : size h P (h x) = 0 := by
      unfold size
      rw [List.length_eq_zero_iff, List.filter_eq_nil_iff]
      intro y hy
      simpa using hz y hy
    refine ⟨?_, ?_, ?_, ?_, ?_, ?_, rt⟩
    · intro r hr r' hr' he
      simp only [List.mem_append, List.mem_singleton] at hr hr'
      rcases hr with hr | rfl <;> rcases hr' with hr' | rfl
      · exact u r hr r' hr' he
      · exact absurd he (hno r hr)
      · exact absurd he.symm (hno r' hr')
      · rfl
    · intro r hr
      simp only [List.mem_append, List.mem_singleton] at hr
      rcases hr with hr | rfl
      · exact hh r hr
      · rfl
    · intro r hr
      simp only [List.mem_append, List.mem_singleton] at hr
      rw [size_append]
      rcases hr with hr | rfl
      · rw [if_neg (fun he => hno r hr he.symm), c r hr]; rfl
      · rw [hsz, if_pos rfl]
    · intro r hr
      simp only [List.mem_append, List.mem_singleton] at hr
      rcases hr with hr | rfl
      · refine ⟨List.mem_append_left _ (st r hr).mem, fun y hy he => ?_⟩
        rcases List.mem_append.1 hy with hy | hy
        · exact (st r hr).least y hy he
        · simp only [List.mem_singleton] at hy
          subst hy
          exact absurd (he.trans (hh r hr)).symm (hno r hr)
      · refine ⟨by simp, fun y hy he => ?_⟩
        rcases List.mem_append.1 hy with hy | hy
        · exact absurd he (hz y hy)
        · simp only [List.mem_singleton] at hy
          subst hy
          exact List.le_refl _
    · intro y hy
      rcases List.mem_append.1 hy with hy | hy
      · obtain ⟨r, hr, he⟩ := al y hy
        exact ⟨r, List.mem_append_left _ hr, he⟩
      · simp only [List.mem_singleton] at hy
        subst hy
        exact ⟨⟨y, h y, 1⟩, by simp, rfl⟩
    · rw [nd]
      refine List.filter_congr fun y _ => ?_
      simp only [List.mem_append, List.mem_singleton, List.any_append, List.any_cons, List.any_nil, Bool.or_false]
      by_cases hy : y = x
      · subst hy; simp [hx]
      · have : ¬ x = y := fun h => hy h.symm
        simp [hy, this]
  | some o =>
    obtain ⟨ho, hoh⟩ := find_rep hf
    have hoP : o.id ∈ P := (st o ho).mem
    have hne : o.id ≠ x := fun he => hx (he ▸ hoP)
    dsimp only
    generalize hk : (if i.name o.id < i.name x then o.id else x) = keep
    generalize hc : (if i.name o.id < i.name x then x else o.id) = child
    have hkc : (keep = o.id ∧ child = x ∧ i.name o.id ≤ i.name x) ∨ (keep = x ∧ child = o.id ∧ i.name x ≤ i.name o.id) := by
      by_cases hlt : i.name o.id < i.name x
      · rw [if_pos hlt] at hk hc
        exact .inl ⟨hk.symm, hc.symm, List.le_of_lt hlt⟩
      · rw [if_neg hlt] at hk hc
        exact .inr ⟨hk.symm, hc.symm, List.not_lt.1 hlt⟩
    have hkh : h keep = h x := by
      rcases hkc with ⟨a, _, _⟩ | ⟨a, _, _⟩
      · rw [a, hh o ho, hoh]
      · rw [a]
    have hleast : ∀ y ∈ P ++ [x], h y = h x → i.name keep ≤ i.name y := by
      intro y hy he
      have hold : y ∈ P → i.name o.id ≤ i.name y := fun hy => (st o ho).least y hy (by rw [he, hh o ho, hoh])
      rcases List.mem_append.1 hy with hy | hy
      · rcases hkc with ⟨a, _, _⟩ | ⟨a, _, b⟩
        · rw [a]; exact hold hy
        · rw [a]; exact List.le_trans b (hold hy)
      · simp only [List.mem_singleton] at hy
        subst hy
        rcases hkc with ⟨a, _, b⟩ | ⟨a, _, b⟩
        · rw [a]; exact b
        · rw [a]; exact List.le_refl _
    have hmem : ∀ r', r' ∈ s.reps.map (fun r => if r.hash = h x then ⟨keep, h x, o.count + 1⟩ else r) ↔
        r' = ⟨keep, h x, o.count + 1⟩ ∨ (r' ∈ s.reps ∧ r'.hash ≠ h x) := by
      intro r'
      simp only [List.mem_map]
      constructor
      · rintro ⟨r, hr, he⟩
        by_cases hrh : r.hash = h x
        · rw [if_pos hrh] at he; exact .inl he.symm
        · rw [if_neg hrh] at he; subst he; exact .inr ⟨hr, hrh⟩
      · rintro (rfl | ⟨hr, hrh⟩)
        · exact ⟨o, ho, by rw [if_pos hoh]⟩
        · exact ⟨r', hr, by rw [if_neg hrh]⟩
    have hgn : (if i.kind x = .cmd then { s.g with edges := moveEdges keep child s.g.edges } else s.g).nodes = s.g.nodes := by split <;> rfl
    have hgr : (if i.kind x = .cmd then { s.g with edges := moveEdges keep child s.g.edges } else s.g).root = s.g.root := by split <;> rfl
    refine ⟨?_, ?_, ?_, ?_, ?_, ?_, ?_⟩
    · intro r hr r' hr' he
      rcases (hmem r).1 hr with rfl | ⟨hr, hrh⟩ <;> rcases (hmem r').1 hr' with rfl | ⟨hr', hrh'⟩
      · rfl
      · exact absurd he.symm hrh'
      · exact absurd he hrh
      · exact u r hr r' hr' he
    · intro r hr
      rcases (hmem r).1 hr with rfl | ⟨hr, hrh⟩
      · exact hkh
      · exact hh r hr
    · intro r hr
      rw [size_append]
      rcases (hmem r).1 hr with rfl | ⟨hr, hrh⟩
      · simp only [if_true]
        rw [c o ho, hoh]
      · rw [if_neg (Ne.symm hrh), c r hr]; rfl
    · intro r hr
      rcases (hmem r).1 hr with rfl | ⟨hr2, hrh⟩
      · refine ⟨?_, fun y hy he => hleast y hy (he.trans hkh)⟩
        rcases hkc with ⟨a, _, _⟩ | ⟨a, _, _⟩
        · rw [a]; exact List.mem_append_left _ hoP
        · rw [a]; simp
      · refine ⟨List.mem_append_left _ (st r hr2).mem, fun y hy he => ?_⟩
        rcases List.mem_append.1 hy with hy | hy
        · exact (st r hr2).least y hy he
        · simp only [List.mem_singleton] at hy
          rw [hy] at he
          exact absurd (he.trans (hh r hr2)).symm hrh
    · intro y hy
      rcases List.mem_append.1 hy with hy | hy
      · obtain ⟨r, hr, he⟩ := al y hy
        by_cases hrh : r.hash = h x
        · exact ⟨_, (hmem _).2 (.inl rfl), by rw [← he, hrh]⟩
        · exact ⟨r, (hmem r).2 (.inr ⟨hr, hrh⟩), he⟩
      · simp only [List.mem_singleton] at hy
        subst hy
        exact ⟨_, (hmem _).2 (.inl rfl), rfl⟩
    · simp only [removeNode, hgn]
      rw [nd, List.filter_filter]
      refine List.filter_congr fun y _ => ?_
      rw [Bool.eq_iff_iff]
      simp only [Bool.and_eq_true, Bool.or_eq_true, decide_eq_true_eq, List.any_eq_true, List.mem_append, List.mem_singleton, not_or, hmem]
      constructor
      · rintro ⟨hyc, hyP | ⟨r, hr, hry⟩⟩
        · by_cases hyx : y = x
          · subst hyx
            rcases hkc with ⟨_, b, _⟩ | ⟨a, _, _⟩
            · exact absurd b.symm hyc
            · exact .inr ⟨_, .inl rfl, a⟩
          · exact .inl ⟨hyP, hyx⟩
        · by_cases hrh : r.hash = h x
          · have hro : r = o := u r hr o ho (hrh.trans hoh.symm)
            subst hro
            rcases hkc with ⟨a, _, _⟩ | ⟨_, b, _⟩
            · exact .inr ⟨_, .inl rfl, by rw [← hry]; exact a⟩
            · exact absurd (hry.symm.trans b.symm) hyc
          · exact .inr ⟨r, .inr ⟨hr, hrh⟩, hry⟩
      · rintro (⟨hyP, hyx⟩ | ⟨r, rfl | ⟨hr, hrh⟩, hry⟩)
        · refine ⟨?_, .inl hyP⟩
          rcases hkc with ⟨_, b, _⟩ | ⟨_, b, _⟩
          · rw [b]; exact hyx
          · rw [b]; exact fun he => hyP (he ▸ hoP)
        · simp only at hry
          subst hry
          rcases hkc with ⟨a, b, _⟩ | ⟨a, b, _⟩
          · exact ⟨by rw [a, b]; exact hne, .inr ⟨o, ho, a.symm⟩⟩
          · exact ⟨by rw [a, b]; exact hne.symm, .inl (by rw [a]; exact hx)⟩
        · refine ⟨?_, .inr ⟨r, hr, hry⟩⟩
          rcases hkc with ⟨_, b, _⟩ | ⟨_, b, _⟩
          · rw [b]; exact fun he => hx (by rw [← he, ← hry]; exact (st r hr).mem)
          · rw [b]
            intro he
            have : h r.id = h o.id := by rw [hry, he]
            rw [hh r hr, hh o ho, hoh] at this
            exact hrh this
    · simp only [removeNode]
      rw [hgr]
      exact rt

theorem inv_fold {h hf : Nat → Int} {g0 : G} (L : List Nat) : ∀ (P : List Nat) (s : S), Inv i h g0 P s → L.Nodup →
    (∀ x ∈ L, x ∉ P) → (∀ x ∈ L, hf x = h x) → Inv i h g0 (P ++ L) (L.foldl (fun t x => step i t x (hf x)) s) := by
  induction L with
  | nil => intro P s hi _ _ _; rw [List.append_nil]; exact hi
  | cons x L ih =>
    intro P s hi hn hd hh
    rw [List.foldl_cons, hh x List.mem_cons_self]
    obtain ⟨n1, n2⟩ := List.nodup_cons.1 hn
    have := ih (P ++ [x]) _ (inv_step hi (hd x List.mem_cons_self)) n2 (fun y hy hc => by
      rcases List.mem_append.1 hc with hc | hc
      · exact hd y (List.mem_cons_of_mem _ hy) hc
      · simp only [List.mem_singleton] at hc
        exact n1 (hc ▸ hy)) (fun y hy => hh y (List.mem_cons_of_mem _ hy))
    rw [List.append_assoc] at this
    exact this

theorem inv_init (i : Info) (h : Nat → Int) (g : G) : Inv i h g [] ⟨g, []⟩ := by
  refine ⟨?_, ?_, ?_, ?_, ?_, ?_, rfl⟩ <;> simp
  rw [List.filter_eq_self.2]
  simp

theorem insert_perm (x : Nat) (l : List Nat) : (insertId x l).Perm (x :: l) := by
  induction l with
  | nil => exact .refl _
  | cons y l ih =>
    unfold insertId
    split
    · exact .refl _
    · exact (List.Perm.cons y ih).trans (List.Perm.swap x y l)

theorem sort_perm (l : List Nat) : (sortIds l).Perm l := by
  induction l with
  | nil => exact .refl _
  | cons x l ih => exact (insert_perm x _).trans (ih.cons x)

/-- The commands, in the order of their ids. -/
def cmds (i : Info) (g : G) : List Nat := sortIds (g.nodes.filter fun x => decide (i.kind x = .cmd) = true)

/-- The other nodes. -/
def others (i : Info) (g : G) : List Nat := sortIds (g.nodes.filter fun x => decide (i.kind x = .cmd) = false)

theorem mem_cmds {x : Nat} : x ∈ cmds i g ↔ x ∈ g.nodes ∧ i.kind x = .cmd := by
  unfold cmds
  rw [(sort_perm _).mem_iff, List.mem_filter]
  simp

theorem mem_others {x : Nat} : x ∈ others i g ↔ x ∈ g.nodes ∧ i.kind x ≠ .cmd := by
  unfold others
  rw [(sort_perm _).mem_iff, List.mem_filter]
  simp

theorem nodup_cmds (h : g.nodes.Nodup) : (cmds i g).Nodup :=
  (sort_perm _).nodup_iff.2 (List.Pairwise.filter _ h)

theorem nodup_others (h : g.nodes.Nodup) : (others i g).Nodup :=
  (sort_perm _).nodup_iff.2 (List.Pairwise.filter _ h)

/-- The graph between the two passes. -/
def mid (i : Info) (cmdHash : G → Nat → Int) (g : G) : S := combineNodes i true cmdHash ⟨g, []⟩

/-- The hash that decides about each node. -/
def hashOf (i : Info) (cmdHash fileHash : G → Nat → Int) (g : G) (y : Nat) : Int :=
  if i.kind y = .cmd then cmdHash g y else fileHash (mid i cmdHash g).g y

theorem mid_inv {cmdHash fileHash : G → Nat → Int} (hn : g.nodes.Nodup) :
    Inv i (hashOf i cmdHash fileHash g) g (cmds i g) (mid i cmdHash g) := by
  have := inv_fold (hf := cmdHash g) (cmds i g) [] _ (inv_init i (hashOf i cmdHash fileHash g) g) (nodup_cmds hn) (by simp)
    (fun x hx => by unfold hashOf; rw [if_pos (mem_cmds.1 hx).2])
  rw [List.nil_append] at this
  exact this

theorem mid_others {cmdHash fileHash : G → Nat → Int} (hn : g.nodes.Nodup) {x : Nat} (hx : i.kind x ≠ .cmd) :
    x ∈ (mid i cmdHash g).g.nodes ↔ x ∈ g.nodes := by
  rw [(mid_inv (cmdHash := cmdHash) (fileHash := fileHash) hn).nodes, List.mem_filter]
  have : x ∉ cmds i g := fun h => hx (mem_cmds.1 h).2
  simp [this]

theorem mid_nodup {cmdHash fileHash : G → Nat → Int} (hn : g.nodes.Nodup) : (mid i cmdHash g).g.nodes.Nodup := by
  rw [(mid_inv (cmdHash := cmdHash) (fileHash := fileHash) hn).nodes]
  exact List.Pairwise.filter _ hn

theorem end_inv {cmdHash fileHash : G → Nat → Int} (hn : g.nodes.Nodup) :
    Inv i (hashOf i cmdHash fileHash g) g (cmds i g ++ others i (mid i cmdHash g).g) (combine i cmdHash fileHash g) :=
  inv_fold (hf := fileHash (mid i cmdHash g).g) (others i (mid i cmdHash g).g) _ _ (mid_inv hn)
    (nodup_others (mid_nodup (fileHash := fileHash) hn)) (fun x hx hc => (mem_others.1 hx).2 (mem_cmds.1 hc).2)
    (fun x hx => by unfold hashOf; rw [if_neg (mem_others.1 hx).2])

theorem all_perm {cmdHash fileHash : G → Nat → Int} (hn : g.nodes.Nodup) :
    (cmds i g ++ others i (mid i cmdHash g).g).Perm g.nodes := by
  rw [List.perm_ext_iff_of_nodup]
  · intro x
    rw [List.mem_append, mem_cmds, mem_others]
    by_cases hx : i.kind x = .cmd
    · simp [hx]
    · rw [mid_others (fileHash := fileHash) hn hx]
      simp [hx]
  · rw [List.nodup_append]
    refine ⟨nodup_cmds hn, nodup_others (mid_nodup (fileHash := fileHash) hn), fun a ha b hb he => ?_⟩
    subst he
    exact (mem_others.1 hb).2 (mem_cmds.1 ha).2
  · exact hn

/-! ### The edges -/

/-- What `a` is replaced by. -/
def sub (child keep z : Nat) : Nat := if z = child then keep else z

theorem edges_step {keep child : Nat} {l : List Edge} {e : Edge} (hk : keep ≠ child)
    (hc : ∀ f ∈ l, ¬ ((f.1 = keep ∨ f.1 = child) ∧ (f.2.1 = keep ∨ f.2.1 = child))) :
    (e ∈ moveEdges keep child l ∧ e.1 ≠ child ∧ e.2.1 ≠ child) ↔
      ∃ f ∈ l, e = (sub child keep f.1, sub child keep f.2.1, f.2.2) := by
  rw [mem_move hk (fun e he h => hc e he ⟨.inr h.1, .inr h.2⟩)]
  obtain ⟨a, b, c⟩ := e
  unfold sub
  simp only [Prod.mk.injEq]
  constructor
  · rintro ⟨h | ⟨h1, h2⟩ | ⟨h1, h2⟩, ha, hb⟩
    · exact ⟨(a, b, c), h, by simp [ha], by simp [hb], rfl⟩
    · exact ⟨(child, b, c), h2, by simp [h1], by simp [hb], rfl⟩
    · exact ⟨(a, child, c), h2, by simp [ha], by simp [h1], rfl⟩
  · rintro ⟨⟨x, y, z⟩, hf, h1, h2, h3⟩
    simp only at h1 h2 h3
    subst h3
    have := hc _ hf
    simp only at this
    by_cases hx : x = child
    · subst hx
      have hy : y ≠ x := fun h => this ⟨.inr rfl, .inr h⟩
      rw [if_pos rfl] at h1
      rw [if_neg hy] at h2
      subst h1 h2
      exact ⟨.inr (.inl ⟨rfl, hf⟩), hk, hy⟩
    · rw [if_neg hx] at h1
      subst h1
      by_cases hy : y = child
      · subst hy
        rw [if_pos rfl] at h2
        subst h2
        exact ⟨.inr (.inr ⟨rfl, hf⟩), hx, hk⟩
      · rw [if_neg hy] at h2
        subst h2
        exact ⟨.inl hf, hx, hy⟩

/-- `a` stands for `y` when the nodes in `P` have been dealt with. -/
def RepOf (h : Nat → Int) (P : List Nat) (reps : List Nd) (y a : Nat) : Prop :=
  (y ∉ P ∧ a = y) ∨ (y ∈ P ∧ ∃ r ∈ reps, r.hash = h y ∧ r.id = a)

/-- The edges while commands are combined. -/
def EInv (h : Nat → Int) (g0 : G) (P : List Nat) (s : S) : Prop :=
  ∀ e : Edge, e ∈ s.g.edges ↔ ∃ f ∈ g0.edges, f.2.2 = e.2.2 ∧ RepOf h P s.reps f.1 e.1 ∧ RepOf h P s.reps f.2.1 e.2.1

theorem rep_cmd {h : Nat → Int} {g0 : G} {P : List Nat} {s : S} (hi : Inv i h g0 P s) (hP : ∀ y ∈ P, i.kind y = .cmd) {y a : Nat}
    (hr : RepOf h P s.reps y a) : i.kind a = .cmd → i.kind y = .cmd := by
  rcases hr with ⟨_, rfl⟩ | ⟨hy, _⟩
  · exact id
  · exact fun _ => hP y hy

theorem edge_step {h : Nat → Int} {g0 : G} {P : List Nat} {s : S} {x : Nat} (hb : Bipartite i g0) (hi : Inv i h g0 P s) (hx : x ∉ P)
    (hk : i.kind x = .cmd) (hP : ∀ y ∈ P, i.kind y = .cmd) (he : EInv h g0 P s) : EInv h g0 (P ++ [x]) (step i s x (h x)) := by
  have hi' := hi
  obtain ⟨u, hh, c, st, al, nd, rt⟩ := hi
  have hbs : ∀ e ∈ s.g.edges, ¬ (i.kind e.1 = .cmd ∧ i.kind e.2.1 = .cmd) := by
    intro e hes hc
    obtain ⟨f, hf, _, h1, h2⟩ := (he e).1 hes
    exact hb f hf ⟨rep_cmd hi' hP h1 hc.1, rep_cmd hi' hP h2 hc.2⟩
  unfold step
  cases hf : s.reps.find? (fun r => r.hash = h x) with
  | none =>
    dsimp only
    have hno : ∀ r ∈ s.reps, r.hash ≠ h x := by
      intro r hr he
      have := List.find?_eq_none.1 hf r hr
      simp [he] at this
    have hrep : ∀ y a, RepOf h (P ++ [x]) (s.reps ++ [⟨x, h x, 1⟩]) y a ↔ RepOf h P s.reps y a := by
      intro y a
      unfold RepOf
      by_cases hy : y ∈ P
      · obtain ⟨r0, hr0, hr0'⟩ := al y hy
        have hne : h x ≠ h y := fun he => hno r0 hr0 (hr0'.trans he.symm)
        simp only [List.mem_append, hy, true_or, not_true_eq_false, false_and, false_or, true_and, List.mem_singleton]
        constructor
        · rintro ⟨r, hr | rfl, h1, h2⟩
          · exact ⟨r, hr, h1, h2⟩
          · exact absurd h1 hne
        · rintro ⟨r, hr, h1, h2⟩
          exact ⟨r, .inl hr, h1, h2⟩
      · by_cases hyx : y = x
        · subst hyx
          simp only [List.mem_append, hy, false_or, List.mem_singleton, not_true_eq_false, false_and, true_and, not_false_eq_true, or_false]
          constructor
          · rintro ⟨r, hr | rfl, h1, h2⟩
            · exact absurd h1 (hno r hr)
            · exact h2.symm
          · rintro rfl
            exact ⟨_, .inr rfl, rfl, rfl⟩
        · simp [hy, hyx]
    intro e
    simp only [hrep]
    exact he e
  | some o =>
    obtain ⟨ho, hoh⟩ := find_rep hf
    have hoP : o.id ∈ P := (st o ho).mem
    have hne : o.id ≠ x := fun he => hx (he ▸ hoP)
    dsimp only
    rw [if_pos hk]
    generalize hke : (if i.name o.id < i.name x then o.id else x) = keep
    generalize hce : (if i.name o.id < i.name x then x else o.id) = child
    have hkc : (keep = o.id ∧ child = x) ∨ (keep = x ∧ child = o.id) := by
      by_cases hlt : i.name o.id < i.name x
      · rw [if_pos hlt] at hke hce
        exact .inl ⟨hke.symm, hce.symm⟩
      · rw [if_neg hlt] at hke hce
        exact .inr ⟨hke.symm, hce.symm⟩
    have hkk : i.kind keep = .cmd ∧ i.kind child = .cmd := by
      rcases hkc with ⟨a, b⟩ | ⟨a, b⟩ <;> rw [a, b]
      · exact ⟨hP _ hoP, hk⟩
      · exact ⟨hk, hP _ hoP⟩
    have hdiff : keep ≠ child := by
      rcases hkc with ⟨a, b⟩ | ⟨a, b⟩ <;> rw [a, b]
      · exact hne
      · exact hne.symm
    have hmem : ∀ r', r' ∈ s.reps.map (fun r => if r.hash = h x then ⟨keep, h x, o.count + 1⟩ else r) ↔
        r' = ⟨keep, h x, o.count + 1⟩ ∨ (r' ∈ s.reps ∧ r'.hash ≠ h x) := by
      intro r'
      simp only [List.mem_map]
      constructor
      · rintro ⟨r, hr, he⟩
        by_cases hrh : r.hash = h x
        · rw [if_pos hrh] at he; exact .inl he.symm
        · rw [if_neg hrh] at he; subst he; exact .inr ⟨hr, hrh⟩
      · rintro (rfl | ⟨hr, hrh⟩)
        · exact ⟨o, ho, by rw [if_pos hoh]⟩
        · exact ⟨r', hr, by rw [if_neg hrh]⟩
    have hrep : ∀ y a', RepOf h (P ++ [x]) (s.reps.map fun r => if r.hash = h x then ⟨keep, h x, o.count + 1⟩ else r) y a' ↔
        ∃ a, RepOf h P s.reps y a ∧ a' = sub child keep a := by
      intro y a'
      unfold RepOf sub
      simp only [hmem]
      by_cases hy : y ∈ P
      · simp only [List.mem_append, hy, true_or, not_true_eq_false, false_and, false_or, true_and]
        constructor
        · rintro ⟨r, rfl | ⟨hr, hrh⟩, h1, h2⟩
          · refine ⟨o.id, ⟨o, ho, hoh.trans h1, rfl⟩, ?_⟩
            simp only at h2
            rcases hkc with ⟨a, b⟩ | ⟨a, b⟩
            · rw [b, if_neg hne, ← h2, a]
            · rw [b, if_pos rfl, h2]
          · refine ⟨r.id, ⟨r, hr, h1, rfl⟩, ?_⟩
            rw [if_neg, h2]
            rcases hkc with ⟨_, b⟩ | ⟨_, b⟩ <;> rw [b]
            · exact fun he => hx (by rw [← he]; exact (st r hr).mem)
            · intro he
              have : h r.id = h o.id := by rw [he]
              rw [hh r hr, hh o ho, hoh] at this
              exact hrh this
        · rintro ⟨a, ⟨r, hr, h1, h2⟩, h3⟩
          by_cases hrh : r.hash = h x
          · have hro : r = o := u r hr o ho (hrh.trans hoh.symm)
            subst hro
            refine ⟨_, .inl rfl, hrh.symm.trans h1, ?_⟩
            rw [← h2] at h3
            rcases hkc with ⟨a, b⟩ | ⟨a, b⟩
            · rw [b, if_neg hne] at h3
              rw [h3]; exact a
            · rw [b, if_pos rfl] at h3
              exact h3.symm
          · refine ⟨r, .inr ⟨hr, hrh⟩, h1, ?_⟩
            rw [h3, if_neg, h2]
            rw [← h2]
            rcases hkc with ⟨_, b⟩ | ⟨_, b⟩ <;> rw [b]
            · exact fun he => hx (by rw [← he]; exact (st r hr).mem)
            · intro he
              have : h r.id = h o.id := by rw [he]
              rw [hh r hr, hh o ho, hoh] at this
              exact hrh this
      · by_cases hyx : y = x
        · rw [hyx]
          simp only [List.mem_append, hx, false_or, List.mem_singleton, not_true_eq_false, false_and, true_and, not_false_eq_true, or_false]
          constructor
          · rintro ⟨r, rfl | ⟨hr, hrh⟩, h1, h2⟩
            · refine ⟨x, rfl, ?_⟩
              simp only at h2
              rcases hkc with ⟨a, b⟩ | ⟨a, b⟩
              · rw [b, if_pos rfl, h2]
              · rw [b, if_neg hne.symm, ← h2, a]
            · exact absurd h1 hrh
          · rintro ⟨a, rfl, h3⟩
            refine ⟨_, .inl rfl, rfl, ?_⟩
            rcases hkc with ⟨a, b⟩ | ⟨a, b⟩
            · rw [b, if_pos rfl] at h3
              exact h3.symm
            · rw [b, if_neg hne.symm] at h3
              rw [h3]; exact a
        · simp only [List.mem_append, hy, false_or, List.mem_singleton, hyx, not_false_eq_true, true_and, false_and, or_false]
          constructor
          · rintro rfl
            refine ⟨a', rfl, ?_⟩
            rw [if_neg]
            rcases hkc with ⟨_, b⟩ | ⟨_, b⟩ <;> rw [b]
            · exact hyx
            · exact fun he => hy (he ▸ hoP)
          · rintro ⟨a, rfl, h3⟩
            rw [h3, if_neg]
            rcases hkc with ⟨_, b⟩ | ⟨_, b⟩ <;> rw [b]
            · exact hyx
            · exact fun he => hy (he ▸ hoP)
    intro e
    rw [remove_edges]
    simp only [hrep]
    rw [edges_step hdiff (fun f hf hc => hbs f hf ⟨by
      rcases hc.1 with h | h <;> rw [h]
      · exact hkk.1
      · exact hkk.2, by
      rcases hc.2 with h | h <;> rw [h]
      · exact hkk.1
      · exact hkk.2⟩)]
    constructor
    · rintro ⟨f, hf, rfl⟩
      obtain ⟨f0, h1, h2, h3, h4⟩ := (he f).1 hf
      exact ⟨f0, h1, h2, ⟨f.1, h3, rfl⟩, ⟨f.2.1, h4, rfl⟩⟩
    · rintro ⟨f0, h1, h2, ⟨a, h3, h3'⟩, ⟨b, h4, h4'⟩⟩
      refine ⟨(a, b, e.2.2), (he _).2 ⟨f0, h1, h2, h3, h4⟩, ?_⟩
      obtain ⟨e1, e2, e3⟩ := e
      simp only at h3' h4' ⊢
      rw [h3', h4']

theorem edge_fold {h hf : Nat → Int} {g0 : G} (hb : Bipartite i g0) (L : List Nat) : ∀ (P : List Nat) (s : S), Inv i h g0 P s →
    EInv h g0 P s → L.Nodup → (∀ x ∈ L, x ∉ P) → (∀ x ∈ L, hf x = h x) → (∀ x ∈ L, i.kind x = .cmd) → (∀ x ∈ P, i.kind x = .cmd) →
    EInv h g0 (P ++ L) (L.foldl (fun t x => step i t x (hf x)) s) := by
  induction L with
  | nil => intro P s _ he _ _ _ _ _; rw [List.append_nil]; exact he
  | cons x L ih =>
    intro P s hi he hn hd hh hL hP
    rw [List.foldl_cons, hh x List.mem_cons_self]
    obtain ⟨n1, n2⟩ := List.nodup_cons.1 hn
    have hxP := hd x List.mem_cons_self
    have := ih (P ++ [x]) _ (inv_step hi hxP) (edge_step hb hi hxP (hL x List.mem_cons_self) hP he) n2 (fun y hy hc => by
      rcases List.mem_append.1 hc with hc | hc
      · exact hd y (List.mem_cons_of_mem _ hy) hc
      · simp only [List.mem_singleton] at hc
        exact n1 (hc ▸ hy)) (fun y hy => hh y (List.mem_cons_of_mem _ hy)) (fun y hy => hL y (List.mem_cons_of_mem _ hy)) (by
      intro y hy
      rcases List.mem_append.1 hy with hy | hy
      · exact hP y hy
      · simp only [List.mem_singleton] at hy
        rw [hy]; exact hL x List.mem_cons_self)
    rw [List.append_assoc] at this
    exact this

theorem mid_edges {cmdHash fileHash : G → Nat → Int} (hn : g.nodes.Nodup) (hb : Bipartite i g) :
    EInv (hashOf i cmdHash fileHash g) g (cmds i g) (mid i cmdHash g) := by
  have := edge_fold (hf := cmdHash g) hb (cmds i g) [] ⟨g, []⟩ (inv_init i (hashOf i cmdHash fileHash g) g) (by
      intro e
      unfold RepOf
      simp only [List.not_mem_nil, not_false_eq_true, true_and, false_and, or_false]
      constructor
      · intro h; exact ⟨e, h, rfl, rfl, rfl⟩
      · rintro ⟨⟨a, b, c⟩, hf, h1, h2, h3⟩
        obtain ⟨e1, e2, e3⟩ := e
        simp only at h1 h2 h3
        subst h1 h2 h3
        exact hf) (nodup_cmds hn) (by simp)
    (fun x hx => by unfold hashOf; rw [if_pos (mem_cmds.1 hx).2]) (fun x hx => (mem_cmds.1 hx).2) (by simp)
  rw [List.nil_append] at this
  exact this

/-- The second pass only removes nodes. -/
theorem other_fold {hf : Nat → Int} {g1 : G} (L : List Nat) : ∀ s : S, (∀ x ∈ L, i.kind x ≠ .cmd) →
    (∀ e, e ∈ s.g.edges ↔ e ∈ g1.edges ∧ e.1 ∈ s.g.nodes ∧ e.2.1 ∈ s.g.nodes) →
    ∀ e, e ∈ (L.foldl (fun t x => step i t x (hf x)) s).g.edges ↔ e ∈ g1.edges ∧
      e.1 ∈ (L.foldl (fun t x => step i t x (hf x)) s).g.nodes ∧ e.2.1 ∈ (L.foldl (fun t x => step i t x (hf x)) s).g.nodes := by
  induction L with
  | nil => intro s _ h; exact h
  | cons x L ih =>
    intro s hL h
    rw [List.foldl_cons]
    refine ih _ (fun y hy => hL y (List.mem_cons_of_mem _ hy)) fun e => ?_
    unfold step
    cases hf' : s.reps.find? (fun r => r.hash = hf x) with
    | none => exact h e
    | some o =>
      dsimp only
      rw [if_neg (hL x List.mem_cons_self), remove_edges, remove_nodes, remove_nodes, h e]
      grind

/-- No node comes back. -/
theorem other_keep {hf : Nat → Int} (L : List Nat) : ∀ (s : S) (x : Nat),
    x ∈ (L.foldl (fun t x => step i t x (hf x)) s).g.nodes → x ∈ s.g.nodes := by
  induction L with
  | nil => intro s x h; exact h
  | cons y L ih =>
    intro s x h
    rw [List.foldl_cons] at h
    have := ih _ x h
    unfold step at this
    cases hf' : s.reps.find? (fun r => r.hash = hf y) with
    | none => rw [hf'] at this; exact this
    | some o =>
      rw [hf'] at this
      dsimp only at this
      rw [remove_nodes] at this
      have := this.1
      split at this <;> exact this

theorem end_edges {cmdHash fileHash : G → Nat → Int} (hm : ∀ e ∈ (mid i cmdHash g).g.edges, e.1 ∈ (mid i cmdHash g).g.nodes ∧ e.2.1 ∈ (mid i cmdHash g).g.nodes) :
    ∀ e, e ∈ (combine i cmdHash fileHash g).g.edges ↔ e ∈ (mid i cmdHash g).g.edges ∧
      e.1 ∈ (combine i cmdHash fileHash g).g.nodes ∧ e.2.1 ∈ (combine i cmdHash fileHash g).g.nodes :=
  other_fold (hf := fileHash (mid i cmdHash g).g) (others i (mid i cmdHash g).g) (mid i cmdHash g) (fun x hx => (mem_others.1 hx).2)
    (fun e => ⟨fun h => ⟨h, hm e h⟩, fun h => h.1⟩)

end Tup.Combine
