import Verif.Combine.Lemmas

/-! C93: what `tup graph` prints. -/

namespace Tup.Combine

variable {i : Info} {g : G} {cmdHash fileHash : G → Nat → Int} {h : Nat → Int}

theorem hash_eq (hh : Hashes i cmdHash fileHash g h) : h = hashOf i cmdHash fileHash g := by
  funext x
  unfold hashOf
  by_cases hx : i.kind x = .cmd
  · rw [if_pos hx, hh.cmd x hx]
  · rw [if_neg hx, hh.file x hx]; rfl

theorem size_perm {l m : List Nat} (hp : l.Perm m) (v : Int) : size h l v = size h m v :=
  (hp.filter _).length_eq

theorem end_nodes (hn : g.nodes.Nodup) {x : Nat} :
    x ∈ (combine i cmdHash fileHash g).g.nodes ↔ ∃ r ∈ (combine i cmdHash fileHash g).reps, r.id = x := by
  have hi := end_inv (i := i) (cmdHash := cmdHash) (fileHash := fileHash) hn
  have hp := all_perm (i := i) (cmdHash := cmdHash) (fileHash := fileHash) hn
  rw [hi.nodes, List.mem_filter]
  constructor
  · rintro ⟨h1, h2⟩
    simp only [Bool.or_eq_true, decide_eq_true_eq, List.any_eq_true] at h2
    rcases h2 with h2 | h2
    · exact absurd (hp.mem_iff.2 h1) h2
    · exact h2
  · rintro ⟨r, hr, rfl⟩
    refine ⟨hp.mem_iff.1 (hi.stands r hr).mem, ?_⟩
    simp only [Bool.or_eq_true, decide_eq_true_eq, List.any_eq_true]
    exact .inr ⟨r, hr, rfl⟩

/-- Of the nodes that are taken for equal exactly one is left, one with the smallest name; the order stays, and nothing else
is there. -/
theorem c93_survivors (hn : g.nodes.Nodup) (hh : Hashes i cmdHash fileHash g h) :
    (combine i cmdHash fileHash g).g.nodes.Sublist g.nodes ∧
      ∀ x ∈ g.nodes, ∃ y ∈ (combine i cmdHash fileHash g).g.nodes, h y = h x ∧ (∀ z ∈ g.nodes, h z = h x → i.name y ≤ i.name z) ∧
        ∀ z ∈ (combine i cmdHash fileHash g).g.nodes, h z = h x → z = y := by
  have hi := end_inv (i := i) (cmdHash := cmdHash) (fileHash := fileHash) hn
  have hp := all_perm (i := i) (cmdHash := cmdHash) (fileHash := fileHash) hn
  rw [← hash_eq hh] at hi
  refine ⟨by rw [hi.nodes]; exact List.filter_sublist, fun x hx => ?_⟩
  obtain ⟨r, hr, hrx⟩ := hi.all x (hp.mem_iff.2 hx)
  refine ⟨r.id, (end_nodes hn).2 ⟨r, hr, rfl⟩, (hi.hash r hr).trans hrx, fun z hz he => ?_, fun z hz he => ?_⟩
  · exact (hi.stands r hr).least z (hp.mem_iff.2 hz) (he.trans ((hi.hash r hr).trans hrx).symm)
  · obtain ⟨r', hr', rfl⟩ := (end_nodes hn).1 hz
    rw [hi.uniq r' hr' r hr]
    rw [← hi.hash r' hr', he, hrx]

/-- There is an edge between two nodes that are left if and only if there was one between commands that they stand for, or
between these commands and the files themselves. -/
theorem c93_edges (hg : Proper g) (hb : Bipartite i g) (hh : Hashes i cmdHash fileHash g h) (a b st : Nat) :
    (a, b, st) ∈ (combine i cmdHash fileHash g).g.edges ↔
      a ∈ (combine i cmdHash fileHash g).g.nodes ∧ b ∈ (combine i cmdHash fileHash g).g.nodes ∧
        ∃ a' b', (a', b', st) ∈ g.edges ∧ Same i h a' a ∧ Same i h b' b := by
  have hm := mid_inv (i := i) (cmdHash := cmdHash) (fileHash := fileHash) hg.once
  have he := mid_edges (i := i) (cmdHash := cmdHash) (fileHash := fileHash) hg.once hb
  have hi := end_inv (i := i) (cmdHash := cmdHash) (fileHash := fileHash) hg.once
  rw [← hash_eq hh] at hm he hi
  have hmn : ∀ x, x ∈ (mid i cmdHash g).g.nodes ↔ x ∈ g.nodes ∧ (i.kind x ≠ .cmd ∨ ∃ r ∈ (mid i cmdHash g).reps, r.id = x) := by
    intro x
    rw [hm.nodes, List.mem_filter]
    simp only [Bool.or_eq_true, decide_eq_true_eq, List.any_eq_true, mem_cmds]
    grind
  have hrep : ∀ y a, y ∈ g.nodes → (RepOf h (cmds i g) (mid i cmdHash g).reps y a ↔ a ∈ (mid i cmdHash g).g.nodes ∧ Same i h y a) := by
    intro y a hy
    unfold RepOf Same
    rw [hmn]
    simp only [mem_cmds, hy, true_and]
    constructor
    · rintro (⟨h1, rfl⟩ | ⟨h1, r, hr, h2, rfl⟩)
      · exact ⟨⟨hy, .inl h1⟩, .inr ⟨h1, rfl⟩⟩
      · have hs := mem_cmds.1 (hm.stands r hr).mem
        exact ⟨⟨hs.1, .inr ⟨r, hr, rfl⟩⟩, .inl ⟨h1, hs.2, h2.symm.trans (hm.hash r hr).symm⟩⟩
    · rintro ⟨⟨h1, h2⟩, ⟨h3, h4, h5⟩ | ⟨h3, rfl⟩⟩
      · rcases h2 with h2 | ⟨r, hr, rfl⟩
        · exact absurd h4 h2
        · exact .inr ⟨h3, r, hr, by rw [h5, hm.hash r hr], rfl⟩
      · exact .inl ⟨h3, rfl⟩
  have hends : ∀ e ∈ (mid i cmdHash g).g.edges, e.1 ∈ (mid i cmdHash g).g.nodes ∧ e.2.1 ∈ (mid i cmdHash g).g.nodes := by
    intro e hem
    obtain ⟨f, hf, _, h1, h2⟩ := (he e).1 hem
    exact ⟨((hrep _ _ (hg.ends f hf).1).1 h1).1, ((hrep _ _ (hg.ends f hf).2).1 h2).1⟩
  rw [end_edges hends, he]
  constructor
  · rintro ⟨⟨⟨f1, f2, f3⟩, hf, h1, h2, h3⟩, ha, hb⟩
    simp only at h1 h2 h3 ha hb
    subst h1
    exact ⟨ha, hb, f1, f2, hf, ((hrep _ _ (hg.ends _ hf).1).1 h2).2, ((hrep _ _ (hg.ends _ hf).2).1 h3).2⟩
  · rintro ⟨ha, hb, f1, f2, hf, h2, h3⟩
    have hmono : ∀ x ∈ (combine i cmdHash fileHash g).g.nodes, ∀ y, y ∈ g.nodes → Same i h y x → x ∈ (mid i cmdHash g).g.nodes := by
      intro x hx y hy hs
      obtain ⟨r, hr, rfl⟩ := (end_nodes hg.once).1 hx
      have hp := all_perm (i := i) (cmdHash := cmdHash) (fileHash := fileHash) hg.once
      have := (hi.stands r hr).mem
      rcases List.mem_append.1 this with hc | hc
      · have hkeep := other_keep (i := i) (hf := fileHash (mid i cmdHash g).g) (others i (mid i cmdHash g).g) (mid i cmdHash g) r.id hx
        exact hkeep
      · exact (mem_others.1 hc).1
    exact ⟨⟨(f1, f2, st), hf, rfl, (hrep _ _ (hg.ends _ hf).1).2 ⟨hmono a ha _ (hg.ends _ hf).1 h2, h2⟩,
      (hrep _ _ (hg.ends _ hf).2).2 ⟨hmono b hb _ (hg.ends _ hf).2 h3, h3⟩⟩, ha, hb⟩

theorem add_once {l : List Edge} {e : Edge} (hl : l.Nodup) : (addEdge l e).Nodup := by
  unfold addEdge
  split
  · exact hl
  · rename_i h
    rw [List.nodup_append]
    refine ⟨hl, by simp, fun a ha b hb he => ?_⟩
    simp only [List.mem_singleton] at hb
    rw [he, hb] at ha
    exact h ha

theorem fold_once {k : Edge → Edge} (m : List Edge) : ∀ l : List Edge, l.Nodup → (m.foldl (fun l e => addEdge l (k e)) l).Nodup := by
  induction m with
  | nil => exact fun _ h => h
  | cons e m ih => exact fun l h => ih _ (add_once h)

theorem step_once {s : S} {x : Nat} {v : Int} (hl : s.g.edges.Nodup) : (step i s x v).g.edges.Nodup := by
  unfold step
  split
  · exact hl
  · dsimp only
    refine List.Pairwise.filter _ ?_
    split
    · exact fold_once (k := fun e => (e.1, _, e.2.2)) _ _ (fold_once (k := fun e => (_, e.2.1, e.2.2)) _ _ hl)
    · exact hl

theorem steps_once {k : Nat → Int} (L : List Nat) : ∀ s : S, s.g.edges.Nodup → (L.foldl (fun t x => step i t x (k x)) s).g.edges.Nodup := by
  induction L with
  | nil => exact fun _ h => h
  | cons x L ih => exact fun s h => ih _ (step_once h)

/-- Edges that meet when nodes are combined are there only once. -/
theorem c93_once (h : g.edges.Nodup) : (combine i cmdHash fileHash g).g.edges.Nodup :=
  steps_once _ _ (steps_once _ ⟨g, []⟩ h)

/-- Without `--dirs` the directories, the Tupfiles and the generated .gitignore files are left out with their edges, and
nothing else is. -/
theorem c93_hidden : (hideDirs i g).nodes.Sublist g.nodes ∧ (∀ x, x ∈ (hideDirs i g).nodes ↔ x ∈ g.nodes ∧ ¬ Layout i x) ∧
    (∀ e ∈ (hideDirs i g).edges, e ∈ g.edges) ∧
    (Proper g → ∀ e, e ∈ (hideDirs i g).edges ↔ e ∈ g.edges ∧ ¬ Layout i e.1 ∧ ¬ Layout i e.2.1) ∧
    (Proper g → Proper (hideDirs i g)) ∧ (hideDirs i g).root = g.root := by
  obtain ⟨h1, h2, h3⟩ := removes (g.nodes.filter (unshown i)) g
  have hm : ∀ x, x ∈ (hideDirs i g).nodes ↔ x ∈ g.nodes ∧ ¬ Layout i x := by
    intro x
    unfold hideDirs
    rw [h1, List.mem_filter]
    simp only [List.mem_filter, unshown_iff, decide_eq_true_eq]
    grind
  have he : Proper g → ∀ e, e ∈ (hideDirs i g).edges ↔ e ∈ g.edges ∧ ¬ Layout i e.1 ∧ ¬ Layout i e.2.1 := by
    intro hp e
    unfold hideDirs
    rw [h2 e]
    simp only [List.mem_filter, unshown_iff]
    have := hp.ends e
    grind
  refine ⟨by unfold hideDirs; rw [h1]; exact List.filter_sublist, hm, fun e he => ((h2 e).1 he).1, he, fun hp => ⟨?_, fun e hee => ?_⟩, h3⟩
  · unfold hideDirs
    rw [h1]
    exact List.Pairwise.filter _ hp.once
  · rw [hm, hm]
    obtain ⟨a, b, c⟩ := (he hp e).1 hee
    exact ⟨⟨(hp.ends e a).1, b⟩, (hp.ends e a).2, c⟩

theorem about_dump {dirs : Bool} {reps : List Nd} (x : Nat) :
    (dumpNode i g dirs reps x).filterMap Line.about = if x = g.root then [] else [x] := by
  unfold dumpNode
  by_cases hx : x = g.root
  · rw [if_pos hx, if_pos hx]; rfl
  · rw [if_neg hx, if_neg hx]
    simp only [List.filterMap_append, List.filterMap_cons, List.filterMap_nil, Line.about, List.filterMap_map]
    rw [show (g.edges.filter fun e => e.1 = x).filterMap (Line.about ∘ fun e => .edge e.2.1 x e.2.2) = [] from
      List.filterMap_eq_nil_iff.2 (by intro e _; rfl), List.append_nil]
    split <;> rfl

theorem about_dumps {dirs : Bool} {reps : List Nd} (l : List Nat) :
    (l.flatMap (dumpNode i g dirs reps)).filterMap Line.about = l.filter (· ≠ g.root) := by
  induction l with
  | nil => rfl
  | cons x l ih =>
    rw [List.flatMap_cons, List.filterMap_append, ih, about_dump, List.filter_cons]
    by_cases hx : x = g.root <;> simp [hx]

theorem mem_dumps {dirs : Bool} {reps : List Nd} {l : List Nat} {x : Nat} {lab : Str} {n : Option Nat} {w : Str} :
    Line.node x lab n w ∈ l.flatMap (dumpNode i g dirs reps) ↔
      x ∈ l ∧ x ≠ g.root ∧ Line.node x lab n w ∈ dumpNode i g dirs reps x := by
  rw [List.mem_flatMap]
  constructor
  · rintro ⟨y, hy, hd⟩
    have hd' := hd
    unfold dumpNode at hd'
    by_cases hr : y = g.root
    · rw [if_pos hr] at hd'; simp at hd'
    · rw [if_neg hr] at hd'
      simp only [List.mem_append, List.mem_singleton, List.mem_map] at hd'
      rcases hd' with (hd' | hd') | ⟨_, _, hd'⟩
      · injection hd' with h1
        subst h1
        exact ⟨hy, hr, hd⟩
      · split at hd' <;> simp at hd'
      · cases hd'
  · rintro ⟨h1, _, h3⟩
    exact ⟨x, h1, h3⟩

theorem edge_dumps {dirs : Bool} {reps : List Nd} {l : List Nat} {a b st : Nat} :
    Line.edge b a st ∈ l.flatMap (dumpNode i g dirs reps) ↔ a ∈ l ∧ a ≠ g.root ∧ (a, b, st) ∈ g.edges := by
  rw [List.mem_flatMap]
  constructor
  · rintro ⟨y, hy, hd⟩
    unfold dumpNode at hd
    by_cases hr : y = g.root
    · rw [if_pos hr] at hd; simp at hd
    · rw [if_neg hr] at hd
      simp only [List.mem_append, List.mem_singleton, List.mem_map, List.mem_filter] at hd
      rcases hd with (hd | hd) | ⟨⟨e1, e2, e3⟩, ⟨h1, h2⟩, hd⟩
      · cases hd
      · split at hd <;> simp at hd
      · simp only [decide_eq_true_eq] at h2
        injection hd with h3 h4 h5
        simp only at h3 h5
        subst h2 h3 h5 h4
        exact ⟨hy, hr, h1⟩
  · rintro ⟨h1, h2, h3⟩
    refine ⟨a, h1, ?_⟩
    unfold dumpNode
    rw [if_neg h2]
    simp only [List.mem_append, List.mem_map, List.mem_filter]
    exact .inr ⟨(a, b, st), ⟨h3, by simp⟩, rfl⟩

theorem dir_dumps {dirs : Bool} {reps : List Nd} {l : List Nat} {x d : Nat} :
    Line.dir x d ∈ l.flatMap (dumpNode i g dirs reps) ↔
      x ∈ l ∧ x ≠ g.root ∧ dirs = true ∧ d = i.dir x ∧ d ≠ 0 ∧ d ∈ g.nodes := by
  rw [List.mem_flatMap]
  constructor
  · rintro ⟨y, hy, hd⟩
    unfold dumpNode at hd
    by_cases hr : y = g.root
    · rw [if_pos hr] at hd; simp at hd
    · rw [if_neg hr] at hd
      simp only [List.mem_append, List.mem_singleton, List.mem_map, List.mem_filter] at hd
      rcases hd with (hd | hd) | ⟨_, _, hd⟩
      · cases hd
      · split at hd
        · rename_i hc
          simp only [List.mem_singleton] at hd
          injection hd with h1 h2
          subst h1 h2
          exact ⟨hy, hr, hc.1, rfl, hc.2⟩
        · simp at hd
      · cases hd
  · rintro ⟨h1, h2, h3, rfl, h4, h5⟩
    refine ⟨x, h1, ?_⟩
    unfold dumpNode
    rw [if_neg h2]
    dsimp only
    rw [if_pos (c := dirs = true ∧ i.dir x ≠ 0 ∧ i.dir x ∈ g.nodes) ⟨h3, h4, h5⟩]
    exact List.mem_append_left _ (List.mem_append_right _ (List.mem_singleton.2 rfl))

/-- The graph that is to be printed, before nodes are combined. -/
def shown (i : Info) (dirs : Bool) (g : G) : G := if dirs then g else hideDirs i g

theorem plain_eq {dirs : Bool} :
    dumpGraph i cmdHash fileHash dirs false g = (shown i dirs g).nodes.flatMap (dumpNode i (shown i dirs g) dirs []) := by
  unfold dumpGraph shown
  simp only [Bool.false_eq_true, if_false]
  rw [List.filter_eq_self.2]
  intro a _
  simp

/-- Without `--combine` there is one line for each node but the root, in their order, with its text and its number (no number if
it is 1), one for each edge that does not come from the root, and with `--dirs` one from each node to its directory. -/
theorem c93_dump (dirs : Bool) :
    (dumpGraph i cmdHash fileHash dirs false g).filterMap Line.about = (shown i dirs g).nodes.filter (· ≠ g.root) ∧
    (∀ x l n w, Line.node x l n w ∈ dumpGraph i cmdHash fileHash dirs false g ↔
      x ∈ (shown i dirs g).nodes ∧ x ≠ g.root ∧ l = printName (title i x) ∧ n = (if x = 1 then none else some x) ∧ w = []) ∧
    (∀ a b st, Line.edge b a st ∈ dumpGraph i cmdHash fileHash dirs false g ↔
      a ∈ (shown i dirs g).nodes ∧ a ≠ g.root ∧ (a, b, st) ∈ (shown i dirs g).edges) ∧
    (∀ x d, Line.dir x d ∈ dumpGraph i cmdHash fileHash dirs false g ↔
      x ∈ g.nodes ∧ x ≠ g.root ∧ dirs = true ∧ d = i.dir x ∧ d ≠ 0 ∧ d ∈ g.nodes) := by
  have hroot : (shown i dirs g).root = g.root := by
    unfold shown
    split
    · rfl
    · exact c93_hidden.2.2.2.2.2
  rw [plain_eq]
  refine ⟨?_, fun x l n w => ?_, fun a b st => ?_, fun x d => ?_⟩
  · rw [about_dumps, hroot]
  · rw [mem_dumps, hroot]
    refine and_congr_right fun _ => and_congr_right fun hr => ?_
    unfold dumpNode
    rw [hroot, if_neg hr, List.find?_nil]
    dsimp only
    rw [ite_self]
    simp only [List.mem_append, List.mem_singleton, List.mem_map, Line.node.injEq, true_and]
    constructor
    · rintro ((⟨h1, h2, h3⟩ | h) | ⟨_, _, h⟩)
      · exact ⟨h1, h2, h3⟩
      · split at h <;> simp at h
      · cases h
    · rintro ⟨h1, h2, h3⟩
      exact .inl (.inl ⟨h1, h2, h3⟩)
  · rw [edge_dumps, hroot]
  · rw [dir_dumps, hroot]
    unfold shown
    cases dirs <;> simp

/-- With `--combine` there is one line for each node that is left but for the root, with the number of nodes that it stands for
(none if it is 1), and one for each edge that is left and does not come from the root. -/
theorem c93_combined (dirs : Bool) (hn : (shown i dirs g).nodes.Nodup) (hh : Hashes i cmdHash fileHash (shown i dirs g) h) :
    (dumpGraph i cmdHash fileHash dirs true g).filterMap Line.about =
      (combine i cmdHash fileHash (shown i dirs g)).g.nodes.filter (· ≠ g.root) ∧
    (∀ x l n w, Line.node x l n w ∈ dumpGraph i cmdHash fileHash dirs true g ↔
      x ∈ (combine i cmdHash fileHash (shown i dirs g)).g.nodes ∧ x ≠ g.root ∧ l = printName (title i x) ∧
        ((size h (shown i dirs g).nodes (h x) = 1 ∧ n = none ∧ w = []) ∨
          (size h (shown i dirs g).nodes (h x) ≠ 1 ∧ n = some (size h (shown i dirs g).nodes (h x)) ∧
            w = if i.kind x = .cmd then " commands".toList else " files".toList))) ∧
    (∀ a b st, Line.edge b a st ∈ dumpGraph i cmdHash fileHash dirs true g ↔
      a ∈ (combine i cmdHash fileHash (shown i dirs g)).g.nodes ∧ a ≠ g.root ∧
        (a, b, st) ∈ (combine i cmdHash fileHash (shown i dirs g)).g.edges) := by
  have hroot : (shown i dirs g).root = g.root := by
    unfold shown
    split
    · rfl
    · exact c93_hidden.2.2.2.2.2
  have hi := end_inv (i := i) (cmdHash := cmdHash) (fileHash := fileHash) hn
  have hp := all_perm (i := i) (cmdHash := cmdHash) (fileHash := fileHash) hn
  have hen := fun x => end_nodes (i := i) (cmdHash := cmdHash) (fileHash := fileHash) hn (x := x)
  rw [← hash_eq hh] at hi
  have hroot' := hi.root.trans hroot
  have heq : dumpGraph i cmdHash fileHash dirs true g =
      (combine i cmdHash fileHash (shown i dirs g)).g.nodes.flatMap
        (dumpNode i (combine i cmdHash fileHash (shown i dirs g)).g dirs (combine i cmdHash fileHash (shown i dirs g)).reps) := by
    unfold dumpGraph
    simp only [if_true]
    rw [List.filter_eq_self.2]
    · rfl
    · intro a ha
      obtain ⟨r, hr, hra⟩ := (hen a).1 ha
      simp only [Bool.or_eq_true, List.any_eq_true, decide_eq_true_eq]
      exact .inr ⟨r, hr, hra⟩
  rw [heq]
  generalize hs : combine i cmdHash fileHash (shown i dirs g) = s at *
  refine ⟨?_, fun x l n w => ?_, fun a b st => ?_⟩
  · rw [about_dumps, hroot']
  · rw [mem_dumps, hroot']
    refine and_congr_right fun hx => and_congr_right fun hr => ?_
    obtain ⟨r, hrm, hrx⟩ := (hen x).1 hx
    have hfind : ∃ r', s.reps.find? (fun r => r.id = x) = some r' := by
      cases hf : s.reps.find? (fun r => r.id = x) with
      | some r' => exact ⟨r', rfl⟩
      | none =>
        have := List.find?_eq_none.1 hf r hrm
        simp [hrx] at this
    obtain ⟨r', hf⟩ := hfind
    have hr'm := List.mem_of_find?_eq_some hf
    have hr'x : r'.id = x := by
      have := List.find?_some (p := fun r : Nd => decide (r.id = x)) hf
      simpa using this
    have hcount : r'.count = size h (shown i dirs g).nodes (h x) := by
      rw [hi.count r' hr'm, size_perm hp, ← hi.hash r' hr'm, hr'x]
    unfold dumpNode
    rw [hroot', if_neg hr, hf]
    dsimp only
    rw [hcount]
    generalize size h (shown i dirs g).nodes (h x) = c
    simp only [List.mem_append, List.mem_singleton, List.mem_map, Line.node.injEq, true_and]
    constructor
    · rintro ((⟨h1, h2, h3⟩ | h) | ⟨_, _, h⟩)
      · refine ⟨h1, ?_⟩
        by_cases hc : c = 1
        · rw [if_pos hc] at h2 h3; exact .inl ⟨hc, h2, h3⟩
        · rw [if_neg hc] at h2 h3; exact .inr ⟨hc, h2, h3⟩
      · split at h <;> simp at h
      · cases h
    · rintro ⟨h1, ⟨hc, h2, h3⟩ | ⟨hc, h2, h3⟩⟩
      · exact .inl (.inl ⟨h1, by rw [if_pos hc, h2], by rw [if_pos hc, h3]⟩)
      · exact .inl (.inl ⟨h1, by rw [if_neg hc, h2], by rw [if_neg hc, h3]⟩)
  · rw [edge_dumps, hroot']

/-! ### Labels -/

/-- The text in quotes says the name, whatever characters are in it, and then what is behind it. -/
theorem c93_label (s rest : Str) : unquote (printName s ++ rest) = (unquote rest).map fun r => (s ++ r.1, r.2) := by
  induction s with
  | nil => simp [printName]
  | cons c s ih =>
    unfold printName
    by_cases h1 : c = '"'
    · subst h1
      rw [if_pos rfl]
      show unquote ('\\' :: '"' :: (printName s ++ rest)) = _
      rw [unquote, ih]
      · cases unquote rest <;> simp
      · simp
    · rw [if_neg h1]
      by_cases h2 : c = '\\'
      · subst h2
        rw [if_pos rfl]
        show unquote ('\\' :: '\\' :: (printName s ++ rest)) = _
        rw [unquote, ih]
        · cases unquote rest <;> simp
        · simp
      · rw [if_neg h2]
        show unquote (c :: (printName s ++ rest)) = _
        rw [unquote, ih]
        · cases unquote rest <;> simp
        all_goals grind

/-! ### The hash of a name -/

theorem pow_le {n : Nat} (h : n ≤ 12) : (31 : Int) ^ n ≤ 787662783788549761 := by
  have : n = 0 ∨ n = 1 ∨ n = 2 ∨ n = 3 ∨ n = 4 ∨ n = 5 ∨ n = 6 ∨ n = 7 ∨ n = 8 ∨ n = 9 ∨ n = 10 ∨ n = 11 ∨ n = 12 := by omega
  rcases this with h | h | h | h | h | h | h | h | h | h | h | h | h <;> subst h <;> decide

theorem hash_up (l : Str) (hl : ∀ c ∈ l, 1 ≤ c.toNat ∧ c.toNat ≤ 127) : ∀ (k : Nat) (v r : Int), (31 : Int) ^ k ≤ v →
    v ≤ 9223372036854775807 →
    l.foldlM (fun h c => getHash h (if c.toNat < 128 then (c.toNat : Int) else (c.toNat : Int) - 256) 1) v = some r →
    (31 : Int) ^ (k + l.length) ≤ r ∧ r ≤ 9223372036854775807 := by
  induction l with
  | nil =>
    intro k v r hv hm h
    simp only [List.foldlM_nil, pure, Option.some.injEq] at h
    subst h
    exact ⟨hv, hm⟩
  | cons c l ih =>
    intro k v r hv hm h
    obtain ⟨c1, c2⟩ := hl c List.mem_cons_self
    rw [List.foldlM_cons, if_pos (by omega)] at h
    unfold getHash at h
    dsimp only at h
    split at h
    · rename_i hc
      have := ih (fun d hd => hl d (List.mem_cons_of_mem _ hd)) (k + 1) (v * 31 + (c.toNat : Int) * 1) r (by
        rw [Int.pow_succ]; omega) hc.2.2.2 h
      rw [List.length_cons, show k + (l.length + 1) = k + 1 + l.length by omega]
      exact this
    · cases h

theorem hash_low (l : Str) (hl : ∀ c ∈ l, 1 ≤ c.toNat ∧ c.toNat ≤ 127) : ∀ (k : Nat) (v : Int), 0 ≤ v → 30 * v + 127 ≤ 157 * (31 : Int) ^ k →
    k + l.length ≤ 12 →
    ∃ r, l.foldlM (fun h c => getHash h (if c.toNat < 128 then (c.toNat : Int) else (c.toNat : Int) - 256) 1) v = some r := by
  induction l with
  | nil => intro k v _ _ _; exact ⟨v, rfl⟩
  | cons c l ih =>
    intro k v h0 hv hk
    obtain ⟨c1, c2⟩ := hl c List.mem_cons_self
    rw [List.length_cons] at hk
    have hp := pow_le (n := k + 1) (by omega)
    have hpow : (31 : Int) ^ (k + 1) = 31 ^ k * 31 := Int.pow_succ 31 k
    rw [List.foldlM_cons, if_pos (by omega)]
    unfold getHash
    dsimp only
    rw [if_pos (by omega)]
    exact ih (fun d hd => hl d (List.mem_cons_of_mem _ hd)) (k + 1) (v * 31 + (c.toNat : Int) * 1) (by omega) (by omega) (by omega)

/-- The first word of a command has a hash if and only if it has at most 12 characters: with a longer one the multiplication
overflows, which is undefined behaviour. -/
theorem c93_overflow (s : Str) (hs : ∀ c ∈ s, 1 ≤ c.toNat ∧ c.toNat ≤ 127) :
    nameHash s 1 = none ↔ 12 < (s.takeWhile (· ≠ ' ')).length := by
  have hl : ∀ c ∈ s.takeWhile (· ≠ ' '), 1 ≤ c.toNat ∧ c.toNat ≤ 127 := fun c hc => hs c ((List.takeWhile_sublist _).subset hc)
  unfold nameHash
  generalize s.takeWhile (· ≠ ' ') = l at *
  constructor
  · intro h
    apply Nat.lt_of_not_le
    intro hle
    obtain ⟨r, hr⟩ := hash_low l hl 0 1 (by omega) (by decide) (by omega)
    rw [hr] at h
    cases h
  · intro hlen
    cases hr : List.foldlM (fun h c => getHash h (if c.toNat < 128 then (c.toNat : Int) else (c.toNat : Int) - 256) 1) 1 l with
    | none => rfl
    | some r =>
      exfalso
      obtain ⟨h1, h2⟩ := hash_up l hl 0 1 r (by decide) (by decide) hr
      have h3 : (31 : Int) ^ 13 ≤ 31 ^ (0 + l.length) := by
        have := Nat.pow_le_pow_right (n := 31) (by decide) (show 13 ≤ 0 + l.length by omega)
        exact_mod_cast this
      have h4 : (31 : Int) ^ 13 = 24417546297445042591 := by decide
      omega

/-! ### Cases -/

/-- Two sources are compiled and linked. -/
def demo : Info where
  kind x := if x = 5 ∨ x = 6 ∨ x = 9 then .cmd else if x = 7 ∨ x = 8 ∨ x = 10 then .generated else if x = 2 then .file else if x = 1 then .dir else .file
  name x := match x with
    | 1 => ".".toList | 2 => "Tupfile".toList | 3 => "b.c".toList | 4 => "a.c".toList | 5 => "gcc -c b.c".toList | 6 => "gcc -c a.c".toList
    | 7 => "b.o".toList | 8 => "a.o".toList | 9 => "ld".toList | 10 => "\"x\"".toList | _ => []
  display _ := none
  dir x := if x = 1 then 0 else 1

def demoG : G := ⟨0, [1, 2, 3, 4, 5, 6, 7, 8, 9, 10],
  [(3, 5, 1), (4, 6, 1), (5, 7, 1), (6, 8, 1), (7, 9, 1), (8, 9, 1), (9, 10, 1), (1, 2, 1)]⟩

/-- The name decides about commands, the neighbours about files. -/
def demoCmd (_ : G) (x : Nat) : Int := if x = 9 then 2 else 1
def demoFile (g : G) (x : Nat) : Int :=
  (g.edges.filter fun e => e.1 = x).foldl (fun (h : Int) (e : Edge) => h * 31 + Int.ofNat (e.2.1 * e.2.2)) 1 * 1000 +
    (g.edges.filter fun e => e.2.1 = x).foldl (fun (h : Int) (e : Edge) => h * 31 - Int.ofNat (e.1 * e.2.2)) 1

example : Proper demoG ∧ Bipartite demo demoG ∧ (shown demo false demoG).nodes = [3, 4, 5, 6, 7, 8, 9, 10] ∧
    dumpGraph demo demoCmd demoFile false true demoG =
      [.node 4 "a.c".toList (some 2) " files".toList, .edge 6 4 1,
        .node 6 "gcc -c a.c".toList (some 2) " commands".toList, .edge 8 6 1,
        .node 8 "a.o".toList (some 2) " files".toList, .edge 9 8 1,
        .node 9 "ld".toList none [], .edge 10 9 1, .node 10 "\\\"x\\\"".toList none []] := by
  refine ⟨⟨by decide, by decide⟩, ?_, by decide +kernel, by decide +kernel⟩
  unfold Bipartite
  decide +kernel

example : ∃ h, Hashes demo demoCmd demoFile (shown demo false demoG) h ∧ h 3 = h 4 ∧ h 5 = h 6 ∧ h 7 = h 8 ∧ h 3 ≠ h 7 :=
  ⟨hashOf demo demoCmd demoFile (shown demo false demoG),
    ⟨fun x hx => by unfold hashOf; rw [if_pos hx], fun x hx => by unfold hashOf; rw [if_neg hx]; rfl⟩, by decide +kernel⟩

example : dumpGraph demo demoCmd demoFile true false ⟨0, [1, 2, 3], [(1, 2, 1)]⟩ =
    [.node 1 ".".toList none [], .edge 2 1 1, .node 2 "Tupfile".toList (some 2) [], .dir 2 1, .node 3 "b.c".toList (some 3) [], .dir 3 1] := by
  decide +kernel

example : unquote (printName "a\\n\"".toList ++ "\\n12\" x".toList) = some ("a\\n\"\n12".toList, " x".toList) := by decide +kernel

example : nameHash "gcc -c".toList 1 = some 131942 ∧ nameHash "x86_64-linux-gnu-gcc -c".toList 1 = none := by decide +kernel

end Tup.Combine
