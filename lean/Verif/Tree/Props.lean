import Verif.Tree.Lemmas

/-! C47, C49, C26: sets of ids, variable stores and walks over two of them. -/

namespace Tup.Tree

/-- C47: in every history of additions, removals and lookups on an initially empty set, with any rebalancing
of the tree, all answers are those of a mathematical set, the tree holds exactly the ids of that set in
ascending order, and the counter is their number, provided that all ids lie in an interval of length
`2 ^ 31`. -/
theorem c47_id_sets {lo : Int} {l : List (IdOp × Bool)} {u : IdSet} (h : IdRun ⟨.nil, 0⟩ l u)
    (hw : ∀ p ∈ l, lo ≤ p.1.id ∧ p.1.id < lo + 2 ^ 31) :
    ∃ S, setRun (fun _ => false) l = some S ∧ (∀ i, i ∈ u.root.toList ↔ S i = true) ∧
      u.root.toList.Pairwise (· < ·) ∧ u.count = u.root.toList.length := by
  obtain ⟨S, h1, h2⟩ := sameIds_run (lo := lo) h (S := fun _ => false)
    ⟨⟨by simp [T.toList], by simp [T.toList]⟩, by simp [T.toList], rfl⟩ hw
  refine ⟨S, h1, h2.mem, ?_, h2.count⟩
  refine List.Pairwise.imp_of_mem ?_ h2.ordered.2
  intro a b ha hb hab
  have := idCmp_window (h2.ordered.1 a ha) (h2.ordered.1 b hb)
  simp only [id] at hab this
  omega

example : ∃ l u, IdRun ⟨.nil, 0⟩ l u ∧ (∀ p ∈ l, (1 : Int) ≤ p.1.id ∧ p.1.id < 1 + 2 ^ 31) ∧
    l = [(.add 5, true), (.add 7, true), (.add 5, false), (.add 9, true), (.remove 7, true), (.search 7, false),
      (.search 9, true)] ∧ u.count = 2 := by
  refine ⟨_, ⟨.node .nil 5 (.node .nil 9 .nil), 2⟩, ?_, ?_, rfl, rfl⟩
  · refine .cons (t := ⟨.node .nil 5 .nil, 1⟩) (by decide) (.refl _) ?_
    refine .cons (t := ⟨.node .nil 5 (.node .nil 7 .nil), 2⟩) (by decide) (.refl _) ?_
    refine .cons (t := ⟨.node .nil 5 (.node .nil 7 .nil), 2⟩) (by decide) (.refl _) ?_
    refine .cons (t := ⟨.node .nil 5 (.node .nil 7 (.node .nil 9 .nil)), 3⟩) (by decide)
      (.left .nil 5 .nil 7 (.node .nil 9 .nil)) ?_
    refine .cons (t := ⟨.node (.node .nil 5 .nil) 9 .nil, 2⟩) (by decide) (.right .nil 5 .nil 9 .nil) ?_
    refine .cons (t := ⟨.node .nil 5 (.node .nil 9 .nil), 2⟩) (by decide) (.refl _) ?_
    refine .cons (t := ⟨.node .nil 5 (.node .nil 9 .nil), 2⟩) (by decide) (.refl _) ?_
    exact .nil _
  · decide

/-- The interval cannot be dropped: two ids that are `2 ^ 32` apart are taken for the same id. -/
theorem c47_false_for_far_ids :
    IdRun ⟨.nil, 0⟩ [(.add 1, true), (.search (1 + 2 ^ 32), true)] ⟨.node .nil 1 .nil, 1⟩ ∧
    setRun (fun _ => false) [(.add 1, true), (.search (1 + 2 ^ 32), true)] = none := by
  constructor
  · refine .cons (t := ⟨.node .nil 1 .nil, 1⟩) (by decide) (.refl _) ?_
    refine .cons (t := ⟨.node .nil 1 .nil, 1⟩) (by decide) (.refl _) ?_
    exact .nil _
  · rfl

/-- ... and two ids `2 ^ 31` apart are each less than the other. -/
theorem c47_no_order_at_the_bound : idCmp 0 (2 ^ 31) < 0 ∧ idCmp (2 ^ 31) 0 < 0 := by decide

/-- C49: in every history of operations on an initially empty variable store, with any rebalancing of the
tree, all answers are those of a map from names to values, the store holds exactly the entries of that map,
in ascending order of their names, and the counter is their number. -/
theorem c49_variable_stores {l : List (VarOp × VarAns)} {u : Vardb} (h : VarRun ⟨.nil, 0⟩ l u) :
    ∃ M, mapRun (fun _ => none) l = some M ∧ (∀ n v, ⟨n, v⟩ ∈ u.root.toList ↔ M n = some v) ∧
      u.root.toList.Pairwise (fun a b => strcmp a.name b.name < 0) ∧ u.count = u.root.toList.length := by
  obtain ⟨M, h1, h2⟩ := sameVars_run h (M := fun _ => none)
    ⟨⟨by simp [T.toList], by simp [T.toList]⟩, by simp [T.toList], rfl⟩
  exact ⟨M, h1, h2.mem, h2.ordered.2, h2.count⟩

example : VarRun ⟨.nil, 0⟩
    [(.append "b".toList "x".toList, .unit), (.append "b".toList "y".toList, .unit),
      (.set "a".toList (some "q".toList), .unit), (.copy "b".toList, .bytes "x y".toList),
      (.copy "c".toList, .bytes []), (.get "a".toList, .entry (some (some "q".toList)))]
    ⟨.node .nil ⟨"a".toList, some "q".toList⟩ (.node .nil ⟨"b".toList, some "x y".toList⟩ .nil), 2⟩ := by
  refine .cons (t := ⟨.node .nil ⟨"b".toList, some "x".toList⟩ .nil, 1⟩) (by decide) (.refl _) ?_
  refine .cons (t := ⟨.node .nil ⟨"b".toList, some "x y".toList⟩ .nil, 1⟩) (by decide) (.refl _) ?_
  refine .cons (t := ⟨.node (.node .nil ⟨"a".toList, some "q".toList⟩ .nil) ⟨"b".toList, some "x y".toList⟩ .nil, 2⟩)
    (by decide) (.right _ _ _ _ _) ?_
  refine .cons (t := ⟨.node .nil ⟨"a".toList, some "q".toList⟩
    (.node .nil ⟨"b".toList, some "x y".toList⟩ .nil), 2⟩) (by decide) (.refl _) ?_
  refine .cons (t := ⟨.node .nil ⟨"a".toList, some "q".toList⟩
    (.node .nil ⟨"b".toList, some "x y".toList⟩ .nil), 2⟩) (by decide) (.refl _) ?_
  refine .cons (t := ⟨.node .nil ⟨"a".toList, some "q".toList⟩
    (.node .nil ⟨"b".toList, some "x y".toList⟩ .nil), 2⟩) (by decide) (.refl _) ?_
  exact .nil _

/-- C26, variables: comparing two stores calls back exactly for the names that are only in the first, for
those that are only in the second and for those that are in both, once for every name, in ascending order. -/
theorem c26_compare_vars {l l' : List (VarOp × VarAns)} {u v : Vardb} (hu : VarRun ⟨.nil, 0⟩ l u)
    (hv : VarRun ⟨.nil, 0⟩ l' v) :
    let calls := walk (fun x y => strcmp x.name y.name) u.root.toList v.root.toList
    (∀ x, .onlyA x ∈ calls ↔ x ∈ u.root.toList ∧ ∀ y ∈ v.root.toList, y.name ≠ x.name) ∧
    (∀ y, .onlyB y ∈ calls ↔ y ∈ v.root.toList ∧ ∀ x ∈ u.root.toList, x.name ≠ y.name) ∧
    (∀ x y, .both x y ∈ calls ↔ x ∈ u.root.toList ∧ y ∈ v.root.toList ∧ x.name = y.name) ∧
    calls.Pairwise (fun e f => strcmp e.elem.name f.elem.name < 0) := by
  obtain ⟨_, _, h1⟩ := sameVars_run hu (M := fun _ => none)
    ⟨⟨by simp [T.toList], by simp [T.toList]⟩, by simp [T.toList], rfl⟩
  obtain ⟨_, _, h2⟩ := sameVars_run hv (M := fun _ => none)
    ⟨⟨by simp [T.toList], by simp [T.toList]⟩, by simp [T.toList], rfl⟩
  obtain ⟨w1, w2, w3⟩ := walk_spec strcmp_lawful _ _ h1.ordered h2.ordered
  exact ⟨w1, w2, w3, walk_sorted strcmp_lawful _ _ h1.ordered h2.ordered⟩

/-- C26, ids: the same for two sets of ids whose ids lie in one interval of length `2 ^ 31`.  The walk compares
all 64 bits (src/tup/db.c:5773). -/
theorem c26_compare_ids {lo : Int} {l l' : List (IdOp × Bool)} {u v : IdSet} (hu : IdRun ⟨.nil, 0⟩ l u)
    (hv : IdRun ⟨.nil, 0⟩ l' v) (hw : ∀ p ∈ l, lo ≤ p.1.id ∧ p.1.id < lo + 2 ^ 31)
    (hw' : ∀ p ∈ l', lo ≤ p.1.id ∧ p.1.id < lo + 2 ^ 31) :
    let calls := walk (fun x y => x - y) u.root.toList v.root.toList
    (∀ x, .onlyA x ∈ calls ↔ x ∈ u.root.toList ∧ x ∉ v.root.toList) ∧
    (∀ y, .onlyB y ∈ calls ↔ y ∈ v.root.toList ∧ y ∉ u.root.toList) ∧
    calls.Pairwise (fun e f => e.elem < f.elem) := by
  obtain ⟨_, _, _, h1, _⟩ := c47_id_sets hu hw
  obtain ⟨_, _, _, h2, _⟩ := c47_id_sets hv hw'
  have law : Lawful (fun x y : Int => x - y) (fun _ => True) :=
    ⟨fun a b _ _ => by omega, fun a b _ _ => by omega, fun a b c _ _ _ => by omega⟩
  have o1 : Ordered (fun x y : Int => x - y) (fun _ => True) id u.root.toList :=
    ⟨fun _ _ => trivial, h1.imp fun h => by simp only [id]; omega⟩
  have o2 : Ordered (fun x y : Int => x - y) (fun _ => True) id v.root.toList :=
    ⟨fun _ _ => trivial, h2.imp fun h => by simp only [id]; omega⟩
  obtain ⟨w1, w2, _⟩ := walk_spec law _ _ o1 o2
  refine ⟨?_, ?_, ?_⟩
  · intro x
    refine (w1 x).trans (and_congr_right fun _ => ⟨fun h hx => h x hx rfl, fun h y hy he => ?_⟩)
    simp only [id] at he
    exact h (he ▸ hy)
  · intro y
    refine (w2 y).trans (and_congr_right fun _ => ⟨fun h hx => h y hx rfl, fun h x hx he => ?_⟩)
    simp only [id] at he
    exact h (he ▸ hx)
  · refine (walk_sorted law _ _ o1 o2).imp fun h => ?_
    simp only [id] at h
    omega

example : walk (fun x y : Int => x - y) [1, 3, 4] [2, 3, 9] =
    [.onlyA 1, .onlyB 2, .both 3 3, .onlyA 4, .onlyB 9] := by
  simp [walk]

end Tup.Tree
