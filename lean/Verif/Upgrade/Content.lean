import Verif.Upgrade.Spec

namespace Tup.Upgrade

theorem Keeps.refl (n : Node) : Keeps n n := ⟨rfl, rfl, rfl, rfl, rfl, rfl, rfl⟩

theorem Keeps.trans {a b c : Node} (h1 : Keeps a b) (h2 : Keeps b c) : Keeps a c :=
  ⟨h2.1.trans h1.1, h2.2.1.trans h1.2.1, h2.2.2.1.trans h1.2.2.1, h2.2.2.2.1.trans h1.2.2.2.1, h2.2.2.2.2.1.trans h1.2.2.2.2.1, h2.2.2.2.2.2.1.trans h1.2.2.2.2.2.1,
    h2.2.2.2.2.2.2.trans h1.2.2.2.2.2.2⟩

/-- The parts of `expected`. -/
theorem expected_parts {v : Nat} {c c' : Content} (h : expected v c = some c') :
    ∃ c1 c2, c1 = (if v < 12 then dropShadows c else c) ∧ (if v < 14 then toTupConfig c1 else some c1) = some c2 ∧
      c' = (if v < 17 then parseAll (if v < 16 then setSources (if v < 15 then dropGroups c2 else c2) else (if v < 15 then dropGroups c2 else c2))
        else (if v < 16 then setSources (if v < 15 then dropGroups c2 else c2) else (if v < 15 then dropGroups c2 else c2))) := by
  unfold expected at h
  simp only at h
  refine ⟨if v < 12 then dropShadows c else c, ?_⟩
  split at h
  · cases h
  · next c2 e => exact ⟨c2, rfl, e, (Option.some.inj h).symm⟩

theorem toTupConfig_some {c c' : Content} (h : toTupConfig c = some c') :
    ∃ t ∈ withTupConfig c.nodes, isTupConfig t = true ∧
      c'.nodes = ((withTupConfig c.nodes).map fun n => if n.dir = .int 2 then { n with dir := t.id } else n).filter (fun n => n.id != .int 2) ∧
      c'.create = c.create.map (fun x => if x = .int 2 then t.id else x) ∧ c'.modify = c.modify.map (fun x => if x = .int 2 then t.id else x) ∧
      c'.normal = c.normal ∧ c'.sticky = c.sticky ∧ c'.groups = c.groups ∧ c'.vars = c.vars ∧ c'.configs = c.configs ∧ c'.variants = c.variants ∧ c'.transient = c.transient := by
  unfold toTupConfig at h
  split at h
  · cases h
  · next t ht =>
    split at h
    · cases h
    · split at h
      · next l1 l2 e1 e2 =>
        have f : ∀ {l l' : List Val}, moveId t.id l = some l' → l' = l.map (fun x => if x = .int 2 then t.id else x) := by
          intro l l' e
          unfold moveId at e
          split at e
          · cases e
          · exact (Option.some.inj e).symm
        cases h
        exact ⟨t, List.mem_of_find?_eq_some ht, List.find?_some ht, rfl, f e1, f e2, rfl, rfl, rfl, rfl, rfl, rfl, rfl⟩
      · cases h

theorem withTupConfig_mem {l : List Node} {n : Node} (h : n ∈ withTupConfig l) : n ∈ l ∨ (isTupConfig n = true ∧ n.type = .int 5) := by
  unfold withTupConfig at h
  split at h
  · exact .inl h
  · rcases List.mem_append.1 h with h | h
    · exact .inl h
    · rw [List.mem_singleton.1 h]
      exact .inr ⟨rfl, rfl⟩

theorem mem_withTupConfig {l : List Node} {n : Node} (h : n ∈ l) : n ∈ withTupConfig l := by
  unfold withTupConfig
  split
  · exact h
  · exact List.mem_append_left _ h

/-- The last three steps for the nodes. -/
theorem late_nodes (v : Nat) (c2 : Content) :
    (if v < 17 then parseAll (if v < 16 then setSources (if v < 15 then dropGroups c2 else c2) else (if v < 15 then dropGroups c2 else c2))
        else (if v < 16 then setSources (if v < 15 then dropGroups c2 else c2) else (if v < 15 then dropGroups c2 else c2))).nodes =
      (c2.nodes.filter fun n => !decide (v < 15 ∧ n.type = .int 6)).map fun n => if v < 16 ∧ n.type = .int 4 then { n with srcid := n.dir } else n := by
  have hp : ∀ c : Content, (if v < 17 then parseAll c else c).nodes = c.nodes := by intro c; split <;> rfl
  rw [hp]
  have hg : (if v < 15 then dropGroups c2 else c2).nodes = c2.nodes.filter fun n => !decide (v < 15 ∧ n.type = .int 6) := by
    by_cases h : v < 15
    · rw [if_pos h]
      show c2.nodes.filter _ = _
      apply List.filter_congr
      intro n _
      rw [Bool.eq_iff_iff]
      simp [h]
    · rw [if_neg h, List.filter_eq_self.2]
      intro n _
      simp [h]
  by_cases h : v < 16
  · rw [if_pos h]
    show List.map _ _ = _
    rw [hg]
    apply List.map_congr_left
    intro n _
    by_cases h4 : n.type = .int 4
    · rw [if_pos h4, if_pos ⟨h, h4⟩]
    · rw [if_neg h4, if_neg fun x => h4 x.2]
  · rw [if_neg h, hg]
    rw [show (fun n : Node => if v < 16 ∧ n.type = .int 4 then { n with srcid := n.dir } else n) = id from ?_, List.map_id]
    funext n
    rw [if_neg fun x => h x.1]
    rfl

theorem late_keeps (v : Nat) (n : Node) : Keeps n (if v < 16 ∧ n.type = .int 4 then { n with srcid := n.dir } else n) ∧
    (if v < 16 ∧ n.type = .int 4 then { n with srcid := n.dir } else n).dir = n.dir ∧
    (if v < 16 ∧ n.type = .int 4 then { n with srcid := n.dir } else n).srcid = if v < 16 ∧ n.type = .int 4 then n.dir else n.srcid := by
  split <;> exact ⟨⟨rfl, rfl, rfl, rfl, rfl, rfl, rfl⟩, rfl, rfl⟩

theorem early_mem {v : Nat} {c : Content} {n : Node} : n ∈ (if v < 12 then dropShadows c else c).nodes ↔ n ∈ c.nodes ∧ ¬ (v < 12 ∧ Shadow c.nodes n) := by
  by_cases h : v < 12
  · rw [if_pos h]
    simp [dropShadows, h]
  · rw [if_neg h]
    simp [h]

theorem kept {v : Nat} {c c' : Content} (h : expected v c = some c') :
    ∃ T : Val, (v < 14 → ∃ t, (t ∈ c.nodes ∨ t.type = .int 5) ∧ isTupConfig t = true ∧ t.id = T) ∧
      ∀ n ∈ c.nodes, ¬ Dropped v c.nodes n → ∃ n' ∈ c'.nodes, Keeps n n' ∧ n'.dir = if v < 14 ∧ n.dir = .int 2 then T else n.dir := by
  obtain ⟨c1, c2, h1, h2, h3⟩ := expected_parts h
  have hn : c'.nodes = _ := (congrArg Content.nodes h3).trans (late_nodes v c2)
  by_cases hv : v < 14
  · rw [if_pos hv] at h2
    obtain ⟨t, ht, htc, hnodes, _⟩ := toTupConfig_some h2
    refine ⟨t.id, fun _ => ⟨t, ?_, htc, rfl⟩, ?_⟩
    · rcases withTupConfig_mem ht with ht | ht
      · rw [h1] at ht
        exact .inl (early_mem.1 ht).1
      · exact .inr ht.2
    · intro n hnm hd
      have hm1 : n ∈ c1.nodes := by
        rw [h1]
        exact early_mem.2 ⟨hnm, fun x => hd (.inl x)⟩
      have hm2 : (if n.dir = .int 2 then { n with dir := t.id } else n) ∈ c2.nodes := by
        rw [hnodes, List.mem_filter]
        refine ⟨List.mem_map.2 ⟨n, mem_withTupConfig hm1, rfl⟩, ?_⟩
        have : n.id ≠ .int 2 := fun x => hd (.inr (.inl ⟨hv, x⟩))
        split <;> simpa using this
      have hk2 : Keeps n (if n.dir = .int 2 then { n with dir := t.id } else n) ∧
          (if n.dir = .int 2 then { n with dir := t.id } else n).dir = if v < 14 ∧ n.dir = .int 2 then t.id else n.dir := by
        by_cases h2 : n.dir = .int 2
        · rw [if_pos h2, if_pos ⟨hv, h2⟩]; exact ⟨⟨rfl, rfl, rfl, rfl, rfl, rfl, rfl⟩, rfl⟩
        · rw [if_neg h2, if_neg fun x => h2 x.2]; exact ⟨Keeps.refl n, rfl⟩
      revert hm2 hk2
      generalize (if n.dir = .int 2 then { n with dir := t.id } else n) = m
      intro hm2 hk2
      have h6 : ¬ (v < 15 ∧ m.type = .int 6) := fun x => hd (.inr (.inr ⟨x.1, hk2.1.2.1 ▸ x.2⟩))
      exact ⟨_, by rw [hn]; exact List.mem_map.2 ⟨m, List.mem_filter.2 ⟨hm2, by simp [h6]⟩, rfl⟩, hk2.1.trans (late_keeps v m).1, (late_keeps v m).2.1.trans hk2.2⟩
  · rw [if_neg hv] at h2
    cases h2
    refine ⟨.null, fun x => absurd x hv, ?_⟩
    intro n hnm hd
    have hm1 : n ∈ c1.nodes := by
      rw [h1]
      exact early_mem.2 ⟨hnm, fun x => hd (.inl x)⟩
    have h6 : ¬ (v < 15 ∧ n.type = .int 6) := fun x => hd (.inr (.inr x))
    refine ⟨_, by rw [hn]; exact List.mem_map.2 ⟨n, List.mem_filter.2 ⟨hm1, by simp [h6]⟩, rfl⟩, (late_keeps v n).1, ?_⟩
    rw [if_neg (show ¬ (v < 14 ∧ n.dir = .int 2) from fun x => hv x.1)]
    exact (late_keeps v n).2.1

theorem only {v : Nat} {c c' : Content} (h : expected v c = some c') {n' : Node} (hn' : n' ∈ c'.nodes) :
    (∃ n ∈ c.nodes, Keeps n n' ∧ ¬ Dropped v c.nodes n) ∨ (v < 14 ∧ isTupConfig n' = true ∧ n'.type = .int 5) := by
  obtain ⟨c1, c2, h1, h2, h3⟩ := expected_parts h
  have hn : c'.nodes = _ := (congrArg Content.nodes h3).trans (late_nodes v c2)
  rw [hn] at hn'
  obtain ⟨m, hm, rfl⟩ := List.mem_map.1 hn'
  obtain ⟨hm2, hm6⟩ := List.mem_filter.1 hm
  simp only [Bool.not_eq_true', decide_eq_false_iff_not] at hm6
  obtain ⟨hk, hkd, _⟩ := late_keeps v m
  by_cases hv : v < 14
  · rw [if_pos hv] at h2
    obtain ⟨t, ht, htc, hnodes, _⟩ := toTupConfig_some h2
    rw [hnodes, List.mem_filter] at hm2
    obtain ⟨hm3, hid⟩ := hm2
    obtain ⟨n, hnw, e⟩ := List.mem_map.1 hm3
    have hkn : Keeps n m := by rw [← e]; split <;> exact ⟨rfl, rfl, rfl, rfl, rfl, rfl, rfl⟩
    rcases withTupConfig_mem hnw with hnw | ⟨hc1, hc2⟩
    · left
      rw [h1] at hnw
      obtain ⟨hn1, hn2⟩ := early_mem.1 hnw
      refine ⟨n, hn1, hkn.trans hk, ?_⟩
      rintro (x | ⟨_, x⟩ | ⟨x, y⟩)
      · exact hn2 x
      · rw [hkn.1, x] at hid; simp at hid
      · exact hm6 ⟨x, hkn.2.1.trans y⟩
    · right
      refine ⟨hv, ?_, hk.2.1.trans (hkn.2.1.trans hc2)⟩
      simp only [isTupConfig, Bool.and_eq_true, beq_iff_eq] at hc1 ⊢
      have : n.dir ≠ .int 2 := by rw [hc1.1]; simp
      rw [if_neg this] at e
      rw [hkd, hk.2.2.1, ← e]
      exact hc1
  · rw [if_neg hv] at h2
    cases h2
    rw [h1] at hm2
    obtain ⟨hn1, hn2⟩ := early_mem.1 hm2
    refine .inl ⟨m, hn1, hk, ?_⟩
    rintro (x | x | x)
    · exact hn2 x
    · exact hv x.1
    · exact hm6 x

theorem early_rest (v : Nat) (c : Content) : ∃ nodes, (if v < 12 then dropShadows c else c) = { c with nodes := nodes } := by
  by_cases h : v < 12
  · rw [if_pos h]; exact ⟨_, rfl⟩
  · rw [if_neg h]; exact ⟨_, rfl⟩

/-- The parts of the last three steps other than the nodes. -/
theorem late_rest (v : Nat) (c2 : Content) (x : Content)
    (hx : x = (if v < 17 then parseAll (if v < 16 then setSources (if v < 15 then dropGroups c2 else c2) else (if v < 15 then dropGroups c2 else c2))
        else (if v < 16 then setSources (if v < 15 then dropGroups c2 else c2) else (if v < 15 then dropGroups c2 else c2)))) :
    x.normal = c2.normal ∧ x.sticky = c2.sticky.filter (fun l => !decide (v < 15 ∧ (IsGroup c2.nodes l.1 ∨ IsGroup c2.nodes l.2))) ∧ x.groups = c2.groups ∧ x.vars = c2.vars ∧
      x.modify = c2.modify ∧ x.configs = c2.configs ∧ x.variants = c2.variants ∧ x.transient = c2.transient ∧
      x.create = if v < 17 then c2.create.filter (fun y => !(dirs x.nodes).contains y) ++ dirs x.nodes else c2.create := by
  have hg : ∃ ns, (if v < 15 then dropGroups c2 else c2) = { c2 with nodes := ns, sticky := c2.sticky.filter (fun l => !decide (v < 15 ∧ (IsGroup c2.nodes l.1 ∨ IsGroup c2.nodes l.2))) } := by
    by_cases h : v < 15
    · rw [if_pos h]
      refine ⟨c2.nodes.filter fun n => n.type != .int 6, ?_⟩
      unfold dropGroups
      congr 1
      apply List.filter_congr
      intro l _
      rw [Bool.eq_iff_iff]
      simp [h]
    · rw [if_neg h]
      refine ⟨c2.nodes, ?_⟩
      rw [List.filter_eq_self.2]
      intro l _
      simp [h]
  obtain ⟨ns, hg⟩ := hg
  have hs : ∃ ms, (if v < 16 then setSources (if v < 15 then dropGroups c2 else c2) else (if v < 15 then dropGroups c2 else c2)) = { c2 with nodes := ms, sticky := c2.sticky.filter (fun l => !decide (v < 15 ∧ (IsGroup c2.nodes l.1 ∨ IsGroup c2.nodes l.2))) } := by
    rw [hg]
    split <;> exact ⟨_, rfl⟩
  obtain ⟨ms, hs⟩ := hs
  rw [hs] at hx
  by_cases h : v < 17
  · rw [if_pos h] at hx
    rw [if_pos h]
    subst hx
    exact ⟨rfl, rfl, rfl, rfl, rfl, rfl, rfl, rfl, rfl⟩
  · rw [if_neg h] at hx
    rw [if_neg h]
    subst hx
    exact ⟨rfl, rfl, rfl, rfl, rfl, rfl, rfl, rfl, rfl⟩

end Tup.Upgrade
