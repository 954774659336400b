import Verif.Watch.Spec

/-! Lemmas for C104. -/

namespace Tup.Watch

variable {bal : Tree → Tree} {c c' : Cache} {key : Nat → Int} {w v d : Nat}

theorem find_filter (w v : Nat) : ∀ l : List (Nat × Option Nat), find w (l.filter fun e => e.1 ≠ v) = if w = v then none else find w l
  | [] => by simp [find]
  | (u, x) :: l => by
    have ih := find_filter w v l
    by_cases hu : u = v
    · rw [List.filter_cons_of_neg (by simp [hu]), ih, find]
      by_cases hw : w = v
      · rw [if_pos hw, if_pos hw]
      · rw [if_neg hw, if_neg hw, if_neg (by omega)]
    · rw [List.filter_cons_of_pos (by simp [hu]), find, ih, find]
      by_cases hw : w = v
      · rw [if_pos hw, if_pos hw, if_neg (by omega)]
      · rw [if_neg hw, if_neg hw]

theorem find_disable (w v : Nat) : ∀ l : List (Nat × Option Nat), find w (l.map fun e => if e.1 = v then (e.1, none) else e) =
    if w = v then (find w l).map fun _ => none else find w l
  | [] => by simp [find]
  | (u, x) :: l => by
    have ih := find_disable w v l
    rw [List.map_cons, find]
    by_cases hu : u = v
    · rw [if_pos hu, find, ih]
      by_cases hw : w = v
      · rw [if_pos hw, if_pos hw, if_pos (by omega), if_pos (by omega)]; rfl
      · rw [if_neg hw, if_neg hw, if_neg (by omega), if_neg (by omega)]
    · rw [if_neg hu, find, ih]
      by_cases hw : w = v
      · rw [if_pos hw, if_pos hw, if_neg (by omega), if_neg (by omega)]
      · rw [if_neg hw, if_neg hw]

theorem del_lookup (h : del bal c v = some c') (w : Nat) : c'.lookupWd w = if w = v then none else c.lookupWd w := by
  unfold del at h
  split at h
  · cases h
    exact find_filter w v c.entries
  · cases h

theorem add_lookup (h : add bal c v d = some c') (w : Nat) : c'.lookupWd w = if v = w then some (some d) else c.lookupWd w := by
  unfold add at h
  split at h
  · cases h
  · rename_i c1 h1
    have hc1 : v ≠ w → c1.lookupWd w = c.lookupWd w := fun hv => by
      split at h1
      · rw [del_lookup h1, if_neg (by omega)]
      · cases h1; rfl
    have : c'.lookupWd w = find w ((v, some d) :: c1.entries) := by
      simp only at h
      split at h <;> cases h <;> rfl
    rw [this, find]
    by_cases hv : v = w
    · rw [if_pos hv, if_pos hv]
    · rw [if_neg hv, if_neg hv]; exact hc1 hv

theorem search_sound {d : Int} : ∀ {t : Tree}, search key d t = some w → key w = d ∧ w ∈ t.inorder
  | .leaf, h => by cases h
  | .node l v r, h => by
    unfold search at h
    unfold Tree.inorder
    split at h
    · obtain ⟨h1, h2⟩ := search_sound h
      exact ⟨h1, List.mem_append_left _ h2⟩
    · split at h
      · obtain ⟨h1, h2⟩ := search_sound h
        exact ⟨h1, List.mem_append_right _ (List.mem_cons_of_mem _ h2)⟩
      · cases h
        exact ⟨by omega, List.mem_append_right _ List.mem_cons_self⟩

theorem key_eq (h : c.key w = (d : Int)) : c.lookupWd w = some (some d) := by
  unfold Cache.key at h
  split at h
  · rename_i e he
    rw [he]
    have : e = d := by omega
    rw [this]
  · omega

theorem lookupDt_some (h : c.lookupDt d = some w) : c.lookupWd w = some (some d) ∧ w ∈ c.tree.inorder := by
  obtain ⟨h1, h2⟩ := search_sound h
  exact ⟨key_eq h1, h2⟩

theorem sorted_node {l r : Tree} (h : ((Tree.node l w r).inorder).Pairwise fun a b => key a < key b) :
    (l.inorder.Pairwise fun a b => key a < key b) ∧ (r.inorder.Pairwise fun a b => key a < key b) ∧ (∀ a ∈ l.inorder, key a < key w) ∧
      ∀ a ∈ r.inorder, key w < key a := by
  unfold Tree.inorder at h
  obtain ⟨h1, h2, h3⟩ := List.pairwise_append.1 h
  obtain ⟨h4, h5⟩ := List.pairwise_cons.1 h2
  exact ⟨h1, h5, fun a ha => h3 a ha w List.mem_cons_self, h4⟩

theorem search_complete {d : Int} : ∀ {t : Tree}, (t.inorder.Pairwise fun a b => key a < key b) → w ∈ t.inorder → key w = d → search key d t = some w
  | .leaf, _, h, _ => by cases h
  | .node l v r, hs, h, hd => by
    obtain ⟨h1, h2, h3, h4⟩ := sorted_node hs
    unfold search
    rcases List.mem_append.1 h with h | h
    · rw [if_pos (by have := h3 w h; omega)]
      exact search_complete h1 h hd
    · rcases List.mem_cons.1 h with rfl | h
      · rw [if_neg (by omega), if_neg (by omega)]
      · have := h4 w h
        rw [if_neg (by omega), if_pos (by omega)]
        exact search_complete h2 h hd

theorem insert_sorted : ∀ {t : Tree}, (t.inorder.Pairwise fun a b => key a < key b) → (∀ v ∈ t.inorder, key v ≠ key w) →
    ∃ t', insert key w t = some t' ∧ (t'.inorder.Pairwise fun a b => key a < key b) ∧ ∀ v, v ∈ t'.inorder ↔ v = w ∨ v ∈ t.inorder
  | .leaf, _, _ => ⟨_, rfl, by simp [Tree.inorder], by simp [Tree.inorder]⟩
  | .node l v r, hs, hn => by
    obtain ⟨h1, h2, h3, h4⟩ := sorted_node hs
    have hv := hn v (by simp [Tree.inorder])
    unfold insert
    by_cases hlt : key w < key v
    · rw [if_pos hlt]
      obtain ⟨t, e1, e2, e3⟩ := insert_sorted h1 (fun u hu => hn u (by simp [Tree.inorder, hu]))
      refine ⟨.node t v r, by rw [e1]; rfl, ?_, fun u => ?_⟩
      · unfold Tree.inorder
        refine List.pairwise_append.2 ⟨e2, List.pairwise_cons.2 ⟨h4, h2⟩, fun a ha b hb => ?_⟩
        have hav : key a < key v := by
          rcases (e3 a).1 ha with rfl | ha
          · exact hlt
          · exact h3 a ha
        rcases List.mem_cons.1 hb with rfl | hb
        · exact hav
        · exact Int.lt_trans hav (h4 b hb)
      · simp only [Tree.inorder, List.mem_append, e3, List.mem_cons]
        grind
    · rw [if_neg hlt, if_pos (by omega)]
      obtain ⟨t, e1, e2, e3⟩ := insert_sorted h2 (fun u hu => hn u (by simp [Tree.inorder, hu]))
      refine ⟨.node l v t, by rw [e1]; rfl, ?_, fun u => ?_⟩
      · unfold Tree.inorder
        have hva : ∀ a ∈ t.inorder, key v < key a := fun a ha => by
          rcases (e3 a).1 ha with rfl | ha
          · omega
          · exact h4 a ha
        refine List.pairwise_append.2 ⟨h1, List.pairwise_cons.2 ⟨hva, e2⟩, fun a ha b hb => ?_⟩
        rcases List.mem_cons.1 hb with rfl | hb
        · exact h3 a ha
        · exact Int.lt_trans (h3 a ha) (hva b hb)
      · simp only [Tree.inorder, List.mem_append, e3, List.mem_cons]
        grind

theorem join_inorder : ∀ l r : Tree, (join l r).inorder = l.inorder ++ r.inorder
  | .leaf, r => rfl
  | .node a w b, r => by simp [join, Tree.inorder, join_inorder b r]

theorem remove_inorder (w : Nat) : ∀ t : Tree, (remove w t).inorder = t.inorder.filter fun v => v ≠ w
  | .leaf => rfl
  | .node l v r => by
    unfold remove
    by_cases h : v = w
    · rw [if_pos h, join_inorder, remove_inorder w l, remove_inorder w r]
      simp [Tree.inorder, h]
    · rw [if_neg h]
      unfold Tree.inorder
      rw [remove_inorder w l, remove_inorder w r, List.filter_append, List.filter_cons_of_pos (by simp [h])]

/-- The table is in order: the tree has all watches, and those that are not disabled are sorted by their directories. -/
structure Good (c : Cache) : Prop where
  mem : ∀ w, w ∈ c.tree.inorder ↔ (c.lookupWd w).isSome = true
  sorted : c.tree.inorder.Pairwise fun v w => ∀ a b, c.lookupWd v = some (some a) → c.lookupWd w = some (some b) → a < b

theorem good_empty : Good empty := ⟨fun w => by simp [empty, Tree.inorder, Cache.lookupWd, find], .nil⟩

theorem del_good (hb : ∀ t, (bal t).inorder = t.inorder) (hg : Good c) (hw : (c.lookupWd w).isSome = true) : ∃ c', del bal c w = some c' ∧ Good c' := by
  have hm := (hg.mem w).2 hw
  have hd : del bal c w = some { entries := c.entries.filter fun e => e.1 ≠ w, tree := bal (remove w c.tree) } := if_pos hm
  refine ⟨_, hd, ⟨fun v => ?_, ?_⟩⟩
  · rw [del_lookup hd]
    show v ∈ (bal _).inorder ↔ _
    rw [hb, remove_inorder, List.mem_filter, hg.mem]
    by_cases h : v = w
    · simp [h]
    · simp [h]
  · show (bal _).inorder.Pairwise _
    rw [hb, remove_inorder]
    refine (hg.sorted.filter _).imp ?_
    intro a b h x y hx hy
    rw [del_lookup hd] at hx hy
    split at hx
    · cases hx
    · split at hy
      · cases hy
      · exact h x y hx hy

theorem disable_lookup (c : Cache) (v w : Nat) : (disable c v).lookupWd w = if w = v then (c.lookupWd w).map fun _ => none else c.lookupWd w :=
  find_disable w v c.entries

theorem disable_good (hg : Good c) (v : Nat) : Good (disable c v) := by
  refine ⟨fun w => ?_, ?_⟩
  · show w ∈ c.tree.inorder ↔ _
    rw [hg.mem, disable_lookup]
    by_cases h : w = v
    · rw [if_pos h]; cases c.lookupWd w <;> simp
    · rw [if_neg h]
  · refine hg.sorted.imp ?_
    intro a b h x y hx hy
    rw [disable_lookup] at hx hy
    split at hx
    · cases h' : c.lookupWd a <;> rw [h'] at hx <;> cases hx
    · split at hy
      · cases h' : c.lookupWd b <;> rw [h'] at hy <;> cases hy
      · exact h x y hx hy

/-- Nothing is disabled: the tree is sorted. -/
theorem Good.keys (hg : Good c) (hn : ∀ v, c.lookupWd v ≠ some none) : c.tree.inorder.Pairwise fun a b => c.key a < c.key b := by
  have : ∀ v ∈ c.tree.inorder, ∃ d : Nat, c.lookupWd v = some (some d) := fun v hv => by
    obtain ⟨x, hx⟩ := Option.isSome_iff_exists.1 ((hg.mem v).1 hv)
    cases x with
    | none => exact absurd hx (hn v)
    | some d => exact ⟨d, hx⟩
  refine hg.sorted.imp_of_mem ?_
  intro a b ha hb h
  obtain ⟨x, hx⟩ := this a ha
  obtain ⟨y, hy⟩ := this b hb
  have := h x y hx hy
  unfold Cache.key
  rw [hx, hy]
  show (x : Int) < y
  omega

theorem add_good (hb : ∀ t, (bal t).inorder = t.inorder) (hg : Good c) (hn : ∀ v, c.lookupWd v ≠ some none)
    (hd : ∀ v, v ≠ w → c.lookupWd v ≠ some (some d)) : ∃ c', add bal c w d = some c' ∧ Good c' := by
  have h1 : ∃ c1, (if (c.lookupWd w).isSome then del bal c w else some c) = some c1 ∧ Good c1 ∧ ∀ v, c1.lookupWd v = if v = w then none else c.lookupWd v := by
    split
    · rename_i hw
      obtain ⟨c1, e1, e2⟩ := del_good hb hg hw
      exact ⟨c1, e1, e2, fun v => del_lookup e1 v⟩
    · rename_i hw
      refine ⟨c, rfl, hg, fun v => ?_⟩
      split
      · rename_i hv
        rw [hv]
        cases h : c.lookupWd w with
        | none => rfl
        | some x => rw [h] at hw; exact absurd rfl hw
      · rfl
  obtain ⟨c1, e1, e2, e3⟩ := h1
  have hn1 : ∀ v, c1.lookupWd v ≠ some none := fun v hv => by
    rw [e3] at hv
    split at hv
    · cases hv
    · exact hn v hv
  have hlk : ∀ v, ({ c1 with entries := (w, some d) :: c1.entries } : Cache).lookupWd v = if v = w then some (some d) else c1.lookupWd v := fun v => by
    show find v ((w, some d) :: c1.entries) = _
    rw [find]
    by_cases h : v = w
    · rw [if_pos h, if_pos h.symm]
    · rw [if_neg h, if_neg (fun h' => h h'.symm)]; rfl
  have hw1 : w ∉ c1.tree.inorder := fun h => by
    have := (e2.mem w).1 h
    rw [e3, if_pos rfl] at this
    cases this
  have hkey : ∀ v ∈ c1.tree.inorder, ({ c1 with entries := (w, some d) :: c1.entries } : Cache).key v = c1.key v := fun v hv => by
    have hvw : v ≠ w := fun h => hw1 (h ▸ hv)
    unfold Cache.key
    rw [hlk, if_neg hvw]
  have hkw : ({ c1 with entries := (w, some d) :: c1.entries } : Cache).key w = d := by
    unfold Cache.key
    rw [hlk, if_pos rfl]
  have hs : c1.tree.inorder.Pairwise fun a b => ({ c1 with entries := (w, some d) :: c1.entries } : Cache).key a < ({ c1 with entries := (w, some d) :: c1.entries } : Cache).key b := by
    refine (e2.keys hn1).imp_of_mem ?_
    intro a b ha hb h
    rw [hkey a ha, hkey b hb]
    exact h
  obtain ⟨t, f1, f2, f3⟩ := insert_sorted (w := w) hs (fun v hv => by
    rw [hkey v hv, hkw]
    intro he
    have h1 := key_eq he
    have hvw : v ≠ w := fun h => hw1 (h ▸ hv)
    rw [e3, if_neg hvw] at h1
    exact hd v hvw h1)
  refine ⟨{ c1 with entries := (w, some d) :: c1.entries, tree := bal t }, ?_, ?_⟩
  · unfold add
    rw [e1]
    simp only [f1]
  · have hlk' : ∀ v, ({ c1 with entries := (w, some d) :: c1.entries, tree := bal t } : Cache).lookupWd v = if v = w then some (some d) else c1.lookupWd v := hlk
    refine ⟨fun v => ?_, ?_⟩
    · show v ∈ (bal t).inorder ↔ _
      rw [hb, f3, e2.mem, hlk']
      by_cases h : v = w
      · simp [h]
      · simp [h]
    · show (bal t).inorder.Pairwise _
      rw [hb]
      refine f2.imp ?_
      intro a b h x y hx hy
      have hx : ({ c1 with entries := (w, some d) :: c1.entries } : Cache).lookupWd a = some (some x) := hx
      have hy : ({ c1 with entries := (w, some d) :: c1.entries } : Cache).lookupWd b = some (some y) := hy
      unfold Cache.key at h
      rw [hx, hy] at h
      have h : (x : Int) < y := h
      omega

theorem step_last {c c' : Cache} {o : Op} {w d : Nat} (h : step bal c o = some c') (hd : c'.lookupWd w = some (some d)) :
    (∃ v, o = .watch v d ∧ v = w) ∨
      (c.lookupWd w = some (some d) ∧ (∀ e, o ≠ .watch w e) ∧ o ≠ .queued w ∧ o ≠ .handled w) := by
  cases o with
  | watch v e =>
    rw [add_lookup h] at hd
    split at hd
    · rename_i hv
      cases hd
      exact .inl ⟨v, rfl, hv⟩
    · rename_i hv
      exact .inr ⟨hd, fun e he => by cases he; exact hv rfl, by simp, by simp⟩
  | gone e =>
    refine .inr ⟨?_, by simp, by simp, by simp⟩
    simp only [step] at h
    split at h
    · rw [del_lookup h] at hd
      split at hd
      · cases hd
      · exact hd
    · cases h; exact hd
  | queued v =>
    cases h
    rw [disable_lookup] at hd
    split at hd
    · cases h' : c.lookupWd w <;> rw [h'] at hd <;> cases hd
    · rename_i hv
      exact .inr ⟨hd, by simp, fun he => by cases he; exact hv rfl, by simp⟩
  | handled v =>
    simp only [step] at h
    split at h
    · rw [del_lookup h] at hd
      split at hd
      · cases hd
      · rename_i hv
        exact .inr ⟨hd, by simp, by simp, fun he => by cases he; exact hv rfl⟩
    · rename_i hv
      cases h
      refine .inr ⟨hd, by simp, by simp, fun he => ?_⟩
      cases he
      rw [hd] at hv
      exact hv rfl

theorem run_last {w d : Nat} : ∀ {h : List Op} {c c' : Cache} {s : Option Nat}, (∀ e, c.lookupWd w = some (some e) → s = some e) →
    run bal c h = some c' → c'.lookupWd w = some (some d) → last h w s = some d
  | [], c, c', s, hs, hr, hd => by cases hr; exact hs d hd
  | o :: l, c, c', s, hs, hr, hd => by
    unfold run at hr
    split at hr
    · rename_i c1 h1
      cases o with
      | watch v e =>
        simp only [last]
        refine run_last (h := l) (fun x hx => ?_) hr hd
        rcases step_last h1 hx with ⟨u, hu, hw⟩ | ⟨h2, h3, _, _⟩
        · cases hu; rw [if_pos hw]
        · rw [if_neg (fun hv => h3 e (by rw [hv]))]; exact hs x h2
      | gone e =>
        simp only [last]
        refine run_last (h := l) (fun x hx => ?_) hr hd
        rcases step_last h1 hx with ⟨u, hu, hw⟩ | ⟨h2, _⟩
        · cases hu
        · exact hs x h2
      | queued v =>
        simp only [last]
        refine run_last (h := l) (fun x hx => ?_) hr hd
        rcases step_last h1 hx with ⟨u, hu, hw⟩ | ⟨h2, _, h3, _⟩
        · cases hu
        · rw [if_neg (fun hv => h3 (by rw [hv]))]; exact hs x h2
      | handled v =>
        simp only [last]
        refine run_last (h := l) (fun x hx => ?_) hr hd
        rcases step_last h1 hx with ⟨u, hu, hw⟩ | ⟨h2, _, _, h3⟩
        · cases hu
        · rw [if_neg (fun hv => h3 (by rw [hv]))]; exact hs x h2
    · cases hr

theorem run_sure {w d : Nat} : ∀ {h : List Op} {c c' : Cache} {s : Option Nat}, (∀ e, s = some e → c.lookupWd w = some (some e)) →
    run bal c h = some c' → sure h w s = some d → c'.lookupWd w = some (some d)
  | [], c, c', s, hs, hr, hd => by cases hr; exact hs d hd
  | o :: l, c, c', s, hs, hr, hd => by
    unfold run at hr
    split at hr
    · rename_i c1 h1
      cases o with
      | watch v e =>
        simp only [sure] at hd
        refine run_sure (h := l) (fun x hx => ?_) hr hd
        rw [add_lookup h1]
        split at hx
        · rename_i hv; cases hx; rw [if_pos hv]
        · rename_i hv; rw [if_neg hv]; exact hs x hx
      | gone e =>
        simp only [sure] at hd
        refine run_sure (h := l) (fun x hx => ?_) hr hd
        split at hx
        · cases hx
        · rename_i hne
          have hx' := hs x hx
          simp only [step] at h1
          split at h1
          · rename_i u hu
            rw [del_lookup h1]
            split
            · rename_i hwu
              have := (lookupDt_some hu).1
              rw [← hwu, hx'] at this
              cases this
              exact absurd hx hne
            · exact hx'
          · cases h1; exact hx'
      | queued v =>
        simp only [sure] at hd
        refine run_sure (h := l) (fun x hx => ?_) hr hd
        cases h1
        rw [disable_lookup]
        split at hx
        · cases hx
        · rename_i hv; rw [if_neg (fun h' => hv h'.symm)]; exact hs x hx
      | handled v =>
        simp only [sure] at hd
        refine run_sure (h := l) (fun x hx => ?_) hr hd
        split at hx
        · cases hx
        · rename_i hv
          simp only [step] at h1
          split at h1
          · rw [del_lookup h1, if_neg (fun h' => hv h'.symm)]; exact hs x hx
          · cases h1; exact hs x hx
    · cases hr

theorem target_dir {c : Cache} {w d : Nat} : target c w = .dir d ↔ c.lookupWd w = some (some d) := by
  unfold target
  split <;> rename_i h <;> rw [h] <;> simp

/-- One step, when nothing that is disabled stands in the way. -/
theorem step_tame {c : Cache} (hb : ∀ t, (bal t).inorder = t.inorder) (hg : Good c) (o : Op)
    (hw : ∀ w d, o = .watch w d → ∀ v, target c v ≠ .skipped ∧ (v ≠ w → target c v ≠ .dir d))
    (hd : ∀ d, o = .gone d → ∀ v, target c v ≠ .skipped) : ∃ c', step bal c o = some c' ∧ Good c' ∧ ∀ w, target c' w = want w (target c w) o := by
  have hsk : ∀ v, target c v ≠ .skipped → c.lookupWd v ≠ some none := fun v h1 h2 => h1 (by unfold target; rw [h2])
  cases o with
  | watch w d =>
    have h1 := hw w d rfl
    obtain ⟨c', e1, e2⟩ := add_good (w := w) (d := d) hb hg (fun v => hsk v (h1 v).1) (fun v hv h2 => (h1 v).2 hv (target_dir.2 h2))
    refine ⟨c', e1, e2, fun v => ?_⟩
    simp only [target, want]
    rw [add_lookup e1]
    by_cases hv : w = v
    · rw [if_pos hv, if_pos hv]
    · rw [if_neg hv, if_neg hv]
  | gone d =>
    have h1 := fun v => hsk v (hd d rfl v)
    have hk := hg.keys h1
    simp only [step]
    cases hl : c.lookupDt d with
    | some u =>
      obtain ⟨h2, h3⟩ := lookupDt_some hl
      obtain ⟨c', e1, e2⟩ := del_good hb hg (w := u) (by rw [h2]; rfl)
      refine ⟨c', e1, e2, fun v => ?_⟩
      show target c' v = if target c v = .dir d then .unknown else target c v
      by_cases hv : target c v = .dir d
      · rw [if_pos hv]
        have h4 := target_dir.1 hv
        have h5 : c.lookupDt d = some v := search_complete hk ((hg.mem v).2 (by rw [h4]; rfl)) (by unfold Cache.key; rw [h4])
        rw [hl] at h5
        cases h5
        unfold target
        rw [del_lookup e1, if_pos rfl]
      · rw [if_neg hv]
        have : v ≠ u := fun h' => hv (by rw [h']; exact target_dir.2 h2)
        unfold target
        rw [del_lookup e1, if_neg this]
    | none =>
      refine ⟨c, rfl, hg, fun v => ?_⟩
      show target c v = if target c v = .dir d then .unknown else target c v
      rw [if_neg]
      intro hv
      have h4 := target_dir.1 hv
      have h5 : c.lookupDt d = some v := search_complete hk ((hg.mem v).2 (by rw [h4]; rfl)) (by unfold Cache.key; rw [h4])
      rw [hl] at h5
      cases h5
  | queued u =>
    refine ⟨_, rfl, disable_good hg u, fun v => ?_⟩
    show target (disable c u) v = if u = v ∧ target c v ≠ .unknown then .skipped else target c v
    by_cases hv : v = u
    · subst hv
      cases h' : c.lookupWd v with
      | none =>
        have e1 : target c v = .unknown := by unfold target; rw [h']
        have e2 : target (disable c v) v = .unknown := by unfold target; rw [disable_lookup, if_pos rfl, h']; rfl
        rw [e1, e2]; simp
      | some x =>
        have e1 : target c v ≠ .unknown := by unfold target; rw [h']; cases x <;> simp
        have e2 : target (disable c v) v = .skipped := by unfold target; rw [disable_lookup, if_pos rfl, h']; rfl
        rw [e2, if_pos ⟨rfl, e1⟩]
    · rw [if_neg (fun h' => hv h'.1.symm)]
      unfold target
      rw [disable_lookup, if_neg hv]
  | handled u =>
    simp only [step]
    by_cases hu : (c.lookupWd u).isSome = true
    · rw [if_pos hu]
      obtain ⟨c', e1, e2⟩ := del_good hb hg hu
      refine ⟨c', e1, e2, fun v => ?_⟩
      simp only [target, want]
      rw [del_lookup e1]
      by_cases hv : v = u
      · rw [if_pos hv, if_pos hv.symm]
      · rw [if_neg hv, if_neg (fun h' => hv h'.symm)]
    · rw [if_neg hu]
      refine ⟨c, rfl, hg, fun v => ?_⟩
      show target c v = if u = v then .unknown else target c v
      by_cases hv : u = v
      · rw [if_pos hv]
        subst hv
        unfold target
        cases h' : c.lookupWd u with
        | none => rfl
        | some x => rw [h'] at hu; exact absurd rfl hu
      · rw [if_neg hv]

theorem run_append (h : List Op) (o : Op) : ∀ c : Cache, run bal c (h ++ [o]) = (run bal c h).bind fun c => step bal c o := by
  induction h with
  | nil => intro c; simp only [List.nil_append, run, Option.bind_some]; cases step bal c o <;> rfl
  | cons p l ih =>
    intro c
    simp only [List.cons_append, run]
    cases step bal c p with
    | none => rfl
    | some c1 => exact ih c1

theorem run_tame (hb : ∀ t, (bal t).inorder = t.inorder) (full : List Op) (ht : Tame full) : ∀ n ≤ full.length,
    ∃ c, run bal empty (full.take n) = some c ∧ Good c ∧ ∀ w, target c w = wanted (full.take n) w
  | 0, _ => ⟨empty, by simp [run], good_empty, fun w => rfl⟩
  | n + 1, hn => by
    obtain ⟨c, e1, e2, e3⟩ := run_tame hb full ht n (by omega)
    have hsplit : full.take (n + 1) = full.take n ++ [full[n]] := by rw [List.take_append_getElem]
    have hfull : full = full.take n ++ full[n] :: full.drop (n + 1) := by
      rw [← List.drop_eq_getElem_cons, List.take_append_drop]
    obtain ⟨c', f1, f2, f3⟩ := step_tame hb e2 full[n]
      (fun w d ho v => by rw [e3]; rw [ho] at hfull; exact ht.1 _ w d _ hfull v)
      (fun d ho v => by rw [e3]; rw [ho] at hfull; exact ht.2 _ d _ hfull v)
    refine ⟨c', ?_, f2, fun w => ?_⟩
    · rw [hsplit, run_append, e1]; exact f1
    · rw [hsplit, f3, e3]
      unfold wanted
      rw [List.foldl_append]
      rfl

theorem clear_good (hb : ∀ t, (bal t).inorder = t.inorder) : ∀ (l : List Nat) (c : Cache), Good c → l.Nodup → (∀ w ∈ l, target c w ≠ .unknown) →
    ∃ c', clear bal l c = some c' ∧ ∀ w, target c' w = if w ∈ l then .unknown else target c w
  | [], c, _, _, _ => ⟨c, rfl, fun w => by simp⟩
  | v :: l, c, hg, hn, hm => by
    have hv : (c.lookupWd v).isSome = true := by
      have := hm v List.mem_cons_self
      unfold target at this
      cases h : c.lookupWd v with
      | none => rw [h] at this; exact absurd rfl this
      | some x => rfl
    obtain ⟨c1, e1, e2⟩ := del_good hb hg hv
    obtain ⟨hv1, hn1⟩ := List.nodup_cons.1 hn
    have ht : ∀ w, target c1 w = if w = v then .unknown else target c w := fun w => by
      unfold target
      rw [del_lookup e1]
      by_cases h : w = v
      · rw [if_pos h, if_pos h]
      · rw [if_neg h, if_neg h]
    obtain ⟨c2, f1, f2⟩ := clear_good hb l c1 e2 hn1 (fun w hw => by
      have hwv : w ≠ v := fun h => hv1 (h ▸ hw)
      rw [ht, if_neg hwv]
      exact hm w (List.mem_cons_of_mem _ hw))
    refine ⟨c2, by unfold clear; rw [e1]; exact f1, fun w => ?_⟩
    rw [f2, ht]
    by_cases h1 : w ∈ l <;> by_cases h2 : w = v <;> simp [h1, h2]

end Tup.Watch
