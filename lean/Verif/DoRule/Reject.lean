import Verif.DoRule.Claim

/-! Rules that are rejected. -/

namespace Tup.DoRule

open Tup.Db Tup.Links

variable {db db' : Db} {excl : Nat}

theorem addOuts_append {p : Parse} {r : Spec} : ∀ {l l' : List Out} {s : Outs},
    addOuts excl p r (l ++ l') s = (addOuts excl p r l s).bind fun s => addOuts excl p r l' s
  | [], l', s => rfl
  | o :: l, l', s => by
    rw [List.cons_append, addOuts, addOuts]
    cases addOut excl p r s o with
    | none => rfl
    | some s1 => exact addOuts_append

/-- The outputs of an accepted rule were added one after the other. -/
theorem doRule_outs {r : Spec} {p p' : Parse} (h : doRule excl r p = some p') :
    ∃ s, addOuts excl p r (r.outputs ++ r.extra) { db := p.db } = some s := by
  unfold doRule at h
  split at h
  · cases h
  rename_i m hm
  split at h
  · cases h
  rename_i s hs
  exact ⟨s, by rw [addOuts_append, hm]; exact hs⟩

/-- Where one output fails in all states that can come before it, the rule does. -/
theorem doRule_fails {r : Spec} {p : Parse} {l l' : List Out} {o : Out} (hl : r.outputs ++ r.extra = l ++ o :: l')
    (h : ∀ s, addOuts excl p r l { db := p.db } = some s → addOut excl p r s o = none) : doRule excl r p = none := by
  cases hd : doRule excl r p with
  | none => rfl
  | some p' =>
    obtain ⟨s, hs⟩ := doRule_outs hd
    rw [hl, addOuts_append] at hs
    cases h1 : addOuts excl p r l { db := p.db } with
    | none => rw [h1] at hs; cases hs
    | some s1 =>
      rw [h1] at hs
      have hs : addOuts excl p r (o :: l') s1 = some s := hs
      unfold addOuts at hs
      rw [h s1 h1] at hs
      cases hs

theorem addOuts_group {p : Parse} {r : Spec} : ∀ {l : List Out} {s s' : Outs}, addOuts excl p r l s = some s' →
    ((∃ d name, Out.group d name ∈ l) ∨ s.group ≠ none) → s'.group ≠ none
  | [], s, s', ha, h => by
    cases ha
    rcases h with ⟨d, name, h⟩ | h
    · cases h
    · exact h
  | o :: l, s, s', ha, h => by
    unfold addOuts at ha
    split at ha
    · cases ha
    rename_i s1 h1
    refine addOuts_group ha ?_
    cases o with
    | file d path src =>
      simp only [addOut, addFile_eq] at h1
      repeat' split at h1
      all_goals first | cases h1 | skip
      simpa using h
    | exclusion pat =>
      simp only [addOut, addExclusion] at h1
      repeat' split at h1
      all_goals first | cases h1 | skip
      simpa using h
    | group d name =>
      simp only [addOut, addGroup] at h1
      repeat' split at h1
      all_goals first | cases h1 | skip
      exact .inr (by simp)

/-- Exclusions that are listed have a node. -/
theorem addOuts_excluded {p : Parse} {r : Spec} {db0 : Db} : ∀ {l : List Out} {s s' : Outs}, (∀ o ∈ l, OutOk excl o) → OutsInv db0 excl r s →
    addOuts excl p r l s = some s' → (∀ b ∈ s.exclusions, b ∈ s'.exclusions) ∧
      ∀ pat, Out.exclusion pat ∈ l → ∃ b ∈ s'.exclusions, ∃ n, s'.db.node b = some n ∧ n.dir = excl ∧ n.name = pat
  | [], s, s', _, _, ha => by
    cases ha
    exact ⟨fun _ h => h, fun pat h => by cases h⟩
  | o :: l, s, s', ho, h, ha => by
    unfold addOuts at ha
    split at ha
    · cases ha
    rename_i s1 h1
    have i1 := addOut_inv (ho o List.mem_cons_self) h h1
    have ho' := fun o' h' => ho o' (List.mem_cons_of_mem _ h')
    obtain ⟨ih1, ih2⟩ := addOuts_excluded ho' i1 ha
    cases o with
    | file d path src =>
      simp only [addOut, addFile_eq] at h1
      repeat' split at h1
      all_goals first | cases h1 | skip
      refine ⟨ih1, fun pat hm => ?_⟩
      rcases List.mem_cons.1 hm with hm | hm
      · cases hm
      · exact ih2 pat hm
    | exclusion pat' =>
      simp only [addOut, addExclusion] at h1
      split at h1
      · cases h1
      rename_i db' i hc
      split at h1
      · cases h1
      cases h1
      refine ⟨fun b hb => ih1 b (List.mem_append_left _ hb), fun pat hm => ?_⟩
      rcases List.mem_cons.1 hm with hm | hm
      · cases hm
        have m := create_made (.inr ⟨rfl, rfl⟩) h.sound h.tidy hc
        obtain ⟨n, e1, e2, e3, e4, _⟩ := m.node
        obtain ⟨n', f1, f2, f3, _⟩ := (addOuts_inv ho' i1.restart ha).keep i n e1
        exact ⟨i, ih1 i (List.mem_append_right _ (by simp)), n', f1, f2.trans e3, f3.trans e4⟩
      · exact ih2 pat hm
    | group d name =>
      simp only [addOut, addGroup] at h1
      repeat' split at h1
      all_goals first | cases h1 | skip
      refine ⟨ih1, fun pat hm => ?_⟩
      rcases List.mem_cons.1 hm with hm | hm
      · cases hm
      · exact ih2 pat hm

/-- The group that is listed has a node. -/
theorem addOuts_grouped {p : Parse} {r : Spec} {db0 : Db} : ∀ {l : List Out} {s s' : Outs}, (∀ o ∈ l, OutOk excl o) → OutsInv db0 excl r s →
    addOuts excl p r l s = some s' → (∀ g, s.group = some g → s'.group = some g) ∧
      ∀ d name, Out.group d name ∈ l → ∃ g n, s'.group = some g ∧ s'.db.node g = some n ∧ n.dir = d ∧ n.name = name
  | [], s, s', _, _, ha => by
    cases ha
    exact ⟨fun _ h => h, fun d name h => by cases h⟩
  | o :: l, s, s', ho, h, ha => by
    unfold addOuts at ha
    split at ha
    · cases ha
    rename_i s1 h1
    have i1 := addOut_inv (ho o List.mem_cons_self) h h1
    have ho' := fun o' h' => ho o' (List.mem_cons_of_mem _ h')
    obtain ⟨ih1, ih2⟩ := addOuts_grouped ho' i1 ha
    cases o with
    | file d path src =>
      simp only [addOut, addFile_eq] at h1
      repeat' split at h1
      all_goals first | cases h1 | skip
      refine ⟨ih1, fun d name hm => ?_⟩
      rcases List.mem_cons.1 hm with hm | hm
      · cases hm
      · exact ih2 d name hm
    | exclusion pat' =>
      simp only [addOut, addExclusion] at h1
      repeat' split at h1
      all_goals first | cases h1 | skip
      refine ⟨ih1, fun d name hm => ?_⟩
      rcases List.mem_cons.1 hm with hm | hm
      · cases hm
      · exact ih2 d name hm
    | group d' name' =>
      simp only [addOut, addGroup] at h1
      split at h1
      · cases h1
      rename_i hg
      split at h1
      · cases h1
      rename_i db' i hc
      cases h1
      refine ⟨fun g h => (by rw [hg] at h; cases h), fun d name hm => ?_⟩
      rcases List.mem_cons.1 hm with hm | hm
      · cases hm
        have m := create_made (.inl ⟨.inr rfl, ho _ (List.mem_cons_self (l := l))⟩) h.sound h.tidy hc
        obtain ⟨n, e1, e2, e3, e4, _⟩ := m.node
        obtain ⟨n', f1, f2, f3, _⟩ := (addOuts_inv ho' i1.restart ha).keep i n e1
        exact ⟨i, n', ih1 i rfl, f1, f2.trans e3, f3.trans e4⟩
      · exact ih2 d name hm

/-- An accepted rule has a link stage that succeeded. -/
theorem doRule_linked {r : Spec} {p p' : Parse} (hs : Sound p.db) (ht : Tidy p.db excl) (hr : SpecOk p.db excl r) (h : doRule excl r p = some p') :
    ∃ s db3 inputs, addOuts excl p r (r.outputs ++ r.extra) { db := p.db } = some s ∧ OutsInv p.db excl r s ∧ allInputs r db3 = some inputs ∧
      circular s inputs = false ∧ ∀ i n, s.db.node i = some n → n.kind ≠ .cmd → db3.node i = some n := by
  unfold doRule at h
  split at h
  · cases h
  rename_i m hm
  split at h
  · cases h
  rename_i s hso
  split at h
  · cases h
  split at h
  · cases h
  rename_i db1 c modified hc
  split at h
  · cases h
  split at h
  · cases h
  rename_i db2 hl
  have im := addOuts_inv (fun o ho => hr.outs o (List.mem_append_left _ ho)) (outs_start hs ht r) hm
  have is := addOuts_inv (fun o ho => hr.outs o (List.mem_append_right _ ho)) im hso
  have hgen : ∀ b ∈ s.outputs, s.db.isKind .generated b = true := fun b hb => by
    obtain ⟨n, e1, e2, _⟩ := is.output b hb
    exact isKind_iff.2 ⟨n, e1, e2⟩
  have hf := findCommand_spec is.sound is.tidy (fun b hb => hgen b (addOuts_sub hso b hb)) hc
  unfold linkRule at hl
  split at hl
  · cases hl
  rename_i db3 hu
  split at hl
  · cases hl
  rename_i inputs hin
  split at hl
  · cases hl
  rename_i hcirc
  obtain ⟨nc, ec1, ec2, ec3⟩ := hf.node
  have hne : ∀ b n, s.db.node b = some n → n.kind ≠ .cmd → db1.node b = some n := by
    intro b n hb hn
    have : b ≠ c := by
      rintro rfl
      rcases hf.old with h | h
      · rw [hb] at h; cases h
      · rw [isKind_some hb] at h
        exact hn (of_decide_eq_true h)
    rw [hf.other b this, hb]
  have hk := uniqueLinks_spec hf.sound hf.tidy (isKind_iff.2 ⟨nc, ec1, ec2⟩) is.nodup (fun b hb => by
    obtain ⟨n, e1, e2, e3, _⟩ := is.output b hb
    have := hne b n e1 (by rw [e2]; decide)
    refine ⟨isKind_iff.2 ⟨n, this, e2⟩, ?_⟩
    rw [inDir_some this]
    exact decide_eq_false e3) hu
  exact ⟨s, db3, inputs, by rw [addOuts_append, hm]; exact hso, is, hin, Bool.eq_false_iff.2 hcirc, fun i n h1 h2 => by rw [hk.node]; exact hne i n h1 h2⟩

theorem allInputs_mem {r : Spec} {l : List Nat} (h : allInputs r db = some l) {a : Nat} (ha : a ∈ r.inputs ++ r.order)
    (hk : db.isKind .generated a = true ∨ db.isKind .group a = true) : a ∈ l := by
  have key : ∀ force x, inputNodes db force a = some x → a ∈ x := by
    intro force x hx
    unfold inputNodes at hx
    split at hx
    · split at hx
      · cases hx; exact List.mem_cons_self
      · cases hx
    · rename_i hng
      rcases hk with hk | hk
      · exact absurd hk hng
      · rw [if_pos (by simp [hk])] at hx
        cases hx
        exact List.mem_cons_self
  unfold allInputs at h
  split at h
  · rename_i x y h1 h2
    cases h
    rcases List.mem_append.1 ha with ha | ha
    · obtain ⟨w, e1, e2⟩ := inputsNodes_mem h1 a ha
      exact List.mem_append_left _ (e2 a (key _ _ e1))
    · obtain ⟨w, e1, e2⟩ := inputsNodes_mem h2 a (List.mem_append_left _ ha)
      exact List.mem_append_right _ (e2 a (key _ _ e1))
  · cases h

/-- The outputs are files that are listed. -/
theorem addOuts_only {p : Parse} {r : Spec} {db0 : Db} : ∀ {l : List Out} {s s' : Outs}, (∀ o ∈ l, OutOk excl o) → OutsInv db0 excl r s →
    addOuts excl p r l s = some s' → ∀ b ∈ s'.outputs, b ∉ s.outputs → ∀ n, s'.db.node b = some n →
      ∃ path src, Out.file n.dir path src ∈ l ∧ base path = n.name
  | [], s, s', _, _, ha => by
    cases ha
    exact fun b h1 h2 => absurd h1 h2
  | o :: l, s, s', ho, h, ha => by
    unfold addOuts at ha
    split at ha
    · cases ha
    rename_i s1 h1
    have i1 := addOut_inv (ho o List.mem_cons_self) h h1
    have ho' := fun o' h' => ho o' (List.mem_cons_of_mem _ h')
    have ih := addOuts_only ho' i1 ha
    intro b hb hbs n hn
    by_cases hb1 : b ∈ s1.outputs
    · cases o with
      | file d path src =>
        simp only [addOut, addFile_eq] at h1
        split at h1
        · cases h1
        split at h1
        · cases h1
        split at h1
        · cases h1
        split at h1
        · cases h1
        rename_i db' i hc
        split at h1
        · cases h1
        cases h1
        rcases List.mem_append.1 hb1 with hb1 | hb1
        · exact absurd hb1 hbs
        · simp only [List.mem_singleton] at hb1
          subst hb1
          have m := create_made (.inl ⟨.inl rfl, ho _ (List.mem_cons_self (l := l))⟩) h.sound h.tidy hc
          obtain ⟨q, e1, _, e3, e4, _⟩ := m.node
          obtain ⟨n', f1, f2, f3, _⟩ := (addOuts_inv ho' i1.restart ha).keep b q e1
          rw [hn] at f1
          cases f1
          exact ⟨path, src, by rw [f2, e3]; exact List.mem_cons_self, by rw [f3, e4]⟩
      | exclusion pat =>
        simp only [addOut, addExclusion] at h1
        repeat' split at h1
        all_goals first | cases h1 | skip
        exact absurd hb1 hbs
      | group d name =>
        simp only [addOut, addGroup] at h1
        repeat' split at h1
        all_goals first | cases h1 | skip
        exact absurd hb1 hbs
    · obtain ⟨path, src, e1, e2⟩ := ih b hb hb1 n hn
      exact ⟨path, src, List.mem_cons_of_mem _ e1, e2⟩

end Tup.DoRule
