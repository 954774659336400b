import Verif.Cache.Lemmas

/-! Each call keeps the entries in agreement with the table. -/

namespace Tup.Cache

open Tup.Db (Kind)

/-- What is to be shown of a call. -/
def Good (s : St) (o : Op) : Prop :=
  match step s o with
  | some (s', out) => Does s.tab o s'.tab out ∧ Sound s'.tab ∧ Agree s'.tab s'.cache
  | none => ∀ t' out, ¬ Does s.tab o t' out

theorem row_ne_zero {t : Table} (ht : Sound t) {i : Nat} {r : Row} (hr : t.row i = some r) : i ≠ 0 := by
  rintro rfl
  rw [ht.zero] at hr
  cases hr

theorem good_get {s : St} (hs : Sound s.tab) (ha : Agree s.tab s.cache) (i : Nat) : Good s (.get i) := by
  unfold Good
  simp only [step]
  by_cases h0 : i = 0
  · subst h0
    obtain ⟨c', h1, h2, h3, _⟩ := add_ok hs ha (i := 0) (.inl rfl)
    rw [h1]
    simp only [show1]
    cases he : c'.ent 0 with
    | none => exact absurd he h3
    | some e =>
      simp only [Option.map_some]
      refine ⟨⟨rfl, rootRow, rfl, ?_⟩, hs, h2⟩
      rcases h2.row 0 e he with h | h
      · rw [h.2]
      · exact absurd rfl h.1
  · cases hr : s.tab.row i with
    | none =>
      rw [add_none ha h0 hr]
      simp only
      rintro t' out ⟨_, r, h, _⟩
      rw [if_neg h0, hr] at h
      cases h
    | some r =>
      obtain ⟨c', h1, h2, h3, _⟩ := add_ok hs ha (i := i) (.inr (by rw [hr]; simp))
      rw [h1]
      simp only
      rw [h2.show1 h0 hr h3]
      simp only [Option.map_some]
      exact ⟨⟨rfl, r, by rw [if_neg h0]; exact hr, rfl⟩, hs, h2⟩

theorem good_select {s : St} (hs : Sound s.tab) (ha : Agree s.tab s.cache) {d : Nat} (hd : d ≠ 0) (n : Str) : Good s (.select d n) := by
  unfold Good
  simp only [step]
  cases hdr : s.tab.row d with
  | none =>
    rw [add_none ha hd hdr]
    simp only
    rintro t' out ⟨_, h, _⟩
    exact h hdr
  | some dr =>
    have hdn : s.tab.row d ≠ none := by rw [hdr]; simp
    obtain ⟨c, h1, h2, h3, _⟩ := add_ok hs ha (i := d) (.inr hdn)
    rw [h1]
    simp only [findNameDt, if_neg hd]
    have hf := findName_spec hs h2 hd h3 n
    cases hfn : findName c d n with
    | some i =>
      rw [hfn] at hf
      obtain ⟨r, g1, g2, g3, g4, g5⟩ := hf
      simp only
      rw [h2.show1 g1 g2 g5]
      simp only [Option.map_some]
      exact ⟨⟨rfl, hdn, .inr ⟨i, r, g2, g3, g4, rfl⟩⟩, hs, h2⟩
    | none =>
      rw [hfn] at hf
      simp only at hf ⊢
      cases hsel : s.tab.select d n with
      | none =>
        simp only
        exact ⟨⟨rfl, hdn, .inl ⟨rfl, fun i r hr hrd => select_none hs hsel hr hrd⟩⟩, hs, h2⟩
      | some i =>
        obtain ⟨r, g1, g2, g3⟩ := select_some hsel
        simp only
        rw [g1]
        simp only
        have hrow : ({ r.read with name := n, dir := d } : Row) = r := by
          rw [read_eq hs g1, ← g2, ← g3]
        rw [hrow]
        obtain ⟨c', f1, f2, f3, _⟩ := addToDir_ok hs h2 (row_ne_zero hs g1) g1 (hf i r g1 g2 g3) (.inr (by rw [g2]; exact h3))
        rw [f1]
        simp only
        rw [f2.show1 (row_ne_zero hs g1) g1 f3]
        simp only [Option.map_some]
        exact ⟨⟨rfl, hdn, .inr ⟨i, r, g1, g2, g3, rfl⟩⟩, hs, f2⟩

/-- The entries go on to agree if their rows do not change. -/
theorem Inv.table {P : Nat → Prop} {t t' : Table} {c : Cache} (h : Inv P t c) (hr : ∀ i e, c.ent i = some e → i ≠ 0 → t'.row i = t.row i) : Inv P t' c := by
  refine ⟨fun i e he => ?_, h.done, h.kid, h.here⟩
  rcases h.row i e he with h1 | h1
  · exact .inl h1
  · exact .inr ⟨h1.1, by rw [hr i e he h1.1]; exact h1.2⟩

theorem good_insert {s : St} (hs : Sound s.tab) (ha : Agree s.tab s.cache) {r : Row} (hd : r.dir ≠ 0) (hm : int32 r.mtime.1 = r.mtime.1 ∧ int32 r.mtime.2 = r.mtime.2) :
    Good s (.insert r) := by
  unfold Good
  simp only [step]
  cases hdr : s.tab.row r.dir with
  | none =>
    rw [add_none ha hd hdr]
    simp only
    rintro t' out ⟨h, _⟩
    exact h hdr
  | some dr =>
    have hdn : s.tab.row r.dir ≠ none := by rw [hdr]; simp
    obtain ⟨c, h1, h2, h3, _⟩ := add_ok hs ha (i := r.dir) (.inr hdn)
    rw [h1]
    simp only [Table.insert]
    cases hsel : s.tab.select r.dir r.name with
    | some j =>
      simp only
      rintro t' out ⟨_, h, _⟩
      obtain ⟨q, g1, g2, g3⟩ := select_some hsel
      exact h j q g1 g2 g3
    | none =>
      simp only
      have hfn := fresh_none hs.bound
      have hfp := fresh_pos s.tab.row s.tab.top
      generalize fresh s.tab.row s.tab.top = i at hfn hfp
      have hi : s.tab.row i = none := hfn i (Nat.le_refl _)
      let t' : Table := { row := fun j => if j = i then some r else s.tab.row j, top := max s.tab.top (i + 1) }
      have ht'i : t'.row i = some r := if_pos rfl
      have ht'j : ∀ j, j ≠ i → t'.row j = s.tab.row j := fun j hj => if_neg hj
      have hnew : ∀ j q, s.tab.row j = some q → q.dir = r.dir → q.name ≠ r.name := fun j q hq hqd => select_none hs hsel hq hqd
      have hs' : Sound t' := by
        refine ⟨?_, ?_, ?_, ?_, ?_⟩
        · rw [ht'j 0 (Ne.symm hfp)]
          exact hs.zero
        · intro j hj
          have hj : max s.tab.top (i + 1) ≤ j := hj
          rw [ht'j j (by omega)]
          exact hs.bound j (by omega)
        · intro a b x y hx hy hxy hn
          by_cases hai : a = i
          · by_cases hbi : b = i
            · rw [hai, hbi]
            · rw [hai, ht'i] at hx
              cases hx
              rw [ht'j b hbi] at hy
              exact absurd hn.symm (hnew b y hy hxy.symm)
          · rw [ht'j a hai] at hx
            by_cases hbi : b = i
            · rw [hbi, ht'i] at hy
              cases hy
              exact absurd hn (hnew a x hx hxy)
            · rw [ht'j b hbi] at hy
              exact hs.unique a b x y hx hy hxy hn
        · intro a x hx
          have hkeep : ∀ d, s.tab.row d ≠ none → t'.row d ≠ none := by
            intro d hd
            by_cases hdi : d = i
            · rw [hdi, ht'i]; simp
            · rw [ht'j d hdi]; exact hd
          by_cases hai : a = i
          · rw [hai, ht'i] at hx
            cases hx
            exact .inr (hkeep _ hdn)
          · rw [ht'j a hai] at hx
            exact (hs.dirs a x hx).imp_right (hkeep _)
        · intro a x hx
          by_cases hai : a = i
          · rw [hai, ht'i] at hx
            cases hx
            exact hm
          · rw [ht'j a hai] at hx
            exact hs.fits a x hx
      have hci : c.ent i = none := by
        cases he : c.ent i with
        | none => rfl
        | some e =>
          rcases h2.row i e he with g | g
          · exact absurd g.1 hfp
          · rw [hi] at g
            exact absurd g.2 (by simp)
      have h2' : Agree t' c := h2.table fun j e he _ => ht'j j (by rintro rfl; rw [hci] at he; cases he)
      obtain ⟨c', f1, f2, f3, _⟩ := addToDir_ok hs' h2' hfp ht'i hci (.inr h3)
      rw [f1]
      simp only
      rw [f2.show1 hfp ht'i f3]
      simp only [Option.map_some]
      exact ⟨⟨hdn, hnew, i, hfp, hi, ht'i, ht'j, rfl⟩, hs', f2⟩

theorem update_row {t : Table} {i : Nat} {f : Row → Row} {r : Row} (hr : t.row i = some r) : Changes t (t.update i f) i f :=
  ⟨r, hr, by simp only [Table.update, if_true]; rw [hr]; rfl, fun j hj => by simp only [Table.update, if_neg hj]⟩

/-- A field other than the name and the directory is set. -/
theorem setField_ok {s : St} (hs : Sound s.tab) (ha : Agree s.tab s.cache) {i : Nat} (h0 : i ≠ 0) {f : Row → Row} (hf : ∀ r, (f r).dir = r.dir ∧ (f r).name = r.name)
    (hm : ∀ r, s.tab.row i = some r → int32 (f r).mtime.1 = (f r).mtime.1 ∧ int32 (f r).mtime.2 = (f r).mtime.2) :
    match setField s i f with
    | some (s', out) => (Changes s.tab s'.tab i f ∧ out = []) ∧ Sound s'.tab ∧ Agree s'.tab s'.cache
    | none => ∀ t', ¬ Changes s.tab t' i f := by
  unfold setField
  cases hr : s.tab.row i with
  | none =>
    rw [add_none ha h0 hr]
    simp only
    rintro t' ⟨r, h, _⟩
    rw [hr] at h
    cases h
  | some r =>
    obtain ⟨c, h1, h2, h3, _⟩ := add_ok hs ha (i := i) (.inr (by rw [hr]; simp))
    rw [h1]
    simp only
    have hti : (s.tab.update i f).row i = some (f r) := by simp only [Table.update, if_true]; rw [hr]; rfl
    have htj : ∀ j, j ≠ i → (s.tab.update i f).row j = s.tab.row j := fun j hj => by simp only [Table.update, if_neg hj]
    have hback : ∀ j x, (s.tab.update i f).row j = some x → ∃ y, s.tab.row j = some y ∧ x.dir = y.dir ∧ x.name = y.name := by
      intro j x hx
      by_cases hj : j = i
      · subst hj
        rw [hti] at hx
        cases hx
        exact ⟨r, hr, (hf r).1, (hf r).2⟩
      · rw [htj j hj] at hx
        exact ⟨x, hx, rfl, rfl⟩
    refine ⟨⟨update_row hr, trivial⟩, ⟨?_, ?_, ?_, ?_, ?_⟩, ?_⟩
    · rw [htj 0 (Ne.symm h0)]
      exact hs.zero
    · intro j hj
      have hj : s.tab.top ≤ j := hj
      have : s.tab.row j = none := hs.bound j hj
      rw [htj j (by rintro rfl; rw [hr] at this; cases this)]
      exact this
    · intro a b x y hx hy hd hn
      obtain ⟨x', g1, g2, g3⟩ := hback a x hx
      obtain ⟨y', g4, g5, g6⟩ := hback b y hy
      exact hs.unique a b x' y' g1 g4 (by rw [← g2, ← g5]; exact hd) (by rw [← g3, ← g6]; exact hn)
    · intro a x hx
      obtain ⟨x', g1, g2, g3⟩ := hback a x hx
      rw [g2]
      refine (hs.dirs a x' g1).imp_right fun h => ?_
      by_cases hd : x'.dir = i
      · rw [hd, hti]; simp
      · rw [htj _ hd]; exact h
    · intro a x hx
      by_cases hai : a = i
      · subst hai
        rw [hti] at hx
        cases hx
        exact hm r hr
      · rw [htj a hai] at hx
        exact hs.fits a x hx
    · have hent : ∀ j e', (c.modify i fun e => { e with row := f e.row }).ent j = some e' → ∃ e, c.ent j = some e ∧ e'.parent = e.parent ∧ e'.kids = e.kids ∧
          e'.row.dir = e.row.dir ∧ e'.row.name = e.row.name ∧ e'.row = if j = i then f e.row else e.row := by
        intro j e' he'
        simp only [Cache.modify] at he'
        split at he'
        · rename_i hj
          cases hc : c.ent j with
          | none => rw [hc] at he'; cases he'
          | some e =>
            rw [hc] at he'
            cases he'
            exact ⟨e, rfl, rfl, rfl, (hf e.row).1, (hf e.row).2, by rw [if_pos hj]⟩
        · rename_i hj
          exact ⟨e', he', rfl, rfl, rfl, rfl, by rw [if_neg hj]⟩
      have hfwd : ∀ j e, c.ent j = some e → ∃ e', (c.modify i fun e => { e with row := f e.row }).ent j = some e' ∧ e'.kids = e.kids ∧ e'.row.dir = e.row.dir ∧ e'.row.name = e.row.name := by
        intro j e he
        simp only [Cache.modify]
        split
        · rw [he]
          exact ⟨_, rfl, rfl, (hf e.row).1, (hf e.row).2⟩
        · exact ⟨e, he, rfl, rfl, rfl⟩
      refine ⟨?_, ?_, ?_, fun _ h => h.elim⟩
      · intro j e' he'
        obtain ⟨e, g1, _, _, _, _, g2⟩ := hent j e' he'
        by_cases hj : j = i
        · subst hj
          rw [if_pos rfl] at g2
          refine .inr ⟨h0, ?_⟩
          rw [hti]
          rcases h2.row j e g1 with g | g
          · exact absurd g.1 h0
          · rw [hr] at g
            rw [g2, ← Option.some.inj g.2]
        · rw [if_neg hj] at g2
          rw [g2, htj j hj]
          exact h2.row j e g1
      · intro j e' he' _
        obtain ⟨e, g1, g2, g3, g4, g5, _⟩ := hent j e' he'
        rw [g2, g4, g5]
        rcases h2.done j e g1 (fun h => h) with g | ⟨f1, f2, p, f3, f4⟩
        · exact .inl g
        · obtain ⟨p', k1, k2, _⟩ := hfwd _ p f3
          exact .inr ⟨f1, f2, p', k1, by rw [k2]; exact f4⟩
      · intro p q n k hp hk
        obtain ⟨q0, g1, _, g3, _⟩ := hent p q hp
        rw [g3] at hk
        obtain ⟨_, k2, e, k3, k4, k5⟩ := h2.kid p q0 n k g1 hk
        obtain ⟨e', l1, _, l3, l4⟩ := hfwd k e k3
        exact ⟨fun h => h, k2, e', l1, by rw [l4]; exact k4, by rw [l3]; exact k5⟩

theorem good_setField {s : St} {o : Op} {i : Nat} {f : Row → Row} (hstep : step s o = setField s i f) (hdoes : ∀ t' out, Does s.tab o t' out ↔ Changes s.tab t' i f ∧ out = [])
    (hs : Sound s.tab) (ha : Agree s.tab s.cache) (h0 : i ≠ 0) (hf : ∀ r, (f r).dir = r.dir ∧ (f r).name = r.name)
    (hm : ∀ r, s.tab.row i = some r → int32 (f r).mtime.1 = (f r).mtime.1 ∧ int32 (f r).mtime.2 = (f r).mtime.2) : Good s o := by
  unfold Good
  have := setField_ok hs ha h0 hf hm
  rw [hstep]
  cases hx : setField s i f with
  | none =>
    rw [hx] at this
    intro t' out h
    exact this t' ((hdoes t' out).1 h).1
  | some x =>
    obtain ⟨s', out⟩ := x
    rw [hx] at this
    exact ⟨(hdoes _ _).2 this.1, this.2⟩

theorem good_delete {s : St} (hs : Sound s.tab) (ha : Agree s.tab s.cache) {i : Nat} (h0 : i ≠ 0) (hch : ∀ j r, s.tab.row j = some r → r.dir ≠ i) : Good s (.delete i) := by
  unfold Good
  simp only [step]
  have hti : (s.tab.delete i).row i = none := if_pos rfl
  have htj : ∀ j, j ≠ i → (s.tab.delete i).row j = s.tab.row j := fun j hj => if_neg hj
  have hback : ∀ j x, (s.tab.delete i).row j = some x → j ≠ i ∧ s.tab.row j = some x := by
    intro j x hx
    by_cases hj : j = i
    · rw [hj, hti] at hx
      cases hx
    · rw [htj j hj] at hx
      exact ⟨hj, hx⟩
  have hs' : Sound (s.tab.delete i) := by
    refine ⟨?_, ?_, ?_, ?_, ?_⟩
    · rw [htj 0 (Ne.symm h0)]
      exact hs.zero
    · intro j hj
      by_cases hji : j = i
      · rw [hji]; exact hti
      · rw [htj j hji]; exact hs.bound j hj
    · intro a b x y hx hy
      exact hs.unique a b x y (hback a x hx).2 (hback b y hy).2
    · intro a x hx
      refine (hs.dirs a x (hback a x hx).2).imp_right fun h => ?_
      rw [htj _ (hch a x (hback a x hx).2)]
      exact h
    · intro a x hx
      exact hs.fits a x (hback a x hx).2
  unfold rm
  cases he : s.cache.ent i with
  | none =>
    simp only
    exact ⟨⟨hti, htj, rfl⟩, hs', ha.table fun j e hj _ => htj j (by rintro rfl; rw [he] at hj; cases hj)⟩
  | some e =>
    simp only
    have hnokid : e.kids = [] := by
      cases hk : e.kids with
      | nil => rfl
      | cons k l =>
        obtain ⟨n, k⟩ := k
        obtain ⟨_, _, x, g1, g2, g3⟩ := ha.kid i e n k he (by rw [hk]; exact List.mem_cons_self)
        rcases ha.row k x g1 with ⟨_, g⟩ | ⟨_, g⟩
        · rw [g] at g3
          exact absurd g3.symm h0
        · exact absurd g3 (hch k x.row g)
    rw [hnokid]
    simp only [List.isEmpty_nil, if_true]
    have hrow : s.tab.row i = some e.row := by
      rcases ha.row i e he with g | g
      · exact absurd g.1 h0
      · exact g.2
    rcases ha.done i e he (fun h => h) with ⟨g1, g2⟩ | ⟨g1, g2, p, g3, g4⟩
    · rw [g2]
      simp only
      refine ⟨⟨hti, htj, rfl⟩, hs', ?_⟩
      have hent : ∀ j x, (if j = i then none else s.cache.ent j) = some x → j ≠ i ∧ s.cache.ent j = some x := by
        intro j x hx
        split at hx
        · cases hx
        · rename_i hj
          exact ⟨hj, hx⟩
      refine ⟨?_, ?_, ?_, fun _ h => h.elim⟩
      · intro j x hx
        obtain ⟨hj, hx⟩ := hent j x hx
        rw [htj j hj]
        exact ha.row j x hx
      · intro j x hx _
        obtain ⟨hj, hx⟩ := hent j x hx
        rcases ha.done j x hx (fun h => h) with k | ⟨k1, k2, q, k3, k4⟩
        · exact .inl k
        · refine .inr ⟨k1, k2, q, ?_, k4⟩
          have hxd : x.row.dir ≠ i := by
            intro hd
            rw [hd, he] at k3
            cases k3
            rw [hnokid] at k4
            cases k4
          simp only [if_neg hxd]
          exact k3
      · intro a q n k hq hk
        obtain ⟨hai, hq⟩ := hent a q hq
        obtain ⟨_, k2, x, k3, k4, k5⟩ := ha.kid a q n k hq hk
        have hki : k ≠ i := by
          rintro rfl
          rw [he] at k3
          cases k3
          rw [g1] at k5
          exact k2 k5.symm
        refine ⟨fun h => h, k2, x, ?_, k4, k5⟩
        simp only [if_neg hki]
        exact k3
    · rw [g2]
      simp only
      refine ⟨⟨hti, htj, rfl⟩, hs', ?_⟩
      have hdi : e.row.dir ≠ i := hch i e.row hrow
      have hent : ∀ j x, (Cache.modify { ent := fun j => if j = i then none else s.cache.ent j } e.row.dir fun p => { p with kids := p.kids.filter fun k => decide (k.2 ≠ i) }).ent j = some x →
          j ≠ i ∧ ∃ y, s.cache.ent j = some y ∧ x = { y with kids := if j = e.row.dir then y.kids.filter fun k => decide (k.2 ≠ i) else y.kids } := by
        intro j x hx
        simp only [Cache.modify] at hx
        by_cases hj : j = i
        · subst hj
          rw [if_neg (Ne.symm hdi), if_pos rfl] at hx
          cases hx
        · simp only [if_neg hj] at hx
          refine ⟨hj, ?_⟩
          split at hx
          · rename_i hjd
            cases hc : s.cache.ent j with
            | none => rw [hc] at hx; cases hx
            | some y =>
              rw [hc] at hx
              exact ⟨y, rfl, by rw [if_pos hjd]; exact (Option.some.inj hx).symm⟩
          · rename_i hjd
            exact ⟨x, hx, by rw [if_neg hjd]⟩
      have hfwd : ∀ j y, j ≠ i → s.cache.ent j = some y →
          (Cache.modify { ent := fun j => if j = i then none else s.cache.ent j } e.row.dir fun p => { p with kids := p.kids.filter fun k => decide (k.2 ≠ i) }).ent j =
          some { y with kids := if j = e.row.dir then y.kids.filter fun k => decide (k.2 ≠ i) else y.kids } := by
        intro j y hj hy
        simp only [Cache.modify, if_neg hj]
        split
        · rw [hy]; rfl
        · exact hy
      refine ⟨?_, ?_, ?_, fun _ h => h.elim⟩
      · intro j x hx
        obtain ⟨hj, y, hy, rfl⟩ := hent j x hx
        rw [htj j hj]
        exact ha.row j y hy
      · intro j x hx _
        obtain ⟨hj, y, hy, rfl⟩ := hent j x hx
        simp only
        rcases ha.done j y hy (fun h => h) with k | ⟨k1, k2, q, k3, k4⟩
        · exact .inl k
        · have hyd : y.row.dir ≠ i := by
            intro hd
            rw [hd, he] at k3
            cases k3
            rw [hnokid] at k4
            cases k4
          refine .inr ⟨k1, k2, _, hfwd _ q hyd k3, ?_⟩
          simp only
          split
          · exact List.mem_filter.2 ⟨k4, decide_eq_true hj⟩
          · exact k4
      · intro a q n k hq hk
        obtain ⟨hai, y, hy, rfl⟩ := hent a q hq
        simp only at hk
        have hk' : (n, k) ∈ y.kids ∧ k ≠ i := by
          split at hk
          · obtain ⟨k1, k2⟩ := List.mem_filter.1 hk
            exact ⟨k1, of_decide_eq_true k2⟩
          · rename_i had
            refine ⟨hk, ?_⟩
            rintro rfl
            obtain ⟨_, _, x, k3, _, k5⟩ := ha.kid a y n k hy hk
            rw [he] at k3
            cases k3
            exact had k5.symm
        obtain ⟨_, k2, x, k3, k4, k5⟩ := ha.kid a y n k hy hk'.1
        exact ⟨fun h => h, k2, _, hfwd k x hk'.2 k3, k4, k5⟩

theorem good_setName {s : St} (hs : Sound s.tab) (ha : Agree s.tab s.cache) {i : Nat} {n : Str} {d : Nat} (h0 : i ≠ 0) (hd : d ≠ 0) : Good s (.setName i n d) := by
  unfold Good
  simp only [step]
  cases hdr : s.tab.row d with
  | none =>
    rw [add_none ha hd hdr]
    simp only
    rintro t' out ⟨h, _⟩
    exact h hdr
  | some dr =>
    have hdn : s.tab.row d ≠ none := by rw [hdr]; simp
    obtain ⟨c0, h1, h2, h3, _⟩ := add_ok hs ha (i := d) (.inr hdn)
    rw [h1]
    simp only
    cases hr : s.tab.row i with
    | none =>
      rw [add_none h2 h0 hr]
      simp only
      rintro t' out ⟨_, _, ⟨r, h, _⟩, _⟩
      rw [hr] at h
      cases h
    | some r =>
      obtain ⟨c, h4, h5, h6, h7⟩ := add_ok hs h2 (i := i) (.inr (by rw [hr]; simp))
      rw [h4]
      simp only
      have hcd : c.ent d ≠ none := by
        cases hx : c0.ent d with
        | none => exact absurd hx h3
        | some x =>
          obtain ⟨x', g, _⟩ := h7 d x hx
          rw [g]
          simp
      cases he : c.ent i with
      | none => exact absurd he h6
      | some e =>
        simp only
        have her : e.row = r := by
          rcases h5.row i e he with g | g
          · exact absurd g.1 h0
          · rw [hr] at g
            exact (Option.some.inj g.2).symm
        by_cases hsame : e.row.name = n ∧ e.row.dir = d
        · rw [if_pos hsame]
          rw [her] at hsame
          simp only
          refine ⟨⟨hdn, ?_, ⟨r, hr, ?_, fun _ _ => rfl⟩, rfl⟩, hs, h5⟩
          · intro j q hq hqd hqn
            exact hs.unique j i q r hq hr (by rw [hqd, hsame.2]) (by rw [hqn, hsame.1])
          · show s.tab.row i = _
            rw [hr]
            obtain ⟨hn', hd'⟩ := hsame
            subst hn' hd'
            rfl
        · rw [if_neg hsame]
          -- the row is changed if there is no other row with the name
          have hren : s.tab.rename i n d = open Classical in if (∃ j q, s.tab.row j = some q ∧ q.dir = d ∧ q.name = n ∧ j ≠ i) then none
              else some (s.tab.update i fun r => { r with name := n, dir := d }) := by
            unfold Table.rename
            cases hsel : s.tab.select d n with
            | none =>
              simp only
              rw [if_neg]
              rintro ⟨j, q, g1, g2, g3, _⟩
              exact select_none hs hsel g1 g2 g3
            | some j =>
              obtain ⟨q, g1, g2, g3⟩ := select_some hsel
              simp only
              by_cases hj : j = i
              · rw [if_pos hj, if_neg]
                rintro ⟨k, x, k1, k2, k3, k4⟩
                exact k4 ((hs.unique k j x q k1 g1 (by rw [k2, g2]) (by rw [k3, g3])).trans hj)
              · rw [if_neg hj, if_pos ⟨j, q, g1, g2, g3, hj⟩]
          rw [hren]
          by_cases hother : ∃ j q, s.tab.row j = some q ∧ q.dir = d ∧ q.name = n ∧ j ≠ i
          · rw [if_pos hother]
            simp only
            rintro t' out ⟨_, h, _⟩
            obtain ⟨j, q, g1, g2, g3, g4⟩ := hother
            exact g4 (h j q g1 g2 g3)
          · rw [if_neg hother]
            simp only
            have hun : ∀ j q, s.tab.row j = some q → q.dir = d → q.name = n → j = i := by
              intro j q g1 g2 g3
              by_cases hj : j = i
              · exact hj
              · exact absurd ⟨j, q, g1, g2, g3, hj⟩ hother
            have hti : (s.tab.update i fun r => { r with name := n, dir := d }).row i = some { r with name := n, dir := d } := by
              simp only [Table.update, if_true]; rw [hr]; rfl
            have htj : ∀ j, j ≠ i → (s.tab.update i fun r => { r with name := n, dir := d }).row j = s.tab.row j := fun j hj => by simp only [Table.update, if_neg hj]
            have htop : (s.tab.update i fun r => { r with name := n, dir := d }).top = s.tab.top := rfl
            have hch : Changes s.tab (s.tab.update i fun r => { r with name := n, dir := d }) i fun r => { r with name := n, dir := d } := update_row hr
            generalize (s.tab.update i fun r => { r with name := n, dir := d }) = t' at hti htj htop hch
            have hs' : Sound t' := by
              refine ⟨?_, ?_, ?_, ?_, ?_⟩
              · rw [htj 0 (Ne.symm h0)]
                exact hs.zero
              · intro j hj
                rw [htop] at hj
                have := hs.bound j hj
                rw [htj j (by rintro rfl; rw [hr] at this; cases this)]
                exact this
              · intro a b x y hx hy hxy hn
                by_cases hai : a = i
                · by_cases hbi : b = i
                  · rw [hai, hbi]
                  · rw [hai, hti] at hx
                    cases hx
                    rw [htj b hbi] at hy
                    exact absurd (hun b y hy hxy.symm hn.symm) hbi
                · rw [htj a hai] at hx
                  by_cases hbi : b = i
                  · rw [hbi, hti] at hy
                    cases hy
                    exact absurd (hun a x hx hxy hn) hai
                  · rw [htj b hbi] at hy
                    exact hs.unique a b x y hx hy hxy hn
              · intro a x hx
                have hkeep : ∀ d, s.tab.row d ≠ none → t'.row d ≠ none := by
                  intro d hd
                  by_cases hdi : d = i
                  · rw [hdi, hti]; simp
                  · rw [htj d hdi]; exact hd
                by_cases hai : a = i
                · rw [hai, hti] at hx
                  cases hx
                  exact .inr (hkeep _ hdn)
                · rw [htj a hai] at hx
                  exact (hs.dirs a x hx).imp_right (hkeep _)
              · intro a x hx
                by_cases hai : a = i
                · rw [hai, hti] at hx
                  cases hx
                  exact hs.fits i r hr
                · rw [htj a hai] at hx
                  exact hs.fits a x hx
            -- the entry leaves its old directory
            have hmid : ∃ c2, changeName c i n d = c2.resolve i ∧ (∃ e2, c2.ent i = some e2 ∧ e2.row = { r with name := n, dir := d }) ∧ c2.ent d ≠ none ∧ Inv (fun j => j = i) t' c2 := by
              have hc1 : ∃ c1 : Cache, (match e.parent with | none => c | some p => c.modify p fun p => { p with kids := p.kids.filter fun k => decide (k.2 ≠ i) }) = c1 ∧
                  (∀ j x, c.ent j = some x → ∃ x', c1.ent j = some x' ∧ x'.row = x.row ∧ x'.parent = x.parent ∧ ∀ k, k ∈ x'.kids ↔ k ∈ x.kids ∧ k.2 ≠ i) ∧
                  (∀ j, c.ent j = none → c1.ent j = none) := by
                refine ⟨_, rfl, ?_, ?_⟩
                · intro j x hx
                  have hkid : e.row.dir ≠ j ∨ e.parent = none → ∀ k ∈ x.kids, k.2 ≠ i := by
                    rintro hp ⟨m, k⟩ hk rfl
                    obtain ⟨_, g2, y, g3, _, g5⟩ := h5.kid j x m k hx hk
                    rw [he] at g3
                    cases g3
                    rcases hp with hp | hp
                    · exact hp g5
                    · rcases h5.done k e he (fun h => h) with f | f
                      · rw [f.1] at g5
                        exact g2 g5.symm
                      · rw [f.2.1] at hp
                        cases hp
                  rcases h5.done i e he (fun h => h) with ⟨_, f⟩ | ⟨_, f, _⟩
                  · rw [f]
                    simp only
                    exact ⟨x, hx, rfl, rfl, fun k => ⟨fun hk => ⟨hk, hkid (.inr f) k hk⟩, fun hk => hk.1⟩⟩
                  · rw [f]
                    simp only [Cache.modify]
                    split
                    · rw [hx]
                      refine ⟨_, rfl, rfl, rfl, fun k => ?_⟩
                      rw [List.mem_filter, decide_eq_true_iff]
                    · rename_i hj
                      exact ⟨x, hx, rfl, rfl, fun k => ⟨fun hk => ⟨hk, hkid (.inl (Ne.symm hj)) k hk⟩, fun hk => hk.1⟩⟩
                · intro j hj
                  rcases h5.done i e he (fun h => h) with ⟨_, f⟩ | ⟨_, f, _⟩
                  · rw [f]
                    exact hj
                  · rw [f]
                    simp only [Cache.modify]
                    rw [hj]
                    split <;> rfl
              obtain ⟨c1, e1, k1, k2⟩ := hc1
              refine ⟨c1.modify i fun e => { e with row := { e.row with name := n, dir := d } }, ?_, ?_, ?_, ?_⟩
              · unfold changeName
                rw [he]
                simp only
                subst e1
                rfl
              · obtain ⟨x', g1, g2, _⟩ := k1 i e he
                simp only [Cache.modify, if_true]
                rw [g1]
                exact ⟨_, rfl, by simp only; rw [g2, her]⟩
              · cases hx : c.ent d with
                | none => exact absurd hx hcd
                | some x =>
                  obtain ⟨x', g1, _⟩ := k1 d x hx
                  simp only [Cache.modify]
                  rw [g1]
                  split <;> simp
              · have hfwd : ∀ j x, c.ent j = some x → ∃ x', (c1.modify i fun e => { e with row := { e.row with name := n, dir := d } }).ent j = some x' ∧
                    x'.row = (if j = i then { x.row with name := n, dir := d } else x.row) ∧ x'.parent = x.parent ∧ ∀ k, k ∈ x'.kids ↔ k ∈ x.kids ∧ k.2 ≠ i := by
                  intro j x hx
                  obtain ⟨x', g1, g2, g3, g4⟩ := k1 j x hx
                  simp only [Cache.modify]
                  split
                  · rw [g1]
                    exact ⟨_, rfl, by simp only; rw [g2], g3, g4⟩
                  · exact ⟨x', g1, g2, g3, g4⟩
                have hback : ∀ j x', (c1.modify i fun e => { e with row := { e.row with name := n, dir := d } }).ent j = some x' → ∃ x, c.ent j = some x ∧
                    x'.row = (if j = i then { x.row with name := n, dir := d } else x.row) ∧ x'.parent = x.parent ∧ ∀ k, k ∈ x'.kids ↔ k ∈ x.kids ∧ k.2 ≠ i := by
                  intro j x' hx'
                  cases hx : c.ent j with
                  | none =>
                    have := k2 j hx
                    simp only [Cache.modify] at hx'
                    rw [this] at hx'
                    split at hx' <;> cases hx'
                  | some x =>
                    obtain ⟨y, g1, g2⟩ := hfwd j x hx
                    rw [g1] at hx'
                    cases hx'
                    exact ⟨x, rfl, g2⟩
                refine ⟨?_, ?_, ?_, ?_⟩
                · intro j x' hx'
                  obtain ⟨x, g1, g2, _⟩ := hback j x' hx'
                  by_cases hj : j = i
                  · subst hj
                    rw [he] at g1
                    cases g1
                    rw [if_pos rfl, her] at g2
                    exact .inr ⟨h0, by rw [hti, g2]⟩
                  · rw [if_neg hj] at g2
                    rw [g2, htj j hj]
                    exact h5.row j x g1
                · intro j x' hx' hj
                  obtain ⟨x, g1, g2, g3, _⟩ := hback j x' hx'
                  rw [if_neg hj] at g2
                  rw [g2, g3]
                  rcases h5.done j x g1 (fun h => h) with f | ⟨f1, f2, p, f3, f4⟩
                  · exact .inl f
                  · obtain ⟨p', l1, _, _, l2⟩ := hfwd _ p f3
                    exact .inr ⟨f1, f2, p', l1, (l2 _).2 ⟨f4, hj⟩⟩
                · intro a q' m k hq hk
                  obtain ⟨q, g1, _, _, g2⟩ := hback a q' hq
                  obtain ⟨g3, g4⟩ := (g2 _).1 hk
                  simp only at g4
                  obtain ⟨_, l2, y, l3, l4, l5⟩ := h5.kid a q m k g1 g3
                  obtain ⟨y', m1, m2, _⟩ := hfwd k y l3
                  rw [if_neg g4] at m2
                  exact ⟨g4, l2, y', m1, by rw [m2]; exact l4, by rw [m2]; exact l5⟩
                · rintro j rfl
                  obtain ⟨x', m1, _⟩ := hfwd j e he
                  rw [m1]
                  simp
            obtain ⟨c2, m1, ⟨e2, m2, m3⟩, m4, m5⟩ := hmid
            rw [m1]
            obtain ⟨c3, l1, _, l3⟩ := m5.resolve hs' m2 rfl (.inr (by rw [m3]; exact m4))
            rw [l1]
            simp only
            exact ⟨⟨hdn, hun, hch, rfl⟩, hs', l3.congr fun j => ⟨fun hx => hx.2 hx.1, fun hx => hx.elim⟩⟩

/-- The rows of a statement get entries. -/
theorem fetch_ok {t : Table} (ht : Sound t) {f : Row → Row} {d : Nat} (l : List (Nat × Row)) {c : Cache} (h : Agree t c) (hd : c.ent d ≠ none)
    (hl : ∀ i r, (i, r) ∈ l → t.row i = some r ∧ r.dir = d ∧ f r = r) : ∃ c', fetch f c l = some (c', l) ∧ Agree t c' := by
  induction l generalizing c with
  | nil => exact ⟨c, rfl, h⟩
  | cons x l ih =>
    obtain ⟨i, r⟩ := x
    obtain ⟨h1, h2, h3⟩ := hl i r List.mem_cons_self
    have h0 := row_ne_zero ht h1
    have hmid : ∃ c1, (match c.ent i with | some _ => some c | none => addToDir c i (f r)) = some c1 ∧ Agree t c1 ∧ c1.ent i ≠ none ∧ Grows c c1 := by
      cases he : c.ent i with
      | some e => exact ⟨c, rfl, h, by rw [he]; simp, Grows.refl c⟩
      | none =>
        simp only
        rw [h3]
        exact addToDir_ok ht h h0 h1 he (.inr (by rw [h2]; exact hd))
    obtain ⟨c1, g1, g2, g3, g4⟩ := hmid
    have hfe : fetch f c ((i, r) :: l) = (match c1.ent i with
        | none => none
        | some e => match fetch f c1 l with
          | none => none
          | some (c, out) => some (c, (i, e.row) :: out)) := by
      cases he : c.ent i with
      | some e =>
        rw [he] at g1
        cases g1
        simp only [fetch, he]
        rfl
      | none =>
        rw [he] at g1
        simp only at g1
        simp only [fetch, he, g1]
        rfl
    rw [hfe]
    have hd1 : c1.ent d ≠ none := by
      cases hx : c.ent d with
      | none => exact absurd hx hd
      | some x =>
        obtain ⟨x', g, _⟩ := g4 d x hx
        rw [g]
        simp
    obtain ⟨c2, k1, k2⟩ := ih g2 hd1 fun j q hq => hl j q (List.mem_cons_of_mem _ hq)
    cases he : c1.ent i with
    | none => exact absurd he g3
    | some e =>
      simp only
      rw [k1]
      simp only
      have : e.row = r := by
        rcases g2.row i e he with g | g
        · exact absurd g.1 h0
        · rw [h1] at g
          exact (Option.some.inj g.2).symm
      rw [this]
      exact ⟨c2, rfl, k2⟩

theorem mem_rows {t : Table} (ht : Sound t) {p : Nat → Row → Bool} {i : Nat} {r : Row} :
    (i, r) ∈ ((List.range t.top).filterMap fun i => match t.row i with | some r => if p i r = true then some (i, r) else none | none => none) ↔ t.row i = some r ∧ p i r = true := by
  rw [List.mem_filterMap]
  constructor
  · rintro ⟨j, _, hj⟩
    cases hr : t.row j with
    | none => rw [hr] at hj; cases hj
    | some q =>
      rw [hr] at hj
      simp only at hj
      split at hj
      · rename_i hq
        cases hj
        exact ⟨hr, hq⟩
      · cases hj
  · rintro ⟨hr, hp⟩
    refine ⟨i, List.mem_range.2 ?_, ?_⟩
    · by_cases hlt : i < t.top
      · exact hlt
      · rw [ht.bound i (by omega)] at hr; cases hr
    · rw [hr]
      simp only
      rw [if_pos hp]

theorem sorted_rows (f : Nat → Option (Nat × Row)) (hf : ∀ i x, f i = some x → x.1 = i) (l : List Nat) (hl : l.Pairwise (· < ·)) : Sorted (l.filterMap f) := by
  induction l with
  | nil => exact trivial
  | cons a l ih =>
    rw [List.pairwise_cons] at hl
    rw [List.filterMap_cons]
    cases ha : f a with
    | none => exact ih hl.2
    | some x =>
      obtain ⟨i, r⟩ := x
      have := hf a _ ha
      simp only at this
      subst this
      refine ⟨?_, ih hl.2⟩
      intro y hy
      obtain ⟨b, hb, hfb⟩ := List.mem_filterMap.1 hy
      rw [hf b y hfb]
      exact hl.1 b hb

theorem inDir_mem {t : Table} (ht : Sound t) {d : Nat} {p : Nat → Row → Bool} {i : Nat} {r : Row} : (i, r) ∈ t.inDir d p ↔ t.row i = some r ∧ r.dir = d ∧ p i r = true := by
  have := mem_rows ht (p := fun i r => decide (r.dir = d ∧ p i r = true)) (i := i) (r := r)
  simp only [decide_eq_true_iff] at this
  exact this

theorem inDir_sorted {t : Table} {d : Nat} {p : Nat → Row → Bool} : Sorted (t.inDir d p) := by
  refine sorted_rows _ ?_ _ List.pairwise_lt_range
  intro i x hx
  cases hr : t.row i with
  | none => rw [hr] at hx; cases hx
  | some q =>
    rw [hr] at hx
    simp only at hx
    split at hx
    · cases hx; rfl
    · cases hx

theorem good_glob {s : St} (hs : Sound s.tab) (ha : Agree s.tab s.cache) {d : Nat} (hd : d ≠ 0) (kinds : Kind → Bool) (p : Str → Bool) (skip : Nat → Bool) : Good s (.glob d kinds p skip) := by
  unfold Good
  simp only [step]
  cases hdr : s.tab.row d with
  | none =>
    rw [add_none ha hd hdr]
    simp only
    rintro t' out ⟨_, h, _⟩
    exact h hdr
  | some dr =>
    have hdn : s.tab.row d ≠ none := by rw [hdr]; simp
    obtain ⟨c, h1, h2, h3, _⟩ := add_ok hs ha (i := d) (.inr hdn)
    rw [h1]
    simp only
    obtain ⟨c', g1, g2⟩ := fetch_ok hs (f := id) (s.tab.inDir d fun i r => kinds r.kind && p r.name && !skip i) h2 h3 (fun i r hr => by
      obtain ⟨k1, k2, _⟩ := (inDir_mem hs).1 hr
      exact ⟨k1, k2, rfl⟩)
    rw [g1]
    simp only
    refine ⟨⟨rfl, hdn, inDir_sorted, fun i r => ?_⟩, hs, g2⟩
    rw [inDir_mem hs]
    simp only [Bool.and_eq_true, Bool.not_eq_true', and_assoc]

theorem good_vars {s : St} (hs : Sound s.tab) (ha : Agree s.tab s.cache) {d : Nat} (hd : d ≠ 0) {isVar : Nat → Bool}
    (hv : ∀ i r, s.tab.row i = some r → r.dir = d → isVar i = true → r = { dir := d, kind := r.kind, name := r.name }) : Good s (.vars d isVar) := by
  unfold Good
  simp only [step]
  cases hdr : s.tab.row d with
  | none =>
    rw [add_none ha hd hdr]
    simp only
    rintro t' out ⟨_, h, _⟩
    exact h hdr
  | some dr =>
    have hdn : s.tab.row d ≠ none := by rw [hdr]; simp
    obtain ⟨c, h1, h2, h3, _⟩ := add_ok hs ha (i := d) (.inr hdn)
    rw [h1]
    simp only
    obtain ⟨c', g1, g2⟩ := fetch_ok hs (f := fun r => { dir := d, kind := r.kind, name := r.name }) (s.tab.inDir d fun i _ => isVar i) h2 h3 (fun i r hr => by
      obtain ⟨k1, k2, k3⟩ := (inDir_mem hs).1 hr
      exact ⟨k1, k2, (hv i r k1 k2 k3).symm⟩)
    rw [g1]
    simp only
    exact ⟨⟨rfl, hdn, inDir_sorted, fun i r => inDir_mem hs⟩, hs, g2⟩

/-- All rows get entries that wait. -/
theorem newAll_ok {t : Table} (ht : Sound t) (l : List (Nat × Row)) {P : Nat → Prop} {c : Cache} (h : Inv P t c) (hl : ∀ i r, (i, r) ∈ l → t.row i = some r) (hn : Sorted l)
    (hc : ∀ x ∈ l, c.ent x.1 = none) : ∃ c', newAll c l = some c' ∧ Inv (fun j => P j ∨ ∃ r, (j, r) ∈ l) t c' ∧ (∀ j, c'.ent j ≠ none ↔ c.ent j ≠ none ∨ ∃ r, (j, r) ∈ l) := by
  induction l generalizing P c with
  | nil =>
    refine ⟨c, rfl, h.congr fun j => ⟨.inl, fun hx => hx.elim (fun h => h) (fun ⟨r, hr⟩ => by cases hr)⟩, fun j => ⟨.inl, fun hx => hx.elim (fun h => h) (fun ⟨r, hr⟩ => by cases hr)⟩⟩
  | cons x l ih =>
    obtain ⟨i, r⟩ := x
    have hr := hl i r List.mem_cons_self
    obtain ⟨c1, h1, h2, h3, h4⟩ := h.new (hc _ List.mem_cons_self) (.inr ⟨row_ne_zero ht hr, hr⟩)
    unfold newAll
    rw [h1]
    simp only
    obtain ⟨c2, g1, g2, g3⟩ := ih h4 (fun j q hq => hl j q (List.mem_cons_of_mem _ hq)) hn.2 (fun y hy => by
      have : i < y.1 := hn.1 y hy
      rw [h3 y.1 (by omega)]
      exact hc y (List.mem_cons_of_mem _ hy))
    refine ⟨c2, g1, g2.congr fun j => ?_, fun j => ?_⟩
    · constructor
      · rintro ((hx | rfl) | ⟨q, hq⟩)
        · exact .inl hx
        · exact .inr ⟨r, List.mem_cons_self⟩
        · exact .inr ⟨q, List.mem_cons_of_mem _ hq⟩
      · rintro (hx | ⟨q, hq⟩)
        · exact .inl (.inl hx)
        · rcases List.mem_cons.1 hq with hq | hq
          · cases hq
            exact .inl (.inr rfl)
          · exact .inr ⟨q, hq⟩
    · rw [g3]
      constructor
      · rintro (hx | ⟨q, hq⟩)
        · by_cases hj : j = i
          · exact .inr ⟨r, by rw [hj]; exact List.mem_cons_self⟩
          · rw [h3 j hj] at hx
            exact .inl hx
        · exact .inr ⟨q, List.mem_cons_of_mem _ hq⟩
      · rintro (hx | ⟨q, hq⟩)
        · by_cases hj : j = i
          · rw [hj, h2]
            exact .inl (by simp)
          · rw [h3 j hj]
            exact .inl hx
        · rcases List.mem_cons.1 hq with hq | hq
          · cases hq
            rw [h2]
            exact .inl (by simp)
          · exact .inr ⟨q, hq⟩

/-- All waiting entries are connected, or there is one whose directory is missing. -/
theorem resolveAll_ok {t : Table} (ht : Sound t) (l : List (Nat × Row)) {P : Nat → Prop} {c : Cache} (h : Inv P t c) (hn : Sorted l) (hl : ∀ i r, (i, r) ∈ l → P i ∧ t.row i = some r) :
    match resolveAll c (l.map Prod.fst) with
    | some c' => Inv (fun j => P j ∧ ¬ ∃ r, (j, r) ∈ l) t c' ∧ ∀ i r, (i, r) ∈ l → r.dir = 0 ∨ c.ent r.dir ≠ none
    | none => ∃ i r, (i, r) ∈ l ∧ r.dir ≠ 0 ∧ c.ent r.dir = none := by
  induction l generalizing P c with
  | nil =>
    show Inv _ t c ∧ _
    exact ⟨h.congr fun j => ⟨fun hx => ⟨hx, fun ⟨r, hr⟩ => by cases hr⟩, fun hx => hx.1⟩, fun _ _ h => by cases h⟩
  | cons x l ih =>
    obtain ⟨i, r⟩ := x
    obtain ⟨hp, hr⟩ := hl i r List.mem_cons_self
    have h0 := row_ne_zero ht hr
    rw [List.map_cons]
    simp only [resolveAll]
    cases he : c.ent i with
    | none => exact absurd he (h.here i hp)
    | some e =>
      have her : e.row = r := by
        rcases h.row i e he with g | g
        · exact absurd g.1 h0
        · rw [hr] at g
          exact (Option.some.inj g.2).symm
      by_cases hd : r.dir = 0 ∨ c.ent r.dir ≠ none
      · obtain ⟨c1, g1, g2, g3⟩ := h.resolve ht he hp (by rw [her]; exact hd)
        rw [g1]
        simp only
        have := ih g3 hn.2 (fun j q hq => by
          have : i < j := hn.1 _ hq
          exact ⟨⟨(hl j q (List.mem_cons_of_mem _ hq)).1, by omega⟩, (hl j q (List.mem_cons_of_mem _ hq)).2⟩)
        have hent : ∀ j, c1.ent j = none ↔ c.ent j = none := by
          intro j
          constructor
          · intro hx
            cases hc : c.ent j with
            | none => rfl
            | some y =>
              obtain ⟨y', k, _⟩ := g2.some hc
              rw [k] at hx
              cases hx
          · exact g2.none
        cases hres : resolveAll c1 (l.map Prod.fst) with
        | none =>
          rw [hres] at this
          obtain ⟨j, q, k1, k2, k3⟩ := this
          exact ⟨j, q, List.mem_cons_of_mem _ k1, k2, (hent _).1 k3⟩
        | some c2 =>
          rw [hres] at this
          refine ⟨this.1.congr fun j => ?_, ?_⟩
          · constructor
            · rintro ⟨⟨k1, k2⟩, k3⟩
              refine ⟨k1, ?_⟩
              rintro ⟨q, hq⟩
              rcases List.mem_cons.1 hq with hq | hq
              · cases hq
                exact k2 rfl
              · exact k3 ⟨q, hq⟩
            · rintro ⟨k1, k2⟩
              refine ⟨⟨k1, ?_⟩, fun ⟨q, hq⟩ => k2 ⟨q, List.mem_cons_of_mem _ hq⟩⟩
              rintro rfl
              exact k2 ⟨r, List.mem_cons_self⟩
          · intro j q hq
            rcases List.mem_cons.1 hq with hq | hq
            · cases hq
              exact hd
            · exact (this.2 j q hq).imp_right fun hx hy => hx ((hent _).2 hy)
      · have hd' : r.dir ≠ 0 ∧ c.ent r.dir = none := by
          constructor
          · exact fun hx => hd (.inl hx)
          · cases hx : c.ent r.dir with
            | none => rfl
            | some y => exact absurd (.inr (by rw [hx]; simp)) hd
        have hres : c.resolve i = none := by
          unfold Cache.resolve
          rw [he]
          simp only
          rw [her, if_neg hd'.1, hd'.2]
        rw [hres]
        simp only
        exact ⟨i, r, List.mem_cons_self, hd'⟩

theorem loaded_iff {k : Kind} : loaded k = true ↔ OnDisk k := by
  unfold OnDisk
  cases k <;> decide

theorem good_load {s : St} (hs : Sound s.tab) : Good s .load := by
  unfold Good
  simp only [step]
  generalize hl : ((List.range s.tab.top).filterMap fun i => match s.tab.row i with | some r => if loaded r.kind = true then some (i, r) else none | none => none) = l
  have hmem : ∀ i r, (i, r) ∈ l ↔ s.tab.row i = some r ∧ loaded r.kind = true := by
    intro i r
    rw [← hl]
    exact mem_rows hs (p := fun _ r => loaded r.kind)
  have hsort : Sorted l := by
    rw [← hl]
    refine sorted_rows _ ?_ _ List.pairwise_lt_range
    intro i x hx
    cases hr : s.tab.row i with
    | none => rw [hr] at hx; cases hx
    | some q =>
      rw [hr] at hx
      simp only at hx
      split at hx
      · cases hx; rfl
      · cases hx
  obtain ⟨c, h1, h2, h3⟩ := newAll_ok hs l (Inv.empty s.tab) (fun i r hr => ((hmem i r).1 hr).1) hsort (fun _ _ => rfl)
  rw [h1]
  simp only
  have h4 := resolveAll_ok hs l h2 hsort (fun i r hr => ⟨.inr ⟨r, hr⟩, ((hmem i r).1 hr).1⟩)
  have hin : ∀ d, c.ent d ≠ none ↔ ∃ q, s.tab.row d = some q ∧ loaded q.kind = true := by
    intro d
    rw [h3]
    constructor
    · rintro (hx | ⟨q, hq⟩)
      · exact absurd rfl hx
      · exact ⟨q, (hmem d q).1 hq⟩
    · rintro ⟨q, hq⟩
      exact .inr ⟨q, (hmem d q).2 hq⟩
  cases hres : resolveAll c (l.map Prod.fst) with
  | none =>
    rw [hres] at h4
    simp only
    rintro t' out ⟨_, h, _⟩
    obtain ⟨i, r, k1, k2, k3⟩ := h4
    obtain ⟨g1, g2⟩ := (hmem i r).1 k1
    rcases h i r g1 (loaded_iff.1 g2) with g | ⟨q, g, g'⟩
    · exact k2 g
    · exact (hin r.dir).2 ⟨q, g, loaded_iff.2 g'⟩ k3
  | some c' =>
    rw [hres] at h4
    simp only
    refine ⟨⟨rfl, ?_, rfl⟩, hs, h4.1.congr fun j => ⟨fun hx => hx.1.elim (fun h => h) hx.2, fun hx => hx.elim⟩⟩
    intro i r hr hk
    exact (h4.2 i r ((hmem i r).2 ⟨hr, loaded_iff.2 hk⟩)).imp_right fun hx => let ⟨q, g, g'⟩ := (hin r.dir).1 hx; ⟨q, g, loaded_iff.1 g'⟩

/-- Every call. -/
theorem good {s : St} (hs : Sound s.tab) (ha : Agree s.tab s.cache) {o : Op} (ho : Ok s.tab o) : Good s o := by
  have hkeep : ∀ {i r}, s.tab.row i = some r → int32 r.mtime.1 = r.mtime.1 ∧ int32 r.mtime.2 = r.mtime.2 := fun h => hs.fits _ _ h
  cases o with
  | get i => exact good_get hs ha i
  | select d n => exact good_select hs ha ho n
  | insert r => exact good_insert hs ha ho.1 ho.2
  | setName i n d => exact good_setName hs ha ho.1 ho.2
  | setKind i k => exact good_setField rfl (fun _ _ => Iff.rfl) hs ha ho (fun _ => ⟨rfl, rfl⟩) (fun r hr => hkeep (r := r) hr)
  | setMtime i x => exact good_setField rfl (fun _ _ => Iff.rfl) hs ha ho.1 (fun _ => ⟨rfl, rfl⟩) (fun r _ => ho.2)
  | setSrc i x => exact good_setField rfl (fun _ _ => Iff.rfl) hs ha ho (fun _ => ⟨rfl, rfl⟩) (fun r hr => hkeep (r := r) hr)
  | setDisplay i x => exact good_setField rfl (fun _ _ => Iff.rfl) hs ha ho (fun _ => ⟨rfl, rfl⟩) (fun r hr => hkeep (r := r) hr)
  | setFlags i x => exact good_setField rfl (fun _ _ => Iff.rfl) hs ha ho (fun _ => ⟨rfl, rfl⟩) (fun r hr => hkeep (r := r) hr)
  | delete i => exact good_delete hs ha ho.1 ho.2
  | glob d kinds p skip => exact good_glob hs ha ho kinds p skip
  | vars d isVar => exact good_vars hs ha ho.1 ho.2
  | load => exact good_load hs
  | restart => exact ⟨⟨rfl, rfl⟩, hs, Inv.empty _⟩

theorem reach_agree {s : St} (h : Reach s) : Sound s.tab ∧ Agree s.tab s.cache := by
  induction h with
  | start ht => exact ⟨ht, Inv.empty _⟩
  | step _ ho hst ih =>
    have := good ih.1 ih.2 ho
    unfold Good at this
    rw [hst] at this
    exact this.2

end Tup.Cache
