import Verif.Mirror.Inv

/-! Build directories that come and go. -/

namespace Tup.Mirror

theorem inv_dropVariant {s s' : St} {t : Path} {kept : Bool} (h : Inv s) (hfree : kept = true → Free s t) (he : dropVariant s t kept = some s') : Inv s' := by
  unfold dropVariant at he
  split at he
  next hc =>
    obtain ⟨htm, _⟩ := hc
    have hmem : ∀ r, r ∈ s'.rows ↔ r ∈ s.rows ∧ (¬ t <+: r.path ∨ (r.path = t ∧ kept = true)) := by
      intro r
      rw [← Option.some.inj he]
      show r ∈ (remove s fun x => t.isPrefixOf x && (x != t || !kept)).rows ↔ _
      rw [mem_remove]
      simp only [Bool.and_eq_false_iff, isPrefixOf_false, Bool.or_eq_false_iff, bne_eq_false_iff_eq, Bool.not_eq_false']
    have htops : ∀ x, x ∈ s'.tops ↔ x ∈ s.tops ∧ x ≠ t := by
      intro x
      rw [← Option.some.inj he]
      simp [remove]
    have hdead : ∀ {r : Row}, r ∈ s'.rows → r.id ∉ idsOf s (fun x => t.isPrefixOf x && (x != t || !kept)) := by
      intro r hr hc
      obtain ⟨r', hr', hP, e⟩ := mem_idsOf.1 hc
      have hr := (hmem r).1 hr
      rw [h.idI r' hr' r hr.1 e] at hP
      simp only [Bool.and_eq_true, List.isPrefixOf_iff_prefix, Bool.or_eq_true, bne_iff_ne, Bool.not_eq_true'] at hP
      rcases hr.2 with h1 | ⟨h1, h2⟩
      · exact h1 hP.1
      · rcases hP.2 with h3 | h3
        · exact h3 h1
        · rw [h2] at h3
          cases h3
    have hfl : ∀ {r : Row}, r ∈ s'.rows → r.id ∈ s.flags → r.id ∈ s'.flags := by
      intro r hr hf
      have := hdead hr
      rw [← Option.some.inj he]
      exact List.mem_append_right _ (mem_remove_flags.2 ⟨hf, this⟩)
    have hflt : ∀ {r : Row}, r ∈ s'.rows → r.path = t → r.id ∈ s'.flags := by
      intro r hr hp
      rw [← Option.some.inj he] at hr ⊢
      exact List.mem_append_left _ (mem_idsOf.2 ⟨r, hr, by simp [hp], rfl⟩)
    have hlk : ∀ {r q : Row}, r ∈ s'.rows → q ∈ s'.rows → (q.id, r.id) ∈ s.links → (q.id, r.id) ∈ s'.links := by
      intro r q hr hq hl
      have h1 := hdead hr
      have h2 := hdead hq
      rw [← Option.some.inj he]
      exact mem_remove_links.2 ⟨hl, h2, h1⟩
    clear he
    have hS : ∀ x, Source s x → Source s' x := fun x hx t' ht' => hx t' ((htops t').1 ht').1
    have hS' : ∀ r ∈ s'.rows, Source s' r.path → Source s r.path ∨ (r.path = t ∧ kept = true) := by
      intro r hr hs
      rcases ((hmem r).1 hr).2 with h1 | h1
      · refine .inl ?_
        intro t' ht' hp
        by_cases e : t' = t
        · exact h1 (e ▸ hp)
        · exact hs t' ((htops t').2 ⟨ht', e⟩) hp
      · exact .inr h1
    have hsrc : ∀ q ∈ s.rows, Source s q.path → q ∈ s'.rows := fun q hq hs => (hmem q).2 ⟨hq, .inl (hs t htm)⟩
    have hother : ∀ t' ∈ s.tops, t' ≠ t → ∀ r ∈ s.rows, t' <+: r.path → r ∈ s'.rows := by
      intro t' ht' hne r hr hp
      refine (hmem r).2 ⟨hr, .inl ?_⟩
      intro hp2
      rcases pre_pre hp hp2 with h1 | h1
      · exact hne (h.anti t' ht' t htm h1)
      · exact hne (h.anti t htm t' ht' h1).symm
    refine { idI := ?_, pathI := ?_, up := ?_, root := ?_, topRow := ?_, anti := ?_, mir := ?_, all := ?_, place := ?_, gone := ?_, dep := ?_ }
    · intro r hr r' hr' e
      exact h.idI r ((hmem r).1 hr).1 r' ((hmem r').1 hr').1 e
    · intro r hr r' hr' e
      exact h.pathI r ((hmem r).1 hr).1 r' ((hmem r').1 hr').1 e
    · intro r hr p n e
      obtain ⟨hr, hc⟩ := (hmem r).1 hr
      obtain ⟨q, hq, hqp⟩ := h.up r hr p n e
      refine ⟨q, (hmem q).2 ⟨hq, .inl ?_⟩, hqp⟩
      intro hp
      rw [hqp] at hp
      rcases hc with h1 | ⟨h1, _⟩
      · exact h1 (e ▸ hp.trans (List.prefix_append _ _))
      · have := hp.length_le
        rw [← h1, e] at this
        simp at this
        omega
    · obtain ⟨r, hr, e1, e2⟩ := h.root
      refine ⟨r, (hmem r).2 ⟨hr, .inl ?_⟩, e1, e2⟩
      intro hp
      rw [e2] at hp
      exact (h.topRow t htm).1 (List.prefix_nil.1 hp)
    · intro t' ht'
      obtain ⟨h1, h2⟩ := (htops t').1 ht'
      obtain ⟨h3, r, hr, e1, e2⟩ := h.topRow t' h1
      exact ⟨h3, r, hother t' h1 h2 r hr (e1 ▸ List.prefix_refl _), e1, e2⟩
    · intro t1 h1 t2 h2
      exact h.anti t1 ((htops t1).1 h1).1 t2 ((htops t2).1 h2).1
    · intro t' ht' r hr p i e1 e2
      obtain ⟨q, hq, f1, f2, f3⟩ := h.mir t' ((htops t').1 ht').1 r ((hmem r).1 hr).1 p i e1 e2
      exact ⟨q, hsrc q hq (f2 ▸ f3), f1, f2, hS _ f3⟩
    · intro t' ht' q hq hs
      obtain ⟨ht', hne⟩ := (htops t').1 ht'
      rcases hS' q hq hs with hs | ⟨hs, _⟩
      · rcases h.all t' ht' q ((hmem q).1 hq).1 hs with h1 | ⟨r, hr, h1, h2⟩
        · exact .inl (hfl hq h1)
        · exact .inr ⟨r, hother t' ht' hne r hr (h1 ▸ List.prefix_append _ _), h1, h2⟩
      · exact .inl (hflt hq hs)
    · intro t' ht' q hq hs r hr e
      obtain ⟨ht', hne⟩ := (htops t').1 ht'
      rcases hS' q hq hs with hs | ⟨hs, hk⟩
      · exact (h.place t' ht' q ((hmem q).1 hq).1 hs r ((hmem r).1 hr).1 e).imp (fun x => x) (fun x => ⟨x.1, hfl hr x.2⟩)
      · exact absurd (hs ▸ e) (hfree hk t' ht' r ((hmem r).1 hr).1)
    · intro t' ht' r hr hp hg
      exact hfl hr (h.gone t' ((htops t').1 ht').1 r ((hmem r).1 hr).1 hp hg)
    · intro t' ht' r hr i hp hg
      obtain ⟨x, hx⟩ := hp
      obtain ⟨q, hq, f1, f2, f3⟩ := h.mir t' ((htops t').1 ht').1 r ((hmem r).1 hr).1 x i hx.symm hg
      rcases h.dep t' ((htops t').1 ht').1 r ((hmem r).1 hr).1 i ⟨x, hx⟩ hg with h1 | h1
      · exact .inl (hfl hr h1)
      · exact .inr (f1 ▸ hlk hr (hsrc q hq (f2 ▸ f3)) (f1 ▸ h1))
  next => cases he

/-- What the duplication adds. -/
theorem dup_fold {p : Path} (l : List Row) (s : St) (hl : PathI l) (hid : IdI s.rows) (hpath : PathI s.rows) :
    let s' := l.foldl (fun s q => ensure s (p ++ q.path) q.id) s
    s'.tops = s.tops ∧ s'.links = s.links ∧ s.flags ⊆ s'.flags ∧ IdI s'.rows ∧ PathI s'.rows ∧
      (∀ r ∈ s.rows, (∀ q ∈ l, r.path ≠ p ++ q.path) → r ∈ s'.rows) ∧
      (∀ r ∈ s'.rows, r ∈ s.rows ∧ (∀ q ∈ l, r.path ≠ p ++ q.path) ∨ ∃ q ∈ l, r.path = p ++ q.path ∧ r.src = .of q.id) ∧
      (∀ q ∈ l, ∃ r ∈ s'.rows, r.path = p ++ q.path ∧ r.src = .of q.id) := by
  induction l generalizing s with
  | nil => exact ⟨rfl, rfl, fun _ h => h, hid, hpath, fun _ h _ => h, fun r hr => .inl ⟨hr, fun _ h => absurd h List.not_mem_nil⟩, fun _ h => absurd h List.not_mem_nil⟩
  | cons a l ih =>
    have hl' : PathI l := fun r hr r' hr' => hl r (List.mem_cons_of_mem _ hr) r' (List.mem_cons_of_mem _ hr')
    obtain ⟨h1, h2, h3, h4, h5, h6, h7, h8⟩ := ih (ensure s (p ++ a.path) a.id) hl' (ensure_idI hid) (ensure_pathI hpath)
    simp only [List.foldl_cons]
    refine ⟨h1.trans (ensure_tops _ _ _), h2.trans (ensure_links _ _ _), fun x hx => h3 (ensure_flags hx), h4, h5, ?_, ?_, ?_⟩
    · intro r hr hne
      refine h6 r (mem_ensure.2 (.inl ⟨hr, hne a List.mem_cons_self⟩)) (fun q hq => hne q (List.mem_cons_of_mem _ hq))
    · intro r hr
      rcases h7 r hr with ⟨hr, hne⟩ | ⟨q, hq, e⟩
      · rcases mem_ensure.1 hr with ⟨hr, hp⟩ | ⟨r0, h0, hp, rfl⟩ | ⟨_, rfl⟩
        · refine .inl ⟨hr, ?_⟩
          intro q hq
          rcases List.mem_cons.1 hq with rfl | hq
          · exact hp
          · exact hne q hq
        · exact .inr ⟨a, List.mem_cons_self, hp, rfl⟩
        · exact .inr ⟨a, List.mem_cons_self, rfl, rfl⟩
      · exact .inr ⟨q, List.mem_cons_of_mem _ hq, e⟩
    · intro q hq
      rcases List.mem_cons.1 hq with rfl | hq
      · obtain ⟨r, hr, e1, e2⟩ := ensure_has (s := s) (p := p ++ q.path) (i := q.id)
        by_cases hc : ∃ q' ∈ l, r.path = p ++ q'.path
        · obtain ⟨q', hq', e⟩ := hc
          have : q' = q := hl q' (List.mem_cons_of_mem _ hq') q List.mem_cons_self (List.append_cancel_left (e.symm.trans e1))
          exact h8 q (this ▸ hq')
        · exact ⟨r, h6 r hr (fun q' hq' e => hc ⟨q', hq', e⟩), e1, e2⟩
      · exact h8 q hq

theorem inv_newVariant {s s' : St} {n : Str} (h : Inv s) (he : newVariant s [n] = some s') : Inv s' := by
  unfold newVariant at he
  simp only [List.getLast?_singleton] at he
  split at he
  · cases he
  next hc =>
    simp only [not_or] at hc
    obtain ⟨ha, hv, hempty⟩ := hc
    obtain ⟨a, ha⟩ : ∃ a, rowAt s [n] = some a := by
      cases hx : rowAt s [n] with
      | none => rw [hx] at ha; exact absurd rfl ha
      | some a => exact ⟨a, rfl⟩
    obtain ⟨ha, hap⟩ := rowAt_some ha
    have hv : Source s [n] := variantOf_none.1 (by
      cases hx : variantOf s [n] with
      | none => rfl
      | some _ => rw [hx] at hv; exact absurd rfl hv)
    have hempty : ∀ r ∈ s.rows, [n] <+: r.path → r.path = [n] := by
      intro r hr hp
      refine Classical.byContradiction fun hne => hempty (List.any_eq_true.2 ⟨r, hr, ?_⟩)
      simp only [Bool.and_eq_true, List.isPrefixOf_iff_prefix, bne_iff_ne]
      exact ⟨hp, hne⟩
    -- the table before the duplication
    generalize hs1 : remove (setSrc s [n] (.of dot)) (fun x => s.tops.any fun t => (t ++ [n]).isPrefixOf x) = s1 at he
    have hP : ∀ x : Path, (s.tops.any fun t => (t ++ [n]).isPrefixOf x) = true ↔ ∃ t ∈ s.tops, t ++ [n] <+: x := by
      intro x
      simp only [List.any_eq_true, List.isPrefixOf_iff_prefix]
    have hP' : ∀ x : Path, (s.tops.any fun t => (t ++ [n]).isPrefixOf x) = false ↔ ¬ ∃ t ∈ s.tops, t ++ [n] <+: x := by
      intro x
      rw [← hP, Bool.not_eq_true]
    have hm1 : ∀ r, r ∈ s1.rows ↔ (∃ r0 ∈ s.rows, (r0.path = [n] ∧ r = { r0 with src := .of dot }) ∨ (r0.path ≠ [n] ∧ r = r0)) ∧ ¬ ∃ t ∈ s.tops, t ++ [n] <+: r.path := by
      intro r
      rw [← hs1, mem_remove, mem_setSrc, hP']
    have ht1 : s1.tops = s.tops := by rw [← hs1]; rfl
    have hf1 : ∀ {r : Row}, r ∈ s.rows → (¬ ∃ t ∈ s.tops, t ++ [n] <+: r.path) → r.id ∉ idsOf (setSrc s [n] (.of dot)) (fun x => s.tops.any fun t => (t ++ [n]).isPrefixOf x) := by
      intro r hr hPr hc
      obtain ⟨r', hr', hP2, e⟩ := mem_idsOf.1 hc
      obtain ⟨r0, hr0, h0⟩ := mem_setSrc.1 hr'
      have : r0.id = r'.id ∧ r0.path = r'.path := by
        rcases h0 with ⟨_, rfl⟩ | ⟨_, rfl⟩ <;> exact ⟨rfl, rfl⟩
      rw [← this.2, h.idI r0 hr0 r hr (this.1.trans e)] at hP2
      exact hPr ((hP _).1 hP2)
    have hfl1 : ∀ {r : Row}, r ∈ s.rows → (¬ ∃ t ∈ s.tops, t ++ [n] <+: r.path) → r.id ∈ s.flags → r.id ∈ s1.flags := by
      intro r hr hP hf
      rw [← hs1]
      exact mem_remove_flags.2 ⟨hf, hf1 hr hP⟩
    have hlk1 : ∀ {r q : Row}, r ∈ s.rows → (¬ ∃ t ∈ s.tops, t ++ [n] <+: r.path) → q ∈ s.rows → (¬ ∃ t ∈ s.tops, t ++ [n] <+: q.path) → (q.id, r.id) ∈ s.links → (q.id, r.id) ∈ s1.links := by
      intro r q hr hP hq hPq hl
      rw [← hs1]
      exact mem_remove_links.2 ⟨hl, hf1 hq hPq, hf1 hr hP⟩
    clear hs1 hf1
    have hshape : ∀ {r}, r ∈ s1.rows → ∃ r0 ∈ s.rows, r.id = r0.id ∧ r.path = r0.path ∧ (r0.path ≠ [n] → r = r0) ∧ (r.path = [n] → r.src = .of dot) := by
      intro r hr
      obtain ⟨⟨r0, h0, (⟨e, rfl⟩ | ⟨e, rfl⟩)⟩, _⟩ := (hm1 r).1 hr
      · exact ⟨r0, h0, rfl, rfl, fun hne => absurd e hne, fun _ => rfl⟩
      · exact ⟨r, h0, rfl, rfl, fun _ => rfl, fun hc => absurd hc e⟩
    have hkeep : ∀ {r : Row}, r ∈ s.rows → r.path ≠ [n] → (¬ ∃ t ∈ s.tops, t ++ [n] <+: r.path) → r ∈ s1.rows := fun hr hne hP => (hm1 _).2 ⟨⟨_, hr, .inr ⟨hne, rfl⟩⟩, hP⟩
    have hsrcP : ∀ {x : Path}, Source s x → ¬ ∃ t ∈ s.tops, t ++ [n] <+: x := by
      rintro x hs ⟨t, ht, hp⟩
      exact hs t ht ((List.prefix_append _ _).trans hp)
    -- the rows below the new build directory before the duplication
    have hbelow1 : ∀ {r}, r ∈ s1.rows → [n] <+: r.path → r.path = [n] := by
      intro r hr hp
      obtain ⟨r0, h0, _, e2, _⟩ := hshape hr
      rw [e2] at hp ⊢
      exact hempty r0 h0 hp
    have hid1 : IdI s1.rows := by
      intro r hr r' hr' e
      obtain ⟨⟨a, ha, hca⟩, _⟩ := (hm1 r).1 hr
      obtain ⟨⟨b, hb, hcb⟩, _⟩ := (hm1 r').1 hr'
      have hab : a = b := by
        refine h.idI a ha b hb ?_
        rcases hca with ⟨_, ea⟩ | ⟨_, ea⟩ <;> rcases hcb with ⟨_, eb⟩ | ⟨_, eb⟩ <;> rw [ea, eb] at e <;> exact e
      subst hab
      rcases hca with ⟨hGa, ea⟩ | ⟨hGa, ea⟩ <;> rcases hcb with ⟨hGb, eb⟩ | ⟨hGb, eb⟩
      · rw [ea, eb]
      · exact absurd hGa hGb
      · exact absurd hGb hGa
      · rw [ea, eb]
    have hpath1 : PathI s1.rows := by
      intro r hr r' hr' e
      obtain ⟨⟨a, ha, hca⟩, _⟩ := (hm1 r).1 hr
      obtain ⟨⟨b, hb, hcb⟩, _⟩ := (hm1 r').1 hr'
      have hab : a = b := by
        refine h.pathI a ha b hb ?_
        rcases hca with ⟨_, ea⟩ | ⟨_, ea⟩ <;> rcases hcb with ⟨_, eb⟩ | ⟨_, eb⟩ <;> rw [ea, eb] at e <;> exact e
      subst hab
      rcases hca with ⟨hGa, ea⟩ | ⟨hGa, ea⟩ <;> rcases hcb with ⟨hGb, eb⟩ | ⟨hGb, eb⟩
      · rw [ea, eb]
      · exact absurd hGa hGb
      · exact absurd hGb hGa
      · rw [ea, eb]
    -- the duplication
    have he := Option.some.inj he
    unfold duplicate at he
    simp only at he
    have hl : ∀ q, q ∈ (s1.rows.filter fun r => r.path != [] && (variantOf { s1 with tops := [n] :: s1.tops } r.path).isNone) ↔
        q ∈ s1.rows ∧ q.path ≠ [] ∧ Source s q.path ∧ ¬ [n] <+: q.path := by
      intro q
      simp only [List.mem_filter, Bool.and_eq_true, bne_iff_ne, Option.isNone_iff_eq_none, variantOf_none]
      constructor
      · rintro ⟨h1, h2, h3⟩
        exact ⟨h1, h2, fun t ht => h3 t (List.mem_cons_of_mem _ (ht1 ▸ ht)), h3 [n] List.mem_cons_self⟩
      · rintro ⟨h1, h2, h3, h4⟩
        refine ⟨h1, h2, ?_⟩
        intro t ht
        rcases List.mem_cons.1 ht with rfl | ht
        · exact h4
        · exact h3 t (ht1 ▸ ht)
    generalize hL : (s1.rows.filter fun r => r.path != [] && (variantOf { s1 with tops := [n] :: s1.tops } r.path).isNone) = L at he hl
    have hLI : PathI L := fun r hr r' hr' => hpath1 r ((hl r).1 hr).1 r' ((hl r').1 hr').1
    obtain ⟨d1, d2, d3, d4, d5, d6, d7, d8⟩ := dup_fold (p := [n]) L { s1 with tops := [n] :: s1.tops } hLI hid1 hpath1
    generalize hs3 : L.foldl (fun s q => ensure s ([n] ++ q.path) q.id) { s1 with tops := [n] :: s1.tops } = s3 at he d1 d2 d3 d4 d5 d6 d7 d8
    clear hs3 hL
    have htops : ∀ x, x ∈ s'.tops ↔ x = [n] ∨ x ∈ s.tops := by
      intro x
      rw [← he]
      simp only [d1, ht1, List.mem_cons]
    have hrows : s'.rows = s3.rows := by rw [← he]
    have hlinks : s'.links = s1.links := by rw [← he]; exact d2
    have hflags : ∀ i, i ∈ s1.flags → i ∈ s'.flags := by
      intro i hi
      rw [← he]
      exact List.mem_append_right _ (d3 hi)
    have hflagsn : ∀ r ∈ s'.rows, [n] <+: r.path → r.id ∈ s'.flags := by
      intro r hr hp
      rw [← he] at hr ⊢
      exact List.mem_append_left _ (mem_idsOf.2 ⟨r, hr, List.isPrefixOf_iff_prefix.2 hp, rfl⟩)
    clear he
    rw [← hrows] at d4 d5 d6 d7 d8
    -- nothing of the old table is where the duplication writes
    have hno : ∀ r ∈ s1.rows, ∀ q ∈ L, r.path ≠ [n] ++ q.path := by
      intro r hr q hq e
      have := hbelow1 hr (e ▸ List.prefix_append _ _)
      rw [e] at this
      exact ((hl q).1 hq).2.1 (by simpa using this)
    have hk : ∀ r ∈ s1.rows, r ∈ s'.rows := fun r hr => d6 r hr (hno r hr)
    have h7 : ∀ r ∈ s'.rows, r ∈ s1.rows ∨ ∃ q ∈ L, r.path = [n] ++ q.path ∧ r.src = .of q.id := fun r hr => (d7 r hr).imp (fun x => x.1) (fun x => x)
    have hS : ∀ x, Source s' x ↔ Source s x ∧ ¬ [n] <+: x := by
      intro x
      unfold Source
      constructor
      · intro hx
        exact ⟨fun t ht => hx t ((htops t).2 (.inr ht)), hx [n] ((htops _).2 (.inl rfl))⟩
      · rintro ⟨h1, h2⟩ t ht
        rcases (htops t).1 ht with rfl | ht
        · exact h2
        · exact h1 t ht
    -- the rows of the sources
    have hsrc1 : ∀ q ∈ s'.rows, Source s' q.path → q ∈ s1.rows ∧ q ∈ s.rows := by
      intro q hq hs
      rcases h7 q hq with h1 | ⟨q', _, e, _⟩
      · obtain ⟨q0, hq0, _, e2, e3, _⟩ := hshape h1
        have hne : q0.path ≠ [n] := by
          intro hc
          exact ((hS _).1 hs).2 (by rw [e2, hc]; exact List.prefix_refl _)
        exact ⟨h1, e3 hne ▸ hq0⟩
      · exact absurd (e ▸ List.prefix_append _ _) ((hS _).1 hs).2
    have hsrc2 : ∀ q ∈ s.rows, Source s q.path → ¬ [n] <+: q.path → q ∈ s'.rows :=
      fun q hq hs hp => hk q (hkeep hq (fun e => hp (e ▸ List.prefix_refl _)) (hsrcP hs))
    obtain ⟨rt, hrt, ert1, ert2⟩ := h.root
    have hrt' : rt ∈ s'.rows := by
      refine hsrc2 rt hrt ?_ ?_
      · intro t ht hp
        rw [ert2] at hp
        exact (h.topRow t ht).1 (List.prefix_nil.1 hp)
      · rw [ert2]
        intro hp
        exact absurd (List.prefix_nil.1 hp) (by simp)
    -- rows of the other build directories
    have htn : ∀ t ∈ s.tops, ∀ x y, t ++ x ≠ [n] ++ y := by
      intro t ht x y e
      have hp1 : [n] <+: t ++ x := e ▸ List.prefix_append _ _
      rcases pre_pre hp1 (List.prefix_append t x) with h1 | h1
      · obtain ⟨_, rtop, hr, e1, _⟩ := h.topRow t ht
        have := hempty rtop hr (e1 ▸ h1)
        exact hv t ht (by rw [← e1, this]; exact List.prefix_refl _)
      · exact hv t ht h1
    have hold : ∀ t ∈ s.tops, ∀ r ∈ s'.rows, t <+: r.path → r ∈ s.rows ∧ ¬ ∃ t ∈ s.tops, t ++ [n] <+: r.path := by
      rintro t ht r hr ⟨x, hx⟩
      rcases h7 r hr with h1 | ⟨q, _, e, _⟩
      · obtain ⟨q0, hq0, _, e2, e3, _⟩ := hshape h1
        have hne : q0.path ≠ [n] := by
          intro hc
          exact htn t ht x [] (by rw [hx, e2, hc]; rfl)
        exact ⟨e3 hne ▸ hq0, ((hm1 r).1 h1).2⟩
      · exact absurd (hx.trans e) (htn t ht x _)
    have hnew : ∀ t ∈ s.tops, ∀ r ∈ s.rows, ∀ x, r.path = t ++ x → ¬ [n] <+: x → r ∈ s'.rows ∧ ¬ ∃ t ∈ s.tops, t ++ [n] <+: r.path := by
      intro t ht r hr x e hx
      have hp : ¬ ∃ t ∈ s.tops, t ++ [n] <+: r.path := by
        rintro ⟨t', ht', y, hy⟩
        have := (h.oneTop ht ht' (x := x) (y := [n] ++ y) (by rw [← e, ← hy, List.append_assoc])).2
        exact hx (this ▸ List.prefix_append _ _)
      refine ⟨hk r (hkeep hr ?_ hp), hp⟩
      intro hc
      exact htn t ht x [] (by rw [← e, hc]; rfl)
    obtain ⟨top, htop, etop1, etop2⟩ : ∃ r ∈ s'.rows, r.path = [n] ∧ r.src = .of dot := by
      refine ⟨{ a with src := .of dot }, hk _ ((hm1 _).2 ⟨⟨a, ha, .inl ⟨hap, rfl⟩⟩, ?_⟩), hap, rfl⟩
      rw [show ({ a with src := Src.of dot } : Row).path = [n] from hap]
      exact hsrcP hv
    refine { idI := d4, pathI := d5, up := ?_, root := ⟨rt, hrt', ert1, ert2⟩, topRow := ?_, anti := ?_, mir := ?_, all := ?_, place := ?_, gone := ?_, dep := ?_ }
    · intro r hr x m e
      rcases h7 r hr with h1 | ⟨q, hq, e2, _⟩
      · obtain ⟨r0, hr0, _, f2, _⟩ := hshape h1
        obtain ⟨q, hq, hqx⟩ := h.up r0 hr0 x m (f2 ▸ e)
        have hP : ¬ ∃ t ∈ s.tops, t ++ [n] <+: q.path := by
          rintro ⟨t, ht, hp⟩
          refine ((hm1 r).1 h1).2 ⟨t, ht, hp.trans ?_⟩
          rw [hqx, e]
          exact List.prefix_append _ _
        by_cases hqn : q.path = [n]
        · exact ⟨top, htop, by rw [etop1, ← hqx, hqn]⟩
        · exact ⟨q, hk q (hkeep hq hqn hP), hqx⟩
      · obtain ⟨g1, g2, g3, g4⟩ := (hl q).1 hq
        have hqe : q.path = q.path.dropLast ++ [q.path.getLast g2] := (List.dropLast_concat_getLast g2).symm
        have hx : x = [n] ++ q.path.dropLast := by
          rw [e2, hqe, ← List.append_assoc] at e
          exact (List.append_inj_left' e rfl).symm
        by_cases hd : q.path.dropLast = []
        · exact ⟨top, htop, by rw [etop1, hx, hd]; rfl⟩
        · obtain ⟨q0, hq0, _, f2, _⟩ := hshape g1
          obtain ⟨q2, hq2, e3⟩ := h.up q0 hq0 q.path.dropLast (q.path.getLast g2) (f2 ▸ hqe)
          have hpre : q.path.dropLast <+: q.path := by
            refine ⟨[q.path.getLast g2], hqe.symm⟩
          have hs2 : Source s q2.path := by
            intro t ht hp
            exact g3 t ht ((e3 ▸ hp).trans hpre)
          have hn2 : ¬ [n] <+: q2.path := fun hp => g4 ((e3 ▸ hp).trans hpre)
          have hq2' : q2 ∈ s1.rows := hkeep hq2 (fun e => hn2 (e ▸ List.prefix_refl _)) (hsrcP hs2)
          obtain ⟨r2, hr2, e4, _⟩ := d8 q2 ((hl q2).2 ⟨hq2', e3 ▸ hd, hs2, hn2⟩)
          exact ⟨r2, hr2, by rw [e4, e3, hx]⟩
    · intro t ht
      rcases (htops t).1 ht with rfl | ht
      · exact ⟨by simp, top, htop, etop1, etop2⟩
      · obtain ⟨g1, r, hr, g2, g3⟩ := h.topRow t ht
        exact ⟨g1, r, (hnew t ht r hr [] (by rw [g2, List.append_nil]) (fun hp => absurd (List.prefix_nil.1 hp) (by simp))).1, g2, g3⟩
    · intro t1 ht1 t2 ht2 hp
      rcases (htops t1).1 ht1 with rfl | ht1 <;> rcases (htops t2).1 ht2 with rfl | ht2
      · rfl
      · obtain ⟨y, hy⟩ := hp
        exact absurd (by rw [List.append_nil, hy]) (htn t2 ht2 [] y)
      · exact absurd hp (hv t1 ht1)
      · exact h.anti t1 ht1 t2 ht2 hp
    · intro t ht r hr p i e1 e2
      rcases (htops t).1 ht with rfl | ht
      · rcases h7 r hr with h1 | ⟨q, hq, e3, e4⟩
        · have hpn := hbelow1 h1 (e1 ▸ List.prefix_append _ _)
          have hp : p = [] := by
            rw [e1] at hpn
            simpa using hpn
          obtain ⟨_, _, _, _, _, hd⟩ := hshape h1
          rw [hd hpn] at e2
          refine ⟨rt, hrt', ?_, ert2.trans hp.symm, ?_⟩
          · rw [ert1]
            exact Src.of.inj e2
          · rw [hp, hS]
            refine ⟨?_, fun hp => absurd (List.prefix_nil.1 hp) (by simp)⟩
            intro t ht hp
            exact (h.topRow t ht).1 (List.prefix_nil.1 hp)
        · have hp : p = q.path := List.append_cancel_left (e1.symm.trans e3)
          obtain ⟨g1, g2, g3, g4⟩ := (hl q).1 hq
          refine ⟨q, hk q g1, ?_, hp.symm, ?_⟩
          · rw [e4] at e2
            exact Src.of.inj e2
          · rw [hp, hS]
            exact ⟨g3, g4⟩
      · obtain ⟨hr0, hP⟩ := hold t ht r hr (e1 ▸ List.prefix_append _ _)
        obtain ⟨q, hq, f1, f2, f3⟩ := h.mir t ht r hr0 p i e1 e2
        have hn : ¬ [n] <+: p := by
          rintro ⟨y, hy⟩
          exact hP ⟨t, ht, y, by rw [e1, ← hy, List.append_assoc]⟩
        exact ⟨q, hsrc2 q hq (f2 ▸ f3) (f2 ▸ hn), f1, f2, (hS _).2 ⟨f3, hn⟩⟩
    · intro t ht q hq hs
      obtain ⟨hq1, hq0⟩ := hsrc1 q hq hs
      obtain ⟨hs0, hn⟩ := (hS _).1 hs
      rcases (htops t).1 ht with rfl | ht
      · by_cases hqe : q.path = []
        · refine .inr ⟨top, htop, by rw [etop1, hqe]; rfl, ?_⟩
          rw [etop2, h.pathI q hq0 rt hrt (hqe.trans ert2.symm), ert1]
        · exact .inr (d8 q ((hl q).2 ⟨hq1, hqe, hs0, hn⟩))
      · rcases h.all t ht q hq0 hs0 with h1 | ⟨r, hr, h1, h2⟩
        · exact .inl (hflags _ (hfl1 hq0 (hsrcP hs0) h1))
        · exact .inr ⟨r, (hnew t ht r hr q.path h1 hn).1, h1, h2⟩
    · intro t ht q hq hs r hr e
      obtain ⟨hq1, hq0⟩ := hsrc1 q hq hs
      obtain ⟨hs0, hn⟩ := (hS _).1 hs
      rcases (htops t).1 ht with rfl | ht
      · refine .inl ?_
        rcases h7 r hr with h1 | ⟨q', hq', e3, e4⟩
        · have hpn := hbelow1 h1 (e ▸ List.prefix_append _ _)
          obtain ⟨_, _, _, _, _, hd⟩ := hshape h1
          have hqe : q.path = [] := by
            rw [e] at hpn
            simpa using hpn
          rw [hd hpn, h.pathI q hq0 rt hrt (hqe.trans ert2.symm), ert1]
        · rw [e4, hpath1 q' ((hl q').1 hq').1 q hq1 (List.append_cancel_left (e3.symm.trans e))]
      · obtain ⟨hr0, hP⟩ := hold t ht r hr (e ▸ List.prefix_append _ _)
        exact (h.place t ht q hq0 hs0 r hr0 e).imp (fun x => x) (fun x => ⟨x.1, hflags _ (hfl1 hr0 hP x.2)⟩)
    · intro t ht r hr hp hg
      rcases (htops t).1 ht with rfl | ht
      · exact hflagsn r hr hp
      · obtain ⟨hr0, hP⟩ := hold t ht r hr hp
        exact hflags _ (hfl1 hr0 hP (h.gone t ht r hr0 hp hg))
    · intro t ht r hr i hp hg
      rcases (htops t).1 ht with rfl | ht
      · exact .inl (hflagsn r hr hp)
      · obtain ⟨hr0, hP⟩ := hold t ht r hr hp
        rcases h.dep t ht r hr0 i hp hg with h1 | h1
        · exact .inl (hflags _ (hfl1 hr0 hP h1))
        · obtain ⟨x, hx⟩ := hp
          obtain ⟨q, hq, f1, f2, f3⟩ := h.mir t ht r hr0 x i hx.symm hg
          refine .inr ?_
          rw [hlinks, ← f1]
          exact hlk1 hr0 hP hq (hsrcP (f2 ▸ f3)) (f1 ▸ h1)

end Tup.Mirror
