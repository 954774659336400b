import Verif.Mirror.Lemmas

/-! What holds of the table between all events, and that a scan keeps it. -/

namespace Tup.Mirror

structure Inv (s : St) : Prop where
  idI : IdI s.rows
  pathI : PathI s.rows
  up : Up s.rows
  root : ∃ r ∈ s.rows, r.id = dot ∧ r.path = []
  topRow : ∀ t ∈ s.tops, t ≠ [] ∧ ∃ r ∈ s.rows, r.path = t ∧ r.src = .of dot
  anti : ∀ t ∈ s.tops, ∀ t' ∈ s.tops, t <+: t' → t = t'
  /-- What stands for a directory has the path of that directory. -/
  mir : ∀ t ∈ s.tops, ∀ r ∈ s.rows, ∀ p i, r.path = t ++ p → r.src = .of i → ∃ q ∈ s.rows, q.id = i ∧ q.path = p ∧ Source s p
  /-- A directory of the sources is flagged, or something stands for it. -/
  all : ∀ t ∈ s.tops, ∀ q ∈ s.rows, Source s q.path → q.id ∈ s.flags ∨ ∃ r ∈ s.rows, r.path = t ++ q.path ∧ r.src = .of q.id
  /-- What is at the place of a directory of the sources stands for it, or is new. -/
  place : ∀ t ∈ s.tops, ∀ q ∈ s.rows, Source s q.path → ∀ r ∈ s.rows, r.path = t ++ q.path → r.src = .of q.id ∨ (r.src = .none ∧ r.id ∈ s.flags)
  gone : ∀ t ∈ s.tops, ∀ r ∈ s.rows, t <+: r.path → r.src = .gone → r.id ∈ s.flags
  /-- What stands for a directory is flagged, or depends on the rules there. -/
  dep : ∀ t ∈ s.tops, ∀ r ∈ s.rows, ∀ i, t <+: r.path → r.src = .of i → r.id ∈ s.flags ∨ (i, r.id) ∈ s.links

/-- Two build directories above the same path are one. -/
theorem Inv.oneTop {s : St} (h : Inv s) {t t' : Path} (ht : t ∈ s.tops) (ht' : t' ∈ s.tops) {x y : Path} (he : t ++ x = t' ++ y) : t = t' ∧ x = y := by
  have h1 : t <+: t ++ x := List.prefix_append _ _
  have h2 : t' <+: t ++ x := he ▸ List.prefix_append _ _
  have : t = t' := by
    rcases pre_pre h1 h2 with h3 | h3
    · exact h.anti t ht t' ht' h3
    · exact (h.anti t' ht' t ht h3).symm
  subst this
  exact ⟨rfl, List.append_cancel_left he⟩

/-- More flags do no harm. -/
theorem Inv.more {s : St} (h : Inv s) {f : List Nat} (hf : s.flags ⊆ f) : Inv { s with flags := f } :=
  { idI := h.idI, pathI := h.pathI, up := h.up, root := h.root, topRow := h.topRow, anti := h.anti, mir := h.mir
    all := fun t ht q hq hs => (h.all t ht q hq hs).imp (fun x => hf x) id
    place := fun t ht q hq hs r hr hp => (h.place t ht q hq hs r hr hp).imp id (fun x => ⟨x.1, hf x.2⟩)
    gone := fun t ht r hr hp hg => hf (h.gone t ht r hr hp hg)
    dep := fun t ht r hr i hp hg => (h.dep t ht r hr i hp hg).imp (fun x => hf x) id }

theorem inv_init : Inv init := by
  have hr : ∀ r ∈ init.rows, r = ⟨dot, [], .none⟩ := by
    intro r hr
    simpa [init] using hr
  refine { idI := ?_, pathI := ?_, up := ?_, root := ⟨⟨dot, [], .none⟩, List.mem_cons_self, rfl, rfl⟩, topRow := ?_, anti := ?_, mir := ?_, all := ?_, place := ?_, gone := ?_, dep := ?_ }
  · intro r h r' h' _
    rw [hr r h, hr r' h']
  · intro r h r' h' _
    rw [hr r h, hr r' h']
  · intro r h p n he
    rw [hr r h] at he
    simp at he
  all_goals
    intro t ht
    exact absurd ht (by simp [init])

theorem inv_touch {s s' : St} {i : Nat} (h : Inv s) (he : touch s i = some s') : Inv s' := by
  unfold touch at he
  split at he
  · rw [← Option.some.inj he]
    exact h.more (fun x hx => List.mem_cons_of_mem _ hx)
  · cases he

theorem inv_mkdir {s s' : St} {p : Path} {id : Nat} (h : Inv s) (hfree : Source s p → Free s p) (he : mkdir s p id true = some s') : Inv s' := by
  unfold mkdir at he
  split at he
  · cases he
  next a b =>
    split at he
    · cases he
    next hc =>
      simp only [Bool.or_eq_true, not_or, Bool.not_eq_true, Option.isSome_eq_false_iff, Option.isNone_iff_eq_none] at hc
      obtain ⟨⟨hp, hd⟩, hi⟩ := hc
      generalize hpd : a :: b = p at *
      have hp := rowAt_none hp
      have hi := row?_none hi
      obtain ⟨d, hd⟩ := Option.ne_none_iff_exists'.1 hd
      have hd := rowAt_some hd
      have he := (Option.some.inj he).symm
      rw [if_pos rfl] at he
      simp only [flag] at he
      have hmem : ∀ r, r ∈ s'.rows ↔ r ∈ s.rows ∨ r = ⟨id, p, .none⟩ := by
        intro r
        rw [he]
        simp
      have htops : s'.tops = s.tops := by rw [he]
      have hfl : ∀ i, i ∈ s.flags → i ∈ s'.flags := by
        intro i hi
        rw [he]
        exact List.mem_cons_of_mem _ hi
      have hid : id ∈ s'.flags := by
        rw [he]
        exact List.mem_cons_self
      have hlinks : s'.links = s.links := by rw [he]
      have hsrc : ∀ x, Source s' x ↔ Source s x := by
        intro x
        unfold Source
        rw [htops]
      clear he
      refine { idI := ?_, pathI := ?_, up := ?_, root := ?_, topRow := ?_, anti := ?_, mir := ?_, all := ?_, place := ?_, gone := ?_, dep := ?_ }
      · intro r hr r' hr' e
        rcases (hmem r).1 hr with hr | rfl <;> rcases (hmem r').1 hr' with hr' | rfl
        · exact h.idI r hr r' hr' e
        · exact absurd e (hi r hr)
        · exact absurd e.symm (hi r' hr')
        · rfl
      · intro r hr r' hr' e
        rcases (hmem r).1 hr with hr | rfl <;> rcases (hmem r').1 hr' with hr' | rfl
        · exact h.pathI r hr r' hr' e
        · exact absurd e (hp r hr)
        · exact absurd e.symm (hp r' hr')
        · rfl
      · intro r hr x n hx
        rcases (hmem r).1 hr with hr | rfl
        · obtain ⟨q, hq, e⟩ := h.up r hr x n hx
          exact ⟨q, (hmem q).2 (.inl hq), e⟩
        · refine ⟨d, (hmem d).2 (.inl hd.1), ?_⟩
          rw [hd.2]
          have hx : p = x ++ [n] := hx
          rw [hx]
          simp
      · obtain ⟨r, hr, e⟩ := h.root
        exact ⟨r, (hmem r).2 (.inl hr), e⟩
      · rw [htops]
        intro t ht
        obtain ⟨h1, r, hr, e⟩ := h.topRow t ht
        exact ⟨h1, r, (hmem r).2 (.inl hr), e⟩
      · rw [htops]
        exact h.anti
      · rw [htops]
        intro t ht r hr p' i hp' hi'
        rcases (hmem r).1 hr with hr | rfl
        · obtain ⟨q, hq, e1, e2, e3⟩ := h.mir t ht r hr p' i hp' hi'
          exact ⟨q, (hmem q).2 (.inl hq), e1, e2, (hsrc _).2 e3⟩
        · cases hi'
      · rw [htops]
        intro t ht q hq hs
        rcases (hmem q).1 hq with hq | rfl
        · rcases h.all t ht q hq ((hsrc _).1 hs) with h1 | ⟨r, hr, h1⟩
          · exact .inl (hfl _ h1)
          · exact .inr ⟨r, (hmem r).2 (.inl hr), h1⟩
        · exact .inl hid
      · rw [htops]
        intro t ht q hq hs r hr hpr
        rcases (hmem r).1 hr with hr | rfl
        · rcases (hmem q).1 hq with hq | rfl
          · exact (h.place t ht q hq ((hsrc _).1 hs) r hr hpr).imp (fun x => x) (fun x => ⟨x.1, hfl _ x.2⟩)
          · exact absurd hpr (hfree ((hsrc _).1 hs) t ht r hr)
        · exact .inr ⟨rfl, hid⟩
      · rw [htops]
        intro t ht r hr hpr hg
        rcases (hmem r).1 hr with hr | rfl
        · exact hfl _ (h.gone t ht r hr hpr hg)
        · cases hg
      · rw [htops, hlinks]
        intro t ht r hr i hpr hg
        rcases (hmem r).1 hr with hr | rfl
        · exact (h.dep t ht r hr i hpr hg).imp (hfl _) (fun x => x)
        · cases hg

/-- Removal of directories, when none of the sources goes, and what stands for a source that goes has the source flagged. -/
theorem inv_remove {s : St} {P : Path → Bool} (h : Inv s) (hdown : ∀ p x, P p = true → P (p ++ x) = true) (htop : ∀ t ∈ s.tops, P t = false)
    (hsrc : ∀ q ∈ s.rows, Source s q.path → P q.path = false)
    (hgo : ∀ t ∈ s.tops, ∀ q ∈ s.rows, Source s q.path → P (t ++ q.path) = true → (∃ r ∈ s.rows, r.path = t ++ q.path) → q.id ∈ s.flags) : Inv (remove s P) := by
  have hlive : ∀ {r : Row}, r ∈ s.rows → P r.path = false → r.id ∉ idsOf s P := by
    intro r hr hP hc
    obtain ⟨r', hr', hP', e⟩ := mem_idsOf.1 hc
    rw [h.idI r' hr' r hr e, hP] at hP'
    cases hP'
  have hS : ∀ x, Source (remove s P) x ↔ Source s x := fun x => Iff.rfl
  refine { idI := ?_, pathI := ?_, up := ?_, root := ?_, topRow := ?_, anti := h.anti, mir := ?_, all := ?_, place := ?_, gone := ?_, dep := ?_ }
  · intro r hr r' hr' e
    exact h.idI r (mem_remove.1 hr).1 r' (mem_remove.1 hr').1 e
  · intro r hr r' hr' e
    exact h.pathI r (mem_remove.1 hr).1 r' (mem_remove.1 hr').1 e
  · intro r hr p n e
    obtain ⟨hr, hP⟩ := mem_remove.1 hr
    obtain ⟨q, hq, hqp⟩ := h.up r hr p n e
    refine ⟨q, mem_remove.2 ⟨hq, ?_⟩, hqp⟩
    cases hc : P q.path with
    | false => rfl
    | true =>
      have := hdown q.path [n] hc
      rw [hqp, ← e, hP] at this
      cases this
  · obtain ⟨r, hr, e1, e2⟩ := h.root
    refine ⟨r, mem_remove.2 ⟨hr, ?_⟩, e1, e2⟩
    apply hsrc r hr
    intro t ht hp
    rw [e2] at hp
    exact (h.topRow t ht).1 (List.prefix_nil.1 hp)
  · intro t ht
    obtain ⟨h1, r, hr, e1, e2⟩ := h.topRow t ht
    exact ⟨h1, r, mem_remove.2 ⟨hr, e1 ▸ htop t ht⟩, e1, e2⟩
  · intro t ht r hr p i e1 e2
    obtain ⟨q, hq, f1, f2, f3⟩ := h.mir t ht r (mem_remove.1 hr).1 p i e1 e2
    exact ⟨q, mem_remove.2 ⟨hq, hsrc q hq (f2 ▸ f3)⟩, f1, f2, f3⟩
  · intro t ht q hq hs
    obtain ⟨hq, hP⟩ := mem_remove.1 hq
    rcases h.all t ht q hq hs with h1 | ⟨r, hr, h1, h2⟩
    · exact .inl (mem_remove_flags.2 ⟨h1, hlive hq hP⟩)
    · cases hc : P r.path with
      | false => exact .inr ⟨r, mem_remove.2 ⟨hr, hc⟩, h1, h2⟩
      | true => exact .inl (mem_remove_flags.2 ⟨hgo t ht q hq hs (h1 ▸ hc) ⟨r, hr, h1⟩, hlive hq hP⟩)
  · intro t ht q hq hs r hr e
    obtain ⟨hr, hP⟩ := mem_remove.1 hr
    exact (h.place t ht q (mem_remove.1 hq).1 hs r hr e).imp (fun x => x) (fun x => ⟨x.1, mem_remove_flags.2 ⟨x.2, hlive hr hP⟩⟩)
  · intro t ht r hr hp hg
    obtain ⟨hr, hP⟩ := mem_remove.1 hr
    exact mem_remove_flags.2 ⟨h.gone t ht r hr hp hg, hlive hr hP⟩
  · intro t ht r hr i hp hg
    obtain ⟨hr, hP⟩ := mem_remove.1 hr
    obtain ⟨x, hx⟩ := hp
    obtain ⟨q, hq, f1, f2, f3⟩ := h.mir t ht r hr x i hx.symm hg
    refine (h.dep t ht r hr i ⟨x, hx⟩ hg).imp (fun x => mem_remove_flags.2 ⟨x, hlive hr hP⟩) (fun x => mem_remove_links.2 ⟨x, ?_, hlive hr hP⟩)
    rw [← f1]
    exact hlive hq (hsrc q hq (f2 ▸ f3))

theorem isPrefixOf_false {p q : Path} : p.isPrefixOf q = false ↔ ¬ p <+: q := by
  rw [← List.isPrefixOf_iff_prefix, Bool.not_eq_true]

theorem inv_rmdir {s s' : St} {p : Path} (h : Inv s) (he : rmdir s p = some s') : Inv s' := by
  unfold rmdir at he
  split at he
  · cases he
  next hc =>
    simp only [not_or] at hc
    obtain ⟨hne, _, htops⟩ := hc
    have htops : ∀ t ∈ s.tops, ¬ p <+: t := by
      intro t ht hp
      exact htops (List.any_eq_true.2 ⟨t, ht, List.isPrefixOf_iff_prefix.2 hp⟩)
    have hdown : ∀ (q x : Path), p.isPrefixOf q = true → p.isPrefixOf (q ++ x) = true := by
      intro q x hq
      rw [List.isPrefixOf_iff_prefix] at hq ⊢
      exact hq.trans (List.prefix_append _ _)
    simp only at he
    split at he
    · next t0 hv =>
      obtain ⟨ht0, hp0⟩ := variantOf_some hv
      rw [← Option.some.inj he]
      refine inv_remove (h.more (fun x hx => List.mem_append_right _ hx)) hdown (fun t ht => isPrefixOf_false.2 (htops t ht)) ?_ ?_
      · intro q hq hs
        exact isPrefixOf_false.2 (fun hp => hs t0 ht0 (hp0.trans hp))
      · intro t ht q hq hs hP ⟨r, hr, e⟩
        have hq : q ∈ s.rows := hq
        have hr : r ∈ s.rows := hr
        rcases h.place t ht q hq hs r hr e with hm | ⟨hm, hf⟩
        · refine List.mem_append_left _ (List.mem_filterMap.2 ⟨r, List.mem_filter.2 ⟨hr, e ▸ hP⟩, ?_⟩)
          have : (row? s q.id).isSome = true := by
            cases hc : row? s q.id with
            | none => exact absurd rfl (row?_none hc q hq)
            | some _ => rfl
          rw [hm]
          simp only [this, if_true]
        · refine List.mem_append_right _ ?_
          rcases h.all t ht q hq hs with h1 | ⟨r', hr', f1, f2⟩
          · exact h1
          · rw [h.pathI r' hr' r hr (f1.trans e.symm), hm] at f2
            cases f2
    · next hv =>
      have hv := variantOf_none.1 hv
      -- the rows whose source goes
      have hspec : ∀ r : Row, (s.tops.any fun t => (s.rows.filter (fun r => p.isPrefixOf r.path)).any fun d => r.path == t ++ d.path) = true ↔
          ∃ t ∈ s.tops, ∃ d ∈ s.rows, p <+: d.path ∧ r.path = t ++ d.path := by
        intro r
        simp only [List.any_eq_true, List.mem_filter, List.isPrefixOf_iff_prefix, beq_iff_eq]
        constructor
        · rintro ⟨t, ht, d, ⟨hd, hpd⟩, e⟩
          exact ⟨t, ht, d, hd, hpd, e⟩
        · rintro ⟨t, ht, d, hd, hpd, e⟩
          exact ⟨t, ht, d, ⟨hd, hpd⟩, e⟩
      -- directories below `p` are sources
      have hbelow : ∀ x, p <+: x → Source s x := by
        intro x hx t ht hp
        rcases pre_pre hx hp with h1 | h1
        · exact htops t ht h1
        · exact hv t ht h1
      let G : Row → Prop := fun r => ∃ t ∈ s.tops, ∃ d ∈ s.rows, p <+: d.path ∧ r.path = t ++ d.path
      have hmem : ∀ r', r' ∈ s'.rows ↔ ∃ r ∈ s.rows, ¬ p <+: r.path ∧ ((G r ∧ r' = { r with src := .gone }) ∨ (¬ G r ∧ r' = r)) := by
        intro r'
        rw [← Option.some.inj he, mem_remove]
        simp only [List.mem_map]
        constructor
        · rintro ⟨⟨r, hr, e⟩, hP⟩
          by_cases hG : G r
          · rw [if_pos ((hspec r).2 hG)] at e
            subst e
            exact ⟨r, hr, isPrefixOf_false.1 hP, .inl ⟨hG, rfl⟩⟩
          · rw [if_neg (fun hc => hG ((hspec r).1 hc))] at e
            subst e
            exact ⟨r, hr, isPrefixOf_false.1 hP, .inr ⟨hG, rfl⟩⟩
        · rintro ⟨r, hr, hP, (⟨hG, e⟩ | ⟨hG, e⟩)⟩
          · exact ⟨⟨r, hr, by rw [if_pos ((hspec r).2 hG), e]⟩, by rw [e]; exact isPrefixOf_false.2 hP⟩
          · exact ⟨⟨r, hr, by rw [if_neg (fun hc => hG ((hspec r).1 hc)), e]⟩, by rw [e]; exact isPrefixOf_false.2 hP⟩
      have htp : s'.tops = s.tops := by rw [← Option.some.inj he]; rfl
      have hS : ∀ x, Source s' x ↔ Source s x := by
        intro x
        unfold Source
        rw [htp]
      -- ids that go
      have hdead : ∀ {r : Row}, r ∈ s.rows → ¬ p <+: r.path → r.id ∉ idsOf { s with
            rows := s.rows.map (fun r => if (s.tops.any fun t => (s.rows.filter (fun r => p.isPrefixOf r.path)).any fun d => r.path == t ++ d.path) = true then { r with src := .gone } else r)
            flags := (match rowAt s p.dropLast with
              | some q => [q.id]
              | none => []) ++ (s.links.filter (fun l => (s.rows.filter (fun r => p.isPrefixOf r.path)).any fun r => r.id == l.1)).map (·.2) ++ s.flags } (p.isPrefixOf ·) := by
        intro r hr hP hc
        obtain ⟨r', hr', hP', e⟩ := mem_idsOf.1 hc
        obtain ⟨r2, hr2, e2⟩ := List.mem_map.1 hr'
        have : r2.id = r'.id ∧ r2.path = r'.path := by
          rw [← e2]
          split <;> exact ⟨rfl, rfl⟩
        rw [← this.1] at e
        rw [← this.2, h.idI r2 hr2 r hr e, List.isPrefixOf_iff_prefix] at hP'
        exact hP hP'
      have hfl : ∀ {r : Row}, r ∈ s.rows → ¬ p <+: r.path → r.id ∈ s.flags → r.id ∈ s'.flags := by
        intro r hr hP hf
        rw [← Option.some.inj he, mem_remove_flags]
        exact ⟨List.mem_append_right _ hf, hdead hr hP⟩
      have hfl2 : ∀ {r d : Row}, r ∈ s.rows → ¬ p <+: r.path → d ∈ s.rows → p <+: d.path → (d.id, r.id) ∈ s.links → r.id ∈ s'.flags := by
        intro r d hr hP hd hPd hl
        rw [← Option.some.inj he, mem_remove_flags]
        refine ⟨List.mem_append_left _ (List.mem_append_right _ (List.mem_map.2 ⟨(d.id, r.id), List.mem_filter.2 ⟨hl, ?_⟩, rfl⟩)), hdead hr hP⟩
        exact List.any_eq_true.2 ⟨d, List.mem_filter.2 ⟨hd, List.isPrefixOf_iff_prefix.2 hPd⟩, by simp⟩
      have hlk : ∀ {r q : Row}, r ∈ s.rows → ¬ p <+: r.path → q ∈ s.rows → ¬ p <+: q.path → (q.id, r.id) ∈ s.links → (q.id, r.id) ∈ s'.links := by
        intro r q hr hP hq hPq hl
        rw [← Option.some.inj he, mem_remove_links]
        exact ⟨hl, hdead hq hPq, hdead hr hP⟩
      clear he
      -- sources keep their fields
      have hsame : ∀ {q : Row}, Source s q.path → ¬ G q := by
        rintro q hs ⟨t, ht, d, _, _, e⟩
        exact hs t ht (e ▸ List.prefix_append _ _)
      have hin : ∀ {t x : Path}, t ∈ s.tops → ¬ p <+: t ++ x := by
        intro t x ht hp
        rcases pre_pre hp (List.prefix_append t x) with h1 | h1
        · exact htops t ht h1
        · exact hv t ht h1
      have hshape : ∀ {r'}, r' ∈ s'.rows → ∃ r ∈ s.rows, ¬ p <+: r.path ∧ r'.id = r.id ∧ r'.path = r.path ∧ (r'.src = .gone ∧ G r ∨ r' = r ∧ ¬ G r) := by
        intro r' hr'
        obtain ⟨r, hr, hP, (⟨hG, e⟩ | ⟨hG, e⟩)⟩ := (hmem r').1 hr'
        · exact ⟨r, hr, hP, by rw [e], by rw [e], .inl ⟨by rw [e], hG⟩⟩
        · exact ⟨r, hr, hP, by rw [e], by rw [e], .inr ⟨e, hG⟩⟩
      have hkeep : ∀ {r : Row}, r ∈ s.rows → ¬ p <+: r.path → ¬ G r → r ∈ s'.rows := fun hr hP hG => (hmem _).2 ⟨_, hr, hP, .inr ⟨hG, rfl⟩⟩
      have hpres : ∀ {r : Row}, r ∈ s.rows → ¬ p <+: r.path → ∃ r' ∈ s'.rows, r'.id = r.id ∧ r'.path = r.path := by
        intro r hr hP
        by_cases hG : G r
        · exact ⟨{ r with src := .gone }, (hmem _).2 ⟨r, hr, hP, .inl ⟨hG, rfl⟩⟩, rfl, rfl⟩
        · exact ⟨r, hkeep hr hP hG, rfl, rfl⟩
      have hroot : ¬ p <+: ([] : Path) := fun hp => hne (List.prefix_nil.1 hp)
      refine { idI := ?_, pathI := ?_, up := ?_, root := ?_, topRow := ?_, anti := ?_, mir := ?_, all := ?_, place := ?_, gone := ?_, dep := ?_ }
      · intro r hr r' hr' e
        obtain ⟨a, ha, _, hca⟩ := (hmem r).1 hr
        obtain ⟨b, hb, _, hcb⟩ := (hmem r').1 hr'
        have hab : a = b := by
          refine h.idI a ha b hb ?_
          rcases hca with ⟨_, ea⟩ | ⟨_, ea⟩ <;> rcases hcb with ⟨_, eb⟩ | ⟨_, eb⟩ <;> rw [ea, eb] at e <;> exact e
        subst hab
        rcases hca with ⟨hGa, ea⟩ | ⟨hGa, ea⟩ <;> rcases hcb with ⟨hGb, eb⟩ | ⟨hGb, eb⟩
        · rw [ea, eb]
        · exact absurd hGa hGb
        · exact absurd hGb hGa
        · rw [ea, eb]
      · intro r hr r' hr' e
        obtain ⟨a, ha, _, hca⟩ := (hmem r).1 hr
        obtain ⟨b, hb, _, hcb⟩ := (hmem r').1 hr'
        have hab : a = b := by
          refine h.pathI a ha b hb ?_
          rcases hca with ⟨_, ea⟩ | ⟨_, ea⟩ <;> rcases hcb with ⟨_, eb⟩ | ⟨_, eb⟩ <;> rw [ea, eb] at e <;> exact e
        subst hab
        rcases hca with ⟨hGa, ea⟩ | ⟨hGa, ea⟩ <;> rcases hcb with ⟨hGb, eb⟩ | ⟨hGb, eb⟩
        · rw [ea, eb]
        · exact absurd hGa hGb
        · exact absurd hGb hGa
        · rw [ea, eb]
      · intro r' hr' x n e
        obtain ⟨r, hr, hP, _, e2, _⟩ := hshape hr'
        obtain ⟨q, hq, hqx⟩ := h.up r hr x n (e2 ▸ e)
        obtain ⟨q', hq', _, e4⟩ := hpres hq (fun hp => hP (by
          rw [← e2, e, ← hqx]
          exact hp.trans (List.prefix_append _ _)))
        exact ⟨q', hq', e4.trans hqx⟩
      · obtain ⟨r, hr, e1, e2⟩ := h.root
        obtain ⟨r', hr', e3, e4⟩ := hpres hr (e2 ▸ hroot)
        exact ⟨r', hr', e3.trans e1, e4.trans e2⟩
      · rw [htp]
        intro t ht
        obtain ⟨h1, r, hr, e1, e2⟩ := h.topRow t ht
        refine ⟨h1, r, hkeep hr (e1 ▸ htops t ht) ?_, e1, e2⟩
        rintro ⟨t', ht', d, hd, hPd, e⟩
        have := (h.oneTop ht ht' (x := []) (y := d.path) (by rw [List.append_nil, ← e1, e])).2
        rw [← this] at hPd
        exact hroot hPd
      · rw [htp]
        exact h.anti
      · rw [htp]
        intro t ht r' hr' x i e1 e2
        obtain ⟨r, hr, hP, _, _, (⟨hg, _⟩ | ⟨rfl, hG⟩)⟩ := hshape hr'
        · rw [hg] at e2
          cases e2
        · obtain ⟨q, hq, f1, f2, f3⟩ := h.mir t ht r' hr x i e1 e2
          refine ⟨q, hkeep hq ?_ (hsame (f2 ▸ f3)), f1, f2, (hS _).2 f3⟩
          intro hp
          exact hG ⟨t, ht, q, hq, hp, by rw [e1, f2]⟩
      · rw [htp]
        intro t ht q' hq' hs
        obtain ⟨q, hq, hP, e1, e2, (⟨_, hG⟩ | ⟨rfl, hG⟩)⟩ := hshape hq'
        · exact absurd hG (hsame (e2 ▸ (hS _).1 hs))
        · rcases h.all t ht q' hq ((hS _).1 hs) with h1 | ⟨r, hr, h1, h2⟩
          · exact .inl (hfl hq hP h1)
          · refine .inr ⟨r, hkeep hr (h1 ▸ hin ht) ?_, h1, h2⟩
            rintro ⟨t', ht', d, hd, hPd, e⟩
            have := (h.oneTop ht ht' (h1 ▸ e)).2
            exact hP (this ▸ hPd)
      · rw [htp]
        intro t ht q' hq' hs r' hr' e
        obtain ⟨q, hq, hP, e1, e2, (⟨_, hG⟩ | ⟨rfl, hG⟩)⟩ := hshape hq'
        · exact absurd hG (hsame (e2 ▸ (hS _).1 hs))
        · obtain ⟨r, hr, hPr, f1, f2, (⟨_, hG2⟩ | ⟨rfl, hG2⟩)⟩ := hshape hr'
          · obtain ⟨t', ht', d, hd, hPd, e3⟩ := hG2
            have := (h.oneTop ht ht' (by rw [← e, f2, e3])).2
            exact absurd (this ▸ hPd) hP
          · exact (h.place t ht q' hq ((hS _).1 hs) r' hr e).imp (fun x => x) (fun x => ⟨x.1, hfl hr hPr x.2⟩)
      · rw [htp]
        intro t ht r' hr' hp hg
        obtain ⟨r, hr, hPr, f1, f2, (⟨_, hG⟩ | ⟨rfl, hG⟩)⟩ := hshape hr'
        · obtain ⟨t', ht', d, hd, hPd, e⟩ := hG
          rw [f1]
          rcases h.place t' ht' d hd (hbelow _ hPd) r hr e with h1 | ⟨_, h1⟩
          · rcases h.dep t' ht' r hr d.id (e ▸ List.prefix_append _ _) h1 with h2 | h2
            · exact hfl hr hPr h2
            · exact hfl2 hr hPr hd hPd h2
          · exact hfl hr hPr h1
        · exact hfl hr hPr (h.gone t ht r' hr hp hg)
      · rw [htp]
        intro t ht r' hr' i hp hg
        obtain ⟨r, hr, hPr, f1, f2, (⟨hc, _⟩ | ⟨rfl, hG⟩)⟩ := hshape hr'
        · rw [hc] at hg
          cases hg
        · obtain ⟨x, hx⟩ := hp
          obtain ⟨q, hq, g1, g2, g3⟩ := h.mir t ht r' hr x i hx.symm hg
          rcases h.dep t ht r' hr i ⟨x, hx⟩ hg with h1 | h1
          · exact .inl (hfl hr hPr h1)
          · refine .inr (g1 ▸ hlk hr hPr hq ?_ (g1 ▸ h1))
            intro hpq
            exact hG ⟨t, ht, q, hq, hpq, by rw [← hx, g2]⟩

end Tup.Mirror
