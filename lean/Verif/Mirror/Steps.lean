import Verif.Mirror.Variant

/-! The update. -/

namespace Tup.Mirror

/-- The loop only adds what stands for a source, and gives a source to what was at the place of one. -/
structure V (s0 s : St) : Prop where
  tops : s.tops = s0.tops
  links : s.links = s0.links
  idI : IdI s.rows
  pathI : PathI s.rows
  up : Up s.rows
  fl : s0.flags ⊆ s.flags
  nf : ∀ i ∈ s.flags, i ∈ s0.flags ∨ ∀ r ∈ s0.rows, r.id ≠ i
  old : ∀ r ∈ s0.rows, r ∈ s.rows ∨ (r.src = .none ∧ (∃ t ∈ s0.tops, ∃ q ∈ s0.rows, Source s0 q.path ∧ r.path = t ++ q.path) ∧ ∃ r' ∈ s.rows, r'.id = r.id ∧ r'.path = r.path)
  new : ∀ r ∈ s.rows, r ∈ s0.rows ∨ ∃ t ∈ s0.tops, ∃ q ∈ s0.rows, Source s0 q.path ∧ r.path = t ++ q.path ∧ r.src = .of q.id ∧ q.id ∈ s0.flags ∧
    ((∃ r0 ∈ s0.rows, r0.id = r.id ∧ r0.path = r.path) ∨ (r.id ∈ s.flags ∧ ∀ r0 ∈ s0.rows, r0.id ≠ r.id))

theorem V.refl {s : St} (h : Inv s) : V s s :=
  ⟨rfl, rfl, h.idI, h.pathI, h.up, fun _ h => h, fun _ h => .inl h, fun _ h => .inl h, fun _ h => .inl h⟩

/-- A row that stands for the directory at its place. -/
def Std (s0 : St) (r : Row) : Prop := ∃ t ∈ s0.tops, ∃ q ∈ s0.rows, Source s0 q.path ∧ r.path = t ++ q.path ∧ r.src = .of q.id

theorem V.oldPath {s0 s : St} (v : V s0 s) {r : Row} (hr : r ∈ s0.rows) : ∃ r' ∈ s.rows, r'.id = r.id ∧ r'.path = r.path := by
  rcases v.old r hr with h | ⟨_, _, h⟩
  · exact ⟨r, h, rfl, rfl⟩
  · exact h

/-- The rows of the sources are the same. -/
theorem V.source {s0 s : St} (v : V s0 s) {q : Row} (hs : Source s0 q.path) : q ∈ s.rows ↔ q ∈ s0.rows := by
  constructor
  · intro hq
    rcases v.new q hq with h | ⟨t, ht, q', _, _, e, _⟩
    · exact h
    · exact absurd (e ▸ List.prefix_append _ _) (hs t ht)
  · intro hq
    rcases v.old q hq with h | ⟨_, ⟨t, ht, q', _, _, e⟩, _⟩
    · exact h
    · exact absurd (e ▸ List.prefix_append _ _) (hs t ht)

theorem V.ensure {s0 s : St} (h0 : Inv s0) (v : V s0 s) {t : Path} (ht : t ∈ s0.tops) {q : Row} (hq : q ∈ s0.rows) (hs : Source s0 q.path)
    (hup : ∀ x n, t ++ q.path = x ++ [n] → ∃ r ∈ s.rows, r.path = x) :
    V s0 (ensure s (t ++ q.path) q.id) ∧ ∀ r ∈ s.rows, Std s0 r → r ∈ (Tup.Mirror.ensure s (t ++ q.path) q.id).rows := by
  have huniq : ∀ {t' : Path} {q' : Row}, t' ∈ s0.tops → q' ∈ s0.rows → t' ++ q'.path = t ++ q.path → q' = q :=
    fun ht' hq' e => h0.pathI _ hq' _ hq (h0.oneTop ht' ht e).2
  have hnf : (∀ r ∈ s0.rows, ¬ (r.path = t ++ q.path ∧ r.src = .of q.id)) → q.id ∈ s0.flags := by
    intro hn
    rcases h0.all t ht q hq hs with h1 | ⟨r, hr, e⟩
    · exact h1
    · exact absurd e (hn r hr)
  have hstd : ∀ r ∈ s.rows, Std s0 r → r ∈ (Tup.Mirror.ensure s (t ++ q.path) q.id).rows := by
    rintro r hr ⟨t', ht', q', hq', hs', e1, e2⟩
    by_cases hp : r.path = t ++ q.path
    · refine mem_ensure.2 (.inr (.inl ⟨r, hr, hp, ?_⟩))
      rw [huniq ht' hq' (e1.symm.trans hp)] at e2
      rw [← e2]
    · exact mem_ensure.2 (.inl ⟨hr, hp⟩)
  refine ⟨{ tops := (ensure_tops _ _ _).trans v.tops, links := (ensure_links _ _ _).trans v.links, idI := ensure_idI v.idI, pathI := ensure_pathI v.pathI, up := ensure_up v.up hup
            fl := fun x hx => ensure_flags (v.fl hx), nf := ?_, old := ?_, new := ?_ }, hstd⟩
  · intro i hi
    rcases ensure_flags_new hi with h1 | h1
    · exact v.nf i h1
    · refine .inr ?_
      intro r hr e
      obtain ⟨r', hr', e', _⟩ := v.oldPath hr
      exact absurd (lt_fresh hr') (by omega)
  · intro r hr
    by_cases hp : r.path = t ++ q.path
    · rcases h0.place t ht q hq hs r hr hp with h1 | ⟨h1, _⟩
      · rcases v.old r hr with h2 | ⟨h2, _⟩
        · exact .inl (hstd r h2 ⟨t, ht, q, hq, hs, hp, h1⟩)
        · rw [h2] at h1
          cases h1
      · obtain ⟨r', hr', e1, e2⟩ := v.oldPath hr
        obtain ⟨r2, hr2, e3, e4⟩ := ensure_path (p := t ++ q.path) (i := q.id) hr'
        exact .inr ⟨h1, ⟨t, ht, q, hq, hs, hp⟩, r2, hr2, e3.trans e1, e4.trans e2⟩
    · rcases v.old r hr with h2 | ⟨h2, h3, r', hr', e1, e2⟩
      · exact .inl (mem_ensure.2 (.inl ⟨h2, hp⟩))
      · obtain ⟨r2, hr2, e3, e4⟩ := ensure_path (p := t ++ q.path) (i := q.id) hr'
        exact .inr ⟨h2, h3, r2, hr2, e3.trans e1, e4.trans e2⟩
  · intro r hr
    rcases mem_ensure.1 hr with ⟨h1, hp⟩ | ⟨r1, h1, hp, rfl⟩ | ⟨hn, rfl⟩
    · rcases v.new r h1 with h2 | ⟨t', ht', q', hq', hs', e1, e2, e3, e4⟩
      · exact .inl h2
      · exact .inr ⟨t', ht', q', hq', hs', e1, e2, e3, e4.imp (fun x => x) (fun x => ⟨ensure_flags x.1, x.2⟩)⟩
    · rcases v.new r1 h1 with h2 | ⟨t', ht', q', hq', hs', e1, e2, e3, e4⟩
      · rcases h0.place t ht q hq hs r1 h2 hp with h3 | ⟨h3, _⟩
        · refine .inl ?_
          rw [← h3]
          exact h2
        · refine .inr ⟨t, ht, q, hq, hs, hp, rfl, hnf ?_, .inl ⟨r1, h2, rfl, rfl⟩⟩
          rintro r' hr' ⟨e1, e2⟩
          rw [h0.pathI r' hr' r1 h2 (e1.trans hp.symm), h3] at e2
          cases e2
      · have := huniq ht' hq' (e1.symm.trans hp)
        subst this
        exact .inr ⟨t', ht', q', hq', hs', e1, rfl, e3, e4.imp (fun x => x) (fun x => ⟨ensure_flags x.1, x.2⟩)⟩
    · refine .inr ⟨t, ht, q, hq, hs, rfl, rfl, hnf ?_, .inr ⟨ensure_new_flag hn, ?_⟩⟩
      · rintro r hr ⟨e, _⟩
        obtain ⟨r', hr', _, e2⟩ := v.oldPath hr
        exact hn r' hr' (e2.trans e)
      · intro r0 hr0 e
        have e : r0.id = fresh s := e
        obtain ⟨r', hr', e1, _⟩ := v.oldPath hr0
        exact absurd (lt_fresh hr') (by omega)

theorem V.getRel {s0 : St} (h0 : Inv s0) {t : Path} (ht : t ∈ s0.tops) {q : Row} (hq : q ∈ s0.rows) (hs : Source s0 q.path) :
    ∀ (rest done : Path) (s : St), V s0 s → done ++ rest = q.path → (∃ d ∈ s0.rows, d.path = done ∧ ∃ r ∈ s.rows, r.path = t ++ done ∧ r.src = .of d.id) →
      V s0 (getRel s t done rest) ∧ (∀ r ∈ s.rows, Std s0 r → r ∈ (Tup.Mirror.getRel s t done rest).rows) ∧
        ∃ r ∈ (Tup.Mirror.getRel s t done rest).rows, r.path = t ++ q.path ∧ r.src = .of q.id := by
  intro rest
  induction rest with
  | nil =>
    intro done s v e hd
    rw [List.append_nil] at e
    obtain ⟨d, hd, e1, r, hr, e2, e3⟩ := hd
    have : d = q := h0.pathI d hd q hq (e1.trans e)
    subst this
    exact ⟨v, fun _ h _ => h, r, hr, e ▸ e2, e3⟩
  | cons n rest ih =>
    intro done s v e hd
    obtain ⟨d, hd, e1, r, hr, e2, e3⟩ := hd
    have hpre : done ++ [n] <+: q.path := ⟨rest, by rw [← e]; simp⟩
    obtain ⟨q', hq', eq'⟩ := h0.up.pre hq hpre
    have hs' : Source s0 q'.path := fun t' ht' hp => hs t' ht' ((eq' ▸ hp).trans hpre)
    have hat : rowAt s (done ++ [n]) = some q' := by
      have hin : q' ∈ s.rows := (v.source hs').2 hq'
      cases hc : rowAt s (done ++ [n]) with
      | none => exact absurd eq' (rowAt_none hc q' hin)
      | some q2 =>
        obtain ⟨h1, h2⟩ := rowAt_some hc
        rw [v.pathI q2 h1 q' hin (h2.trans eq'.symm)]
    unfold Tup.Mirror.getRel
    simp only [hat]
    have hup : ∀ x m, t ++ q'.path = x ++ [m] → ∃ r ∈ s.rows, r.path = x := by
      intro x m he
      refine ⟨r, hr, ?_⟩
      rw [e2]
      rw [eq', ← List.append_assoc] at he
      exact List.append_inj_left' he rfl
    obtain ⟨v2, hk⟩ := v.ensure h0 ht hq' hs' hup
    obtain ⟨r2, hr2, f1, f2⟩ := ensure_has (s := s) (p := t ++ q'.path) (i := q'.id)
    rw [eq'] at v2 hk hr2 f1
    obtain ⟨g1, g2, g3⟩ := ih (done ++ [n]) _ v2 (by rw [← e]; simp) ⟨q', hq', eq', r2, hr2, f1, f2⟩
    exact ⟨g1, fun r hr hst => g2 r (hk r hr hst) hst, g3⟩

theorem V.top {s0 s : St} (h0 : Inv s0) (v : V s0 s) {t : Path} (ht : t ∈ s0.tops) : ∃ d ∈ s0.rows, d.path = [] ∧ ∃ r ∈ s.rows, r.path = t ++ [] ∧ r.src = .of d.id := by
  obtain ⟨d, hd, e1, e2⟩ := h0.root
  obtain ⟨_, r, hr, e3, e4⟩ := h0.topRow t ht
  refine ⟨d, hd, e2, r, ?_, by rw [e3, List.append_nil], by rw [e1, e4]⟩
  rcases v.old r hr with h | ⟨h, _⟩
  · exact h
  · rw [e4] at h
    cases h

/-- What the loop has done after the nodes in `seen`. -/
structure L (s0 : St) (seen : List Nat) (l : Loop) : Prop where
  v : V s0 l.s
  marked : ∀ i ∈ l.marked, ∃ r ∈ s0.rows, r.id = i ∧ r.src = .gone ∧ ¬ Source s0 r.path
  goes : ∀ r ∈ s0.rows, r.id ∈ seen → r.src = .gone → ¬ Source s0 r.path → r.id ∈ l.marked
  made : ∀ q ∈ s0.rows, q.id ∈ seen → Source s0 q.path → ∀ t ∈ s0.tops, ∃ r ∈ l.s.rows, r.path = t ++ q.path ∧ r.src = .of q.id ∧ r.id ∈ l.graph

theorem tops_fold {s0 : St} (h0 : Inv s0) {q : Row} (hq : q ∈ s0.rows) (hs : Source s0 q.path) : ∀ (ts : List Path) (l : Loop), (∀ t ∈ ts, t ∈ s0.tops) → V s0 l.s →
    let l' := ts.foldl (fun (l : Loop) t => ⟨getRel l.s t [] q.path, l.marked, idsOf (getRel l.s t [] q.path) (· == t ++ q.path) ++ l.graph⟩) l
    V s0 l'.s ∧ l'.marked = l.marked ∧ l.graph ⊆ l'.graph ∧ (∀ r ∈ l.s.rows, Std s0 r → r ∈ l'.s.rows) ∧
      ∀ t ∈ ts, ∃ r ∈ l'.s.rows, r.path = t ++ q.path ∧ r.src = .of q.id ∧ r.id ∈ l'.graph := by
  intro ts
  induction ts with
  | nil => exact fun l _ v => ⟨v, rfl, fun _ h => h, fun _ h _ => h, fun t ht => absurd ht List.not_mem_nil⟩
  | cons t ts ih =>
    intro l hts v
    have ht := hts t List.mem_cons_self
    obtain ⟨v1, hk1, r1, hr1, e1, e2⟩ := V.getRel h0 ht hq hs q.path [] l.s v rfl (v.top h0 ht)
    obtain ⟨v2, hm2, hg2, hk2, hall⟩ := ih ⟨getRel l.s t [] q.path, l.marked, idsOf (getRel l.s t [] q.path) (· == t ++ q.path) ++ l.graph⟩ (fun t' h' => hts t' (List.mem_cons_of_mem _ h')) v1
    simp only [List.foldl_cons]
    refine ⟨v2, hm2, fun x hx => hg2 (List.mem_append_right _ hx), fun r hr hst => hk2 r (hk1 r hr hst) hst, ?_⟩
    intro t' ht'
    rcases List.mem_cons.1 ht' with rfl | ht'
    · exact ⟨r1, hk2 r1 hr1 ⟨t', ht, q, hq, hs, e1, e2⟩, e1, e2, hg2 (List.mem_append_left _ (mem_idsOf.2 ⟨r1, hr1, by simp [e1], rfl⟩))⟩
    · exact hall t' ht'

theorem L.visit {s0 : St} (h0 : Inv s0) {seen : List Nat} {l : Loop} (h : L s0 seen l) (i : Nat) (hi : i ∈ s0.flags) : L s0 (i :: seen) (visit l i) := by
  have hS : ∀ x, Source l.s x ↔ Source s0 x := by
    intro x
    unfold Source
    rw [h.v.tops]
  -- when the visit changes nothing
  have hstay : (∀ r ∈ s0.rows, r.id = i → ¬ (r.src = .gone ∧ ¬ Source s0 r.path) ∧ ¬ Source s0 r.path) → L s0 (i :: seen) l := by
    intro hn
    refine ⟨h.v, h.marked, ?_, ?_⟩
    · intro r hr hid hg hns
      rcases List.mem_cons.1 hid with e | hid
      · exact absurd ⟨hg, hns⟩ (hn r hr e).1
      · exact h.goes r hr hid hg hns
    · intro q hq hid hs
      rcases List.mem_cons.1 hid with e | hid
      · exact absurd hs (hn q hq e).2
      · exact h.made q hq hid hs
  unfold Tup.Mirror.visit
  split
  · next hn =>
    refine hstay ?_
    intro r hr e
    obtain ⟨r', hr', e', _⟩ := h.v.oldPath hr
    exact absurd (e'.trans e) (row?_none hn r' hr')
  next r hr =>
    obtain ⟨hr, hid⟩ := row?_some hr
    split
    · next hv =>
      have hs := (hS _).1 (variantOf_none.1 hv)
      have hr0 := (h.v.source hs).1 hr
      obtain ⟨v2, hm2, hg2, hk2, hall⟩ := tops_fold h0 hr0 hs l.s.tops l (fun t ht => h.v.tops ▸ ht) h.v
      refine ⟨v2, ?_, ?_, ?_⟩
      · intro j hj
        exact h.marked j (hm2 ▸ hj)
      · intro r' hr' hid' hg hns
        rcases List.mem_cons.1 hid' with e | hid'
        · rw [h0.idI r' hr' r hr0 (e.trans hid.symm)] at hns
          exact absurd hs hns
        · have := h.goes r' hr' hid' hg hns
          rw [← hm2] at this
          exact this
      · intro q hq hid' hsq t ht
        rcases List.mem_cons.1 hid' with e | hid'
        · rw [h0.idI q hq r hr0 (e.trans hid.symm)]
          exact hall t (h.v.tops ▸ ht)
        · obtain ⟨r', hr', e1, e2, e3⟩ := h.made q hq hid' hsq t ht
          exact ⟨r', hk2 r' hr' ⟨t, ht, q, hq, hsq, e1, e2⟩, e1, e2, hg2 e3⟩
    · next t hv =>
      obtain ⟨ht, hp⟩ := variantOf_some hv
      rw [h.v.tops] at ht
      have hnsrc : ¬ Source s0 r.path := fun hs => hs t ht hp
      -- the row of that id at the start
      have hrow : ∀ r' ∈ s0.rows, r'.id = i → r' = r ∨ (r'.src = .none ∧ r'.path = r.path) := by
        intro r' hr' e
        rcases h.v.old r' hr' with h1 | ⟨h1, _, r2, hr2, e2, e3⟩
        · exact .inl (h.v.idI r' h1 r hr (e.trans hid.symm))
        · rw [h.v.idI r2 hr2 r hr (e2.trans (e.trans hid.symm))] at e3
          exact .inr ⟨h1, e3.symm⟩
      have hquiet : r.src ≠ .gone → L s0 (i :: seen) l := by
        intro hng
        refine hstay ?_
        intro r' hr' e
        rcases hrow r' hr' e with rfl | ⟨h1, h2⟩
        · exact ⟨fun hc => hng hc.1, hnsrc⟩
        · refine ⟨fun hc => ?_, h2 ▸ hnsrc⟩
          rw [h1] at hc
          cases hc.1
      split
      · next hx => exact hquiet (by rw [hx]; exact fun hc => by cases hc)
      · next hx =>
        have hr0 : r ∈ s0.rows := by
          rcases h.v.new r hr with h1 | ⟨_, _, _, _, _, _, e, _⟩
          · exact h1
          · rw [e] at hx
            cases hx
        refine ⟨h.v, ?_, ?_, ?_⟩
        · intro j hj
          rcases List.mem_cons.1 hj with rfl | hj
          · exact ⟨r, hr0, hid, hx, hnsrc⟩
          · exact h.marked j hj
        · intro r' hr' hid' hg hns
          rcases List.mem_cons.1 hid' with e | hid'
          · rw [e]
            exact List.mem_cons_self
          · exact List.mem_cons_of_mem _ (h.goes r' hr' hid' hg hns)
        · intro q hq hid' hs
          rcases List.mem_cons.1 hid' with e | hid'
          · rw [h0.idI q hq r hr0 (e.trans hid.symm)] at hs
            exact absurd hs hnsrc
          · exact h.made q hq hid' hs
      · next j hx =>
        -- it stands for the directory at its place
        obtain ⟨p, hpe⟩ := hp
        have : ∃ q ∈ s0.rows, q.id = j ∧ q.path = p ∧ Source s0 p := by
          rcases h.v.new r hr with h1 | ⟨t', ht', q, hq, hs, e1, e2, _⟩
          · exact h0.mir t ht r h1 p j hpe.symm hx
          · have := h0.oneTop ht ht' (hpe.trans e1)
            rw [hx] at e2
            exact ⟨q, hq, (Src.of.inj e2).symm, this.2.symm, this.2 ▸ hs⟩
        obtain ⟨q, hq, e1, e2, hs⟩ := this
        have hq' := (h.v.source (e2 ▸ hs)).2 hq
        have hfind : row? l.s j = some q := by
          cases hc : row? l.s j with
          | none => exact absurd e1 (row?_none hc q hq')
          | some q2 =>
            obtain ⟨g1, g2⟩ := row?_some hc
            rw [h.v.idI q2 g1 q hq' (g2.trans e1.symm)]
        rw [hfind]
        simp only
        rw [if_neg]
        · exact hquiet (by rw [hx]; exact fun hc => by cases hc)
        · rintro ⟨hne, hlast⟩
          apply hlast
          rw [← hpe, e2]
          cases p with
          | nil =>
            obtain ⟨rt, hrt, g1, g2⟩ := h0.root
            rw [h0.pathI q hq rt hrt (e2.trans g2.symm), g1] at e1
            exact absurd e1.symm hne
          | cons a b => simp [List.getLast?_append, List.getLast?_cons]

theorem mem_insertSorted {i j : Nat} {l : List Nat} : j ∈ insertSorted i l ↔ j = i ∨ j ∈ l := by
  induction l with
  | nil => simp [insertSorted]
  | cons a l ih =>
    unfold insertSorted
    split
    · simp
    · simp only [List.mem_cons, ih]
      constructor <;> (intro h; rcases h with h | h | h <;> simp [h])

theorem mem_sorted {j : Nat} {l : List Nat} : j ∈ sorted l ↔ j ∈ l := by
  induction l with
  | nil => simp [sorted]
  | cons a l ih => simp [sorted, mem_insertSorted, ih]

theorem L.fold {s0 : St} (h0 : Inv s0) : ∀ (is : List Nat) (seen : List Nat) (l : Loop), (∀ i ∈ is, i ∈ s0.flags) → L s0 seen l → ∃ seen', (∀ i, i ∈ is ∨ i ∈ seen → i ∈ seen') ∧ L s0 seen' (is.foldl Tup.Mirror.visit l) := by
  intro is
  induction is with
  | nil => exact fun seen l _ h => ⟨seen, fun i hi => hi.resolve_left List.not_mem_nil, h⟩
  | cons a is ih =>
    intro seen l his h
    obtain ⟨seen', h1, h2⟩ := ih (a :: seen) (Tup.Mirror.visit l a) (fun i hi => his i (List.mem_cons_of_mem _ hi)) (h.visit h0 a (his a List.mem_cons_self))
    refine ⟨seen', ?_, h2⟩
    intro i hi
    rcases hi with hi | hi
    · rcases List.mem_cons.1 hi with rfl | hi
      · exact h1 _ (.inr List.mem_cons_self)
      · exact h1 i (.inl hi)
    · exact h1 i (.inr (List.mem_cons_of_mem _ hi))

/-- After the update: what holds between events, nothing has lost its source, and no directory of the sources is flagged. -/
theorem update_inv {s : St} (h : Inv s) : Inv (update s) ∧ (∀ t ∈ (update s).tops, ∀ r ∈ (update s).rows, t <+: r.path → r.src ≠ .gone) ∧
    ∀ q ∈ (update s).rows, Source (update s) q.path → q.id ∉ (update s).flags := by
  obtain ⟨seen, hseen, hl⟩ := L.fold h (sorted s.flags) [] ⟨s, [], []⟩ (fun i hi => mem_sorted.1 hi)
    ⟨V.refl h, fun i hi => absurd hi List.not_mem_nil, fun _ _ hi => absurd hi List.not_mem_nil, fun _ _ hi => absurd hi List.not_mem_nil⟩
  have hflags : ∀ i ∈ s.flags, i ∈ seen := fun i hi => hseen i (.inl (mem_sorted.2 hi))
  generalize hs' : update s = s'
  unfold update at hs'
  simp only at hs'
  generalize (sorted s.flags).foldl visit ⟨s, [], []⟩ = l at hl hs'
  have v := hl.v
  -- what goes
  let B : Path → Prop := fun x => ∃ r ∈ s.rows, r.src = .gone ∧ ¬ Source s r.path ∧ r.path <+: x
  have hB : ∀ x, (((l.s.rows.filter fun r => decide (r.id ∈ l.marked)).map (·.path)).any fun b => b.isPrefixOf x) = true ↔ B x := by
    intro x
    simp only [List.any_eq_true, List.mem_map, List.mem_filter, decide_eq_true_eq, List.isPrefixOf_iff_prefix]
    constructor
    · rintro ⟨b, ⟨r, ⟨hr, hm⟩, rfl⟩, hp⟩
      obtain ⟨r0, hr0, e1, e2, e3⟩ := hl.marked r.id hm
      rcases v.old r0 hr0 with h1 | ⟨h1, _⟩
      · have := v.idI r0 h1 r hr e1
        exact ⟨r0, hr0, e2, e3, this ▸ hp⟩
      · rw [h1] at e2
        cases e2
    · rintro ⟨r, hr, e1, e2, hp⟩
      obtain ⟨t, ht, hpt⟩ : ∃ t ∈ s.tops, t <+: r.path := by
        simpa [Source] using e2
      have hm := hl.goes r hr (hflags _ (h.gone t ht r hr hpt e1)) e1 e2
      rcases v.old r hr with h1 | ⟨h1, _⟩
      · exact ⟨r.path, ⟨r, ⟨h1, hm⟩, rfl⟩, hp⟩
      · rw [h1] at e1
        cases e1
  have hB' : ∀ x, (((l.s.rows.filter fun r => decide (r.id ∈ l.marked)).map (·.path)).any fun b => b.isPrefixOf x) = false ↔ ¬ B x := by
    intro x
    rw [← hB, Bool.not_eq_true]
  generalize hP : (fun x => ((l.s.rows.filter fun r => decide (r.id ∈ l.marked)).map (·.path)).any fun b => b.isPrefixOf x) = P at hs'
  have hB2 : ∀ x, P x = true ↔ B x := fun x => by rw [← hP]; exact hB x
  have hB3 : ∀ x, P x = false ↔ ¬ B x := fun x => by rw [← hP]; exact hB' x
  clear hB hB' hP
  -- what stays
  have hsrcB : ∀ x, Source s x → ¬ B x := by
    rintro x hs ⟨r, _, _, hns, hp⟩
    exact hns (fun t ht hpt => hs t ht (hpt.trans hp))
  have hstdB : ∀ t ∈ s.tops, ∀ q ∈ s.rows, Source s q.path → ¬ B (t ++ q.path) := by
    rintro t ht q hq hs ⟨r, hr, hg, hns, hp⟩
    obtain ⟨t', ht', y, hy⟩ : ∃ t ∈ s.tops, t <+: r.path := by
      simpa [Source] using hns
    obtain ⟨z, hz⟩ := hp
    have := h.oneTop ht' ht (x := y ++ z) (y := q.path) (by rw [← hz, ← hy, List.append_assoc])
    obtain ⟨q', hq', eq'⟩ := h.up.pre hq ⟨z, this.2⟩
    have hs' : Source s q'.path := fun t2 ht2 hp2 => hs t2 ht2 (hp2.trans (eq' ▸ ⟨z, this.2⟩))
    rcases h.place t' ht' q' hq' hs' r hr (by rw [eq', hy]) with h1 | ⟨h1, _⟩ <;> rw [h1] at hg <;> cases hg
  have hlive : ∀ {r : Row}, r ∈ l.s.rows → ¬ B r.path → r.id ∉ idsOf l.s P := by
    intro r hr hnb hc
    obtain ⟨r', hr', hP', e⟩ := mem_idsOf.1 hc
    rw [v.idI r' hr' r hr e] at hP'
    exact hnb ((hB2 _).1 hP')
  -- the final table
  have hmem : ∀ r, r ∈ s'.rows ↔ r ∈ l.s.rows ∧ ¬ B r.path := by
    intro r
    rw [← hs']
    show r ∈ (remove l.s P).rows ↔ _
    rw [mem_remove, hB3]
  have htops : s'.tops = s.tops := by
    rw [← hs']
    exact v.tops
  have hfl : ∀ i, i ∈ s'.flags ↔ (i ∈ l.s.flags ∧ i ∉ idsOf l.s P) ∧ i ∉ s.flags ++ l.graph := by
    intro i
    rw [← hs']
    simp only [List.mem_filter, mem_remove_flags, decide_eq_true_eq]
  have hlk1 : ∀ r ∈ s'.rows, ∀ i, r.src = .of i → r.id ∈ s.flags ++ l.graph → (i, r.id) ∈ s'.links := by
    intro r hr i e hd
    rw [← hs'] at hr ⊢
    refine List.mem_append_left _ (List.mem_filterMap.2 ⟨r, hr, ?_⟩)
    simp only [e, if_pos hd]
  have hlk2 : ∀ x, x ∈ s.links → x.1 ∉ idsOf l.s P → x.2 ∉ idsOf l.s P → x ∈ s'.links := by
    intro x hx h1 h2
    rw [← hs']
    exact List.mem_append_right _ (mem_remove_links.2 ⟨v.links ▸ hx, h1, h2⟩)
  clear hs'
  have hS : ∀ x, Source s' x ↔ Source s x := by
    intro x
    unfold Source
    rw [htops]
  have hsrow : ∀ q, Source s q.path → (q ∈ s'.rows ↔ q ∈ s.rows) := by
    intro q hs
    rw [hmem, v.source hs]
    exact ⟨fun x => x.1, fun x => ⟨x, hsrcB _ hs⟩⟩
  have hmade : ∀ t ∈ s.tops, ∀ q ∈ s.rows, Source s q.path → ∃ r ∈ s'.rows, r.path = t ++ q.path ∧ r.src = .of q.id := by
    intro t ht q hq hs
    have : ∃ r ∈ l.s.rows, r.path = t ++ q.path ∧ r.src = .of q.id := by
      rcases h.all t ht q hq hs with h1 | ⟨r, hr, e1, e2⟩
      · obtain ⟨r, hr, e1, e2, _⟩ := hl.made q hq (hflags _ h1) hs t ht
        exact ⟨r, hr, e1, e2⟩
      · rcases v.old r hr with h2 | ⟨h2, _⟩
        · exact ⟨r, h2, e1, e2⟩
        · rw [h2] at e2
          cases e2
    obtain ⟨r, hr, e1, e2⟩ := this
    exact ⟨r, (hmem r).2 ⟨hr, e1 ▸ hstdB t ht q hq hs⟩, e1, e2⟩
  have hnogone : ∀ t ∈ s.tops, ∀ r ∈ s'.rows, t <+: r.path → r.src ≠ .gone := by
    intro t ht r hr hp hg
    obtain ⟨hr, hnb⟩ := (hmem r).1 hr
    rcases v.new r hr with h1 | ⟨_, _, _, _, _, _, e, _⟩
    · exact hnb ⟨r, h1, hg, fun hs => hs t ht hp, List.prefix_refl _⟩
    · rw [e] at hg
      cases hg
  have hpathI : PathI s'.rows := fun r hr r' hr' e => v.pathI r ((hmem r).1 hr).1 r' ((hmem r').1 hr').1 e
  refine ⟨?_, ?_, ?_⟩
  · refine { idI := ?_, pathI := hpathI, up := ?_, root := ?_, topRow := ?_, anti := ?_, mir := ?_, all := ?_, place := ?_, gone := ?_, dep := ?_ }
    · intro r hr r' hr' e
      exact v.idI r ((hmem r).1 hr).1 r' ((hmem r').1 hr').1 e
    · intro r hr x n e
      obtain ⟨hr, hnb⟩ := (hmem r).1 hr
      obtain ⟨q, hq, hqx⟩ := v.up r hr x n e
      refine ⟨q, (hmem q).2 ⟨hq, ?_⟩, hqx⟩
      rintro ⟨g, hg, g1, g2, hp⟩
      exact hnb ⟨g, hg, g1, g2, hp.trans (by rw [hqx, e]; exact List.prefix_append _ _)⟩
    · obtain ⟨r, hr, e1, e2⟩ := h.root
      refine ⟨r, (hsrow r ?_).2 hr, e1, e2⟩
      intro t ht hp
      rw [e2] at hp
      exact (h.topRow t ht).1 (List.prefix_nil.1 hp)
    · rw [htops]
      intro t ht
      obtain ⟨d, hd, e1, e2⟩ := h.root
      have hs : Source s d.path := by
        intro t ht hp
        rw [e2] at hp
        exact (h.topRow t ht).1 (List.prefix_nil.1 hp)
      obtain ⟨r, hr, e3, e4⟩ := hmade t ht d hd hs
      exact ⟨(h.topRow t ht).1, r, hr, by rw [e3, e2, List.append_nil], by rw [e4, e1]⟩
    · rw [htops]
      exact h.anti
    · rw [htops]
      intro t ht r hr p i e1 e2
      obtain ⟨hr, hnb⟩ := (hmem r).1 hr
      have : ∃ q ∈ s.rows, q.id = i ∧ q.path = p ∧ Source s p := by
        rcases v.new r hr with h1 | ⟨t', ht', q, hq, hs, f1, f2, _⟩
        · exact h.mir t ht r h1 p i e1 e2
        · have := h.oneTop ht ht' (e1.symm.trans f1)
          rw [e2] at f2
          exact ⟨q, hq, (Src.of.inj f2).symm, this.2.symm, this.2 ▸ hs⟩
      obtain ⟨q, hq, f1, f2, f3⟩ := this
      exact ⟨q, (hsrow q (f2 ▸ f3)).2 hq, f1, f2, (hS _).2 f3⟩
    · rw [htops]
      intro t ht q hq hs
      have hs := (hS _).1 hs
      exact .inr (hmade t ht q ((hsrow q hs).1 hq) hs)
    · rw [htops]
      intro t ht q hq hs r hr e
      have hs := (hS _).1 hs
      obtain ⟨r', hr', e1, e2⟩ := hmade t ht q ((hsrow q hs).1 hq) hs
      rw [hpathI r hr r' hr' (e.trans e1.symm)]
      exact .inl e2
    · rw [htops]
      intro t ht r hr hp hg
      exact absurd hg (hnogone t ht r hr hp)
    · rw [htops]
      intro t ht r hr i hp hg
      by_cases hd : r.id ∈ s.flags ++ l.graph
      · exact .inr (hlk1 r hr i hg hd)
      · obtain ⟨hr1, hnb⟩ := (hmem r).1 hr
        have hnd := hlive hr1 hnb
        rcases v.new r hr1 with h1 | ⟨t', ht', q, hq, hs, f1, f2, f3, f4⟩
        · rcases h.dep t ht r h1 i hp hg with h2 | h2
          · exact absurd (List.mem_append_left _ h2) hd
          · obtain ⟨x, hx⟩ := hp
            obtain ⟨q, hq, g1, g2, g3⟩ := h.mir t ht r h1 x i hx.symm hg
            have hq2 := (v.source (g2 ▸ g3)).2 hq
            exact .inr (hlk2 _ h2 (by rw [← g1]; exact hlive hq2 (hsrcB _ (g2 ▸ g3))) hnd)
        · obtain ⟨r', hr', e1, e2, e3⟩ := hl.made q hq (hflags _ f3) hs t' ht'
          rw [v.pathI r' hr' r hr1 (e1.trans f1.symm)] at e3
          exact absurd (List.mem_append_right _ e3) hd
  · rw [htops]
    exact hnogone
  · intro q hq hs hf
    obtain ⟨⟨h1, _⟩, h2⟩ := (hfl _).1 hf
    have hq0 := (hsrow q ((hS _).1 hs)).1 hq
    rcases v.nf _ h1 with h3 | h3
    · exact h2 (List.mem_append_left _ h3)
    · exact h3 q hq0 rfl

end Tup.Mirror
