import Verif.Upgrade.Steps

namespace Tup.Upgrade

theorem step9 : Step 9 some := by
  intro rows h
  refine ⟨setRows rows .link ((rows .link).map fun r => rowOf [(.fromId, r .fromId), (.toId, r .toId), (.style, r .style)]), ?_, ?_, ?_, rfl⟩
  · refine execAll_cons rfl ?_
    refine execAll_cons (exec_insertSelect rfl rfl rfl rfl (insertRows_all ?_ ?_ ?_)) ?_
    · intro r _; rfl
    · intro r _ k e; cases e
    · show List.Pairwise _ (List.map _ (List.filter (fun _ => true) (rows .link)))
      rw [List.filter_eq_self.2 (by simp), List.pairwise_map]
      refine (h.links (by omega)).imp ?_
      intro a b hab
      simpa [Schema.clash, sameIn, rowOf] using hab
    · refine congrArg some (Db.ext' (fun t => ?_) (fun i => by cases i <;> rfl))
      cases t
      case link =>
        show some (Table.mk _ (List.map _ (List.filter (fun _ => true) (rows .link)))) = _
        rw [List.filter_eq_self.2 (by simp)]
        rfl
      all_goals rfl
  · constructor
    · intro t
      cases t
      case link =>
        intro s e
        cases e
        constructor
        · intro r _; rfl
        · simp only [setRows, if_pos]
          rw [List.pairwise_map]
          refine (h.links (by omega)).imp ?_
          intro a b hab
          simpa [Schema.clash, sameIn, rowOf] using hab
      others h
    · intro _; omega
    · exact fun _ => h.names (by omega)
    · exact fun _ _ => h.sym (by omega) (by omega)
    · exact fun _ => h.mtime (by omega)
  · simp [content, setRows, List.filter_map, Function.comp_def, rowOf, ends, nodeOf]

theorem shadow_iff {v : Nat} {rows : Tab → List Row} {r : Row} (hd : ∀ r ∈ rows .node, r .dir ≠ .null)
    (ht : ∀ r ∈ rows .node, r .type ≠ .null) (d : Db) (hr : d.rows .node = rows .node) (hrm : r ∈ rows .node) :
    (Cond.and (.eq .type (.int 5)) (.existsOther .node [.name, .dir] .type (.int 5))).holds d r =
      decide (Shadow ((rows .node).map (nodeOf v)) (nodeOf v r)) := by
  rw [Bool.eq_iff_iff, decide_eq_true_eq]
  simp only [Cond.holds, hr, Bool.and_eq_true, List.any_eq_true, List.all_cons, List.all_nil, Bool.and_true, Shadow,
    sqlEq, sqlNe, bne_iff_ne, ne_eq, beq_iff_eq, List.mem_map, nodeOf, reduceCtorEq, not_false_eq_true]
  constructor
  · rintro ⟨⟨_, h5⟩, o, ho, ⟨⟨hn, hn2⟩, hd1, hd2⟩, ⟨_, hne⟩⟩
    exact ⟨h5, hn, _, ⟨o, ho, rfl⟩, hn2.symm, hd2.symm, hne⟩
  · rintro ⟨h5, hn, _, ⟨o, ho, rfl⟩, hn2, hd2, hne⟩
    exact ⟨⟨ht r hrm, h5⟩, o, ho, ⟨⟨hn, hn2.symm⟩, hd r hrm, hd2.symm⟩, ⟨ht o ho, trivial⟩, hne⟩

/-- The rows of nodes that are not ghosts beside real nodes. -/
def noShadows (v : Nat) (l : List Row) : List Row := l.filter fun r => !decide (Shadow (l.map (nodeOf v)) (nodeOf v r))

/-- A node copied into the table of version 12. -/
def copy12 (r : Row) : Row := rowOf [(.id, r .id), (.dir, r .dir), (.type, r .type), (.sym, r .sym), (.mtime, r .mtime), (.name, r .name)]

/-- A node copied into the table of version 13. -/
def copy13 (r : Row) : Row := rowOf [(.id, r .id), (.dir, r .dir), (.type, r .type), (.mtime, r .mtime), (.name, r .name)]

theorem noShadows_fits {rows : Tab → List Row} (h : Sound 11 rows) :
    Fits (nodeAt 12) ((noShadows 11 (rows .node)).map copy12) := by
  obtain ⟨h1, h2⟩ := h.fits .node _ rfl
  have hn : ∀ r ∈ rows .node, r .id ≠ .null ∧ r .dir ≠ .null ∧ r .type ≠ .null := by
    intro r hr
    have := h1 r hr
    simpa [Schema.missing, nodeAt] using this
  constructor
  · intro r hr
    obtain ⟨r0, hr0, rfl⟩ := List.mem_map.1 hr
    have hm := (List.mem_filter.1 hr0).1
    obtain ⟨a, b, c⟩ := hn r0 hm
    simp [Schema.missing, nodeAt, copy12, rowOf, a, b, c, h.sym (by omega) (by omega) r0 hm, h.mtime (by omega) r0 hm]
  · rw [List.pairwise_map]
    have hp := (h2.and (h.names (by omega))).sublist (List.filter_sublist (p := fun r => !decide (Shadow ((rows .node).map (nodeOf 11)) (nodeOf 11 r))))
    refine hp.imp_of_mem ?_
    intro a b ha hb hab
    obtain ⟨hc, hs⟩ := hab
    have ha' := List.mem_filter.1 ha
    have hb' := List.mem_filter.1 hb
    simp only [Bool.not_eq_true', decide_eq_false_iff_not] at ha' hb'
    have hid : sqlEq (a .id) (b .id) = false := by simpa [Schema.clash, nodeAt, sameIn] using hc
    have hdn : sameIn [.dir, .name] a b = false := by
      cases e : sameIn [.dir, .name] a b with
      | false => rfl
      | true =>
        exfalso
        have e2 := hs e
        simp only [sameIn, List.all_cons, List.all_nil, Bool.and_true, Bool.and_eq_true, sqlEq, bne_iff_ne, ne_eq, beq_iff_eq] at e
        obtain ⟨⟨_, ed⟩, hnn, en⟩ := e
        by_cases h5 : a .type = .int 5
        · exact ha'.2 ⟨h5, hnn, nodeOf 11 b, List.mem_map.2 ⟨b, hb'.1, rfl⟩, en.symm, ed.symm, e2.1 h5⟩
        · have hb5 : b .type = .int 5 := Decidable.not_not.1 fun x => h5 (e2.2 x)
          exact hb'.2 ⟨hb5, fun x => hnn (en.trans x), nodeOf 11 a, List.mem_map.2 ⟨a, ha'.1, rfl⟩, en, ed, h5⟩
    simp only [Schema.clash, nodeAt]
    simp only [sameIn, List.all_cons, List.all_nil, Bool.and_true] at hdn
    simp [copy12, rowOf, sameIn, hid, hdn]

theorem step11 : Step 11 (fun c => some (dropShadows c)) := by
  intro rows h
  have hfit := noShadows_fits h
  obtain ⟨h1, _⟩ := h.fits .node _ rfl
  have hn : ∀ r ∈ rows .node, r .id ≠ .null ∧ r .dir ≠ .null ∧ r .type ≠ .null := by
    intro r hr
    have := h1 r hr
    simpa [Schema.missing, nodeAt] using this
  have hdel : (rows .node).filter (fun r => !(Cond.and (.eq .type (.int 5)) (.existsOther .node [.name, .dir] .type (.int 5))).holds (mk 11 rows) r) = noShadows 11 (rows .node) := by
    apply List.filter_congr
    intro r hr
    rw [shadow_iff (v := 11) (fun r hr => (hn r hr).2.1) (fun r hr => (hn r hr).2.2) (mk 11 rows) rfl hr]
  refine ⟨setRows rows .node ((noShadows 11 (rows .node)).map copy12), ?_, ?_, ?_, rfl⟩
  · refine execAll_cons rfl ?_
    refine execAll_cons rfl ?_
    refine execAll_cons rfl ?_
    refine execAll_cons (exec_insertSelect rfl rfl rfl rfl (rows := (noShadows 11 (rows .node)).map copy12) ?_) ?_
    · show insertRows _ _ [] (List.map _ (List.filter (fun _ => true) (List.filter _ (rows .node)))) = _
      rw [List.filter_eq_self.2 (by simp)]
      rw [show (rows .node).filter _ = noShadows 11 (rows .node) from hdel]
      rw [show (List.map _ (noShadows 11 (rows .node))) = (noShadows 11 (rows .node)).map copy12 from rfl]
      refine insertRows_all hfit.1 ?_ hfit.2
      intro r hr k e
      cases e
      obtain ⟨r0, hr0, rfl⟩ := List.mem_map.1 hr
      exact (hn r0 (List.mem_filter.1 hr0).1).1
    · exact congrArg some (Db.ext' (fun t => by cases t <;> rfl) (fun i => by cases i <;> rfl))
  · constructor
    · intro t
      cases t
      case node => intro s e; cases e; exact hfit
      others h
    · intro _; omega
    · intro _; omega
    · intro _ _ r hr
      obtain ⟨r0, hr0, rfl⟩ := List.mem_map.1 hr
      exact h.sym (by omega) (by omega) r0 (List.mem_filter.1 hr0).1
    · intro _ r hr
      obtain ⟨r0, hr0, rfl⟩ := List.mem_map.1 hr
      exact h.mtime (by omega) r0 (List.mem_filter.1 hr0).1
  · have e : ∀ r, nodeOf 12 (copy12 r) = nodeOf 11 r := fun r => rfl
    simp [content, setRows, dropShadows, noShadows, List.filter_map, Function.comp_def, e]

theorem step12 : Step 12 some := by
  intro rows h
  obtain ⟨h1, h2⟩ := h.fits .node _ rfl
  have hn : ∀ r ∈ rows .node, r .id ≠ .null ∧ r .dir ≠ .null ∧ r .type ≠ .null ∧ r .sym ≠ .null ∧ r .mtime ≠ .null := by
    intro r hr
    have := h1 r hr
    simpa [Schema.missing, nodeAt] using this
  have hfit : Fits (nodeAt 13) ((rows .node).map copy13) := by
    constructor
    · intro r hr
      obtain ⟨r0, hr0, rfl⟩ := List.mem_map.1 hr
      have := hn r0 hr0
      simp [Schema.missing, nodeAt, copy13, rowOf, this]
    · rw [List.pairwise_map]
      exact h2
  refine ⟨setRows rows .node ((rows .node).map copy13), ?_, ?_, ?_, rfl⟩
  · refine execAll_cons rfl ?_
    refine execAll_cons (exec_insertSelect rfl rfl rfl rfl (rows := (rows .node).map copy13) ?_) ?_
    · show insertRows _ _ [] (List.map _ (List.filter (fun _ => true) (rows .node))) = _
      rw [List.filter_eq_self.2 (by simp)]
      rw [show (List.map _ (rows .node)) = (rows .node).map copy13 from rfl]
      refine insertRows_all hfit.1 ?_ hfit.2
      intro r hr k e
      cases e
      obtain ⟨r0, hr0, rfl⟩ := List.mem_map.1 hr
      exact (hn r0 hr0).1
    · exact congrArg some (Db.ext' (fun t => by cases t <;> rfl) (fun i => by cases i <;> rfl))
  · constructor
    · intro t
      cases t
      case node => intro s e; cases e; exact hfit
      others h
    · intro _; omega
    · intro _; omega
    · intro _ _; omega
    · intro _ r hr
      obtain ⟨r0, hr0, rfl⟩ := List.mem_map.1 hr
      exact h.mtime (by omega) r0 hr0
  · have e : ∀ r, nodeOf 13 (copy13 r) = nodeOf 12 r := fun r => rfl
    simp [content, setRows, Function.comp_def, e]

end Tup.Upgrade
