import Verif.Upgrade.Config

namespace Tup.Upgrade

/-- The rows after the first four statements. -/
def rowsB (rows : Tab → List Row) : Tab → List Row := setRows (setRows (setRows rows .node (before (rows .node))) .configList []) .variantList []

theorem upgrade14 : upgrade 14 = [
      .insertValues .ignore .node [(.dir, .int 1), (.name, tupConfig), (.type, .int 5), (.mtime, .int (-1))],
      .createTable .configList idList,
      .createTable .variantList idList,
      .addColumn .node .srcid (.int (-1))] ++ [
      .update .node .dir (.find .node .name tupConfig .dir (.int 1)) (.eq .dir (.int 2)),
      .update .createList .id (.find .node .name tupConfig .dir (.int 1)) (.eq .id (.int 2)),
      .update .modifyList .id (.find .node .name tupConfig .dir (.int 1)) (.eq .id (.int 2)),
      .delete .node (.eq .id (.int 2))] := rfl

theorem exec_first {rows : Tab → List Row} (h : Sound 13 rows) (rest : List Stmt) :
    execAll (mk 13 rows) ([
      .insertValues .ignore .node [(.dir, .int 1), (.name, tupConfig), (.type, .int 5), (.mtime, .int (-1))],
      .createTable .configList idList,
      .createTable .variantList idList,
      .addColumn .node .srcid (.int (-1))] ++ rest) = execAll (mk 14 (rowsB rows)) rest := by
  have hi := (insert_config (h.fits .node _ rfl)).1
  have h1 : exec (mk 13 rows) (.insertValues .ignore .node [(.dir, .int 1), (.name, tupConfig), (.type, .int 5), (.mtime, .int (-1))]) =
      some ((mk 13 rows).set .node (some ⟨nodeAt 13, addConfig (rows .node)⟩)) := by
    show Option.map _ (insertRow .ignore (nodeAt 13) (rows .node) configRow) = _
    rw [hi]
    rfl
  refine execAll_cons h1 ?_
  refine execAll_cons rfl ?_
  refine execAll_cons rfl ?_
  refine execAll_cons rfl ?_
  show execAll _ rest = _
  congr 1
  exact Db.ext' (fun t => by cases t <;> rfl) (fun i => by cases i <;> rfl)

theorem exec_move {X : Tab → List Row} {t : Row} {T : Val} (hf : (X .node).find? (fun o => sqlEq (o .name) tupConfig && sqlEq (o .dir) (.int 1)) = some t) (hT : t .id = T) :
    exec (mk 14 X) (.update .node .dir (.find .node .name tupConfig .dir (.int 1)) (.eq .dir (.int 2))) =
      (updateRows (nodeAt 14) .dir (fun _ => T) (fun r => sqlEq (r .dir) (.int 2)) [] (X .node)).map fun l => mk 14 (setRows X .node l) := by
  rw [exec_update (x := ⟨nodeAt 14, X .node⟩) rfl rfl]
  have e : (fun r => (Expr.find Tab.node Col.name tupConfig Col.dir (.int 1)).value (mk 14 X) r) = fun _ => T := by
    funext r
    show (match (X .node).find? (fun o => sqlEq (o .name) tupConfig && sqlEq (o .dir) (.int 1)) with | none => Val.null | some o => o .id) = T
    rw [hf]
    exact hT
  rw [e]
  refine congr (congrArg _ (funext fun l => ?_)) rfl
  exact Db.ext' (fun t => by cases t <;> rfl) (fun i => by cases i <;> rfl)

theorem exec_list {X : Tab → List Row} {t : Row} {T : Val} (hf : (X .node).find? (fun o => sqlEq (o .name) tupConfig && sqlEq (o .dir) (.int 1)) = some t) (hT : t .id = T)
    {u : Tab} (hu : u = .createList ∨ u = .modifyList) :
    exec (mk 14 X) (.update u .id (.find .node .name tupConfig .dir (.int 1)) (.eq .id (.int 2))) =
      (updateRows idList .id (fun _ => T) (fun r => sqlEq (r .id) (.int 2)) [] (X u)).map fun l => mk 14 (setRows X u l) := by
  have hx : (mk 14 X).tables u = some ⟨idList, X u⟩ := by rcases hu with rfl | rfl <;> rfl
  rw [exec_update (x := ⟨idList, X u⟩) hx rfl]
  have e : (fun r => (Expr.find Tab.node Col.name tupConfig Col.dir (.int 1)).value (mk 14 X) r) = fun _ => T := by
    funext r
    show (match (X .node).find? (fun o => sqlEq (o .name) tupConfig && sqlEq (o .dir) (.int 1)) with | none => Val.null | some o => o .id) = T
    rw [hf]
    exact hT
  rw [e]
  refine congr (congrArg _ (funext fun l => ?_)) rfl
  refine Db.ext' (fun t => ?_) (fun i => by cases i <;> rfl)
  rcases hu with rfl | rfl <;> cases t <;> rfl

theorem find_moved {l : List Row} {t : Row} (hn : ∀ r ∈ l, r .id ≠ .null) (hf : l.find? (fun o => sqlEq (o .name) tupConfig && sqlEq (o .dir) (.int 1)) = some t) (hb : ¬ Blocked (t .id) l) :
    (l.map (move (t .id))).find? (fun o => sqlEq (o .name) tupConfig && sqlEq (o .dir) (.int 1)) = some (move (t .id) t) := by
  have ht := List.find?_some hf
  have htm := List.mem_of_find?_eq_some hf
  simp only [sqlEq_config, sqlEq_int, Bool.and_eq_true, beq_iff_eq] at ht
  rw [List.find?_map]
  have : l.find? ((fun o => sqlEq (o .name) tupConfig && sqlEq (o .dir) (.int 1)) ∘ move (t .id)) = l.find? (fun o => sqlEq (o .name) tupConfig && sqlEq (o .dir) (.int 1)) := by
    have : ∀ (m : List Row), (∀ r ∈ m, r ∈ l) → m.find? ((fun o => sqlEq (o .name) tupConfig && sqlEq (o .dir) (.int 1)) ∘ move (t .id)) = m.find? (fun o => sqlEq (o .name) tupConfig && sqlEq (o .dir) (.int 1)) := by
      intro m
      induction m with
      | nil => intro _; rfl
      | cons r m ih =>
        intro hm
        have hr := hm r (List.mem_cons_self ..)
        have e : ((fun o => sqlEq (o .name) tupConfig && sqlEq (o .dir) (.int 1)) ∘ move (t .id)) r = (sqlEq (r .name) tupConfig && sqlEq (r .dir) (.int 1)) := by
          obtain ⟨_, a2, _, _, _, a6⟩ := move_row (t .id) r
          simp only [Function.comp, a2, a6, sqlEq_config, sqlEq_int]
          by_cases h2 : r .dir = .int 2
          · rw [if_pos h2]
            rw [Bool.eq_iff_iff]
            simp only [Bool.and_eq_true, beq_iff_eq]
            constructor
            · rintro ⟨h3, h4⟩
              exact absurd ⟨r, hr, h2, t, htm, by rw [ht.2]; simp, by rw [ht.2, h4], by rw [ht.1, h3], by rw [h3]; simp [tupConfig]⟩ hb
            · rintro ⟨_, h4⟩
              rw [h2] at h4
              simp at h4
          · rw [if_neg h2]
        rw [List.find?_cons, List.find?_cons, e, ih fun x hx => hm x (List.mem_cons_of_mem _ hx)]
    exact this l fun _ h => h
  rw [this, hf]
  rfl

theorem blocked_iff (T : Val) (l : List Row) : Blocked T l ↔
    ∃ a ∈ l.map (nodeOf 14), a.dir = .int 2 ∧ ∃ b ∈ l.map (nodeOf 14), b.dir ≠ .int 2 ∧ b.dir = T ∧ b.name = a.name ∧ a.name ≠ .null := by
  constructor
  · rintro ⟨a, ha, h1, b, hb, h2⟩
    exact ⟨_, List.mem_map.2 ⟨a, ha, rfl⟩, h1, _, List.mem_map.2 ⟨b, hb, rfl⟩, h2⟩
  · rintro ⟨_, ha, h1, _, hb, h2⟩
    obtain ⟨a, ha', rfl⟩ := List.mem_map.1 ha
    obtain ⟨b, hb', rfl⟩ := List.mem_map.1 hb
    exact ⟨a, ha', h1, b, hb', h2⟩

theorem step13 : Step 13 toTupConfig := by
  intro rows h
  have hn := h.fits .node _ rfl
  have hB := before_fits hn
  obtain ⟨t, ht⟩ := before_has (rows .node)
  have hta := find_config (rows .node) t ht
  have hids := (node_ids (v := 14) (by omega) hB).1
  have hT : t .id ≠ .null := hids t (List.mem_of_find?_eq_some ht)
  have hc := h.fits .createList _ rfl
  have hm := h.fits .modifyList _ rfl
  show match toTupConfig (content 13 rows) with | none => execAll (mk 13 rows) (upgrade 14) = none | some c => _
  rw [upgrade14, exec_first h]
  have e1 := exec_move (X := rowsB rows) (t := t) (T := t .id) ht rfl
  have hcn : (content 13 rows).nodes = (rows .node).map (nodeOf 13) := rfl
  by_cases hb : Blocked (t .id) (before (rows .node))
  · have hx : toTupConfig (content 13 rows) = none := by
      unfold toTupConfig
      rw [hcn, hta]
      simp only
      rw [if_pos]
      have := (blocked_iff _ _).1 hb
      rw [before_nodes] at this
      exact this
    rw [hx]
    refine execAll_fail ?_
    rw [e1]
    rw [show rowsB rows .node = before (rows .node) from rfl, move_dir hT hb]
    rfl
  obtain ⟨m1, m2⟩ := move_ok hT hB hb
  rw [show updateRows _ _ _ _ _ (rowsB rows .node) = _ from m1] at e1
  have e1' : exec (mk 14 (rowsB rows)) (.update .node .dir (.find .node .name tupConfig .dir (.int 1)) (.eq .dir (.int 2))) = some (mk 14 (setRows (rowsB rows) .node ((before (rows .node)).map (move (t .id))))) := e1
  have hfm := find_moved hids ht hb
  have htid : move (t .id) t .id = t .id := (move_row _ _).1
  have e2 := exec_list (X := setRows (rowsB rows) .node ((before (rows .node)).map (move (t .id)))) (t := move (t .id) t) (T := t .id) hfm htid (u := .createList) (.inl rfl)
  have hcr := moveId_rows hT hc
  have hmo := moveId_rows hT hm
  have hu : toTupConfig (content 13 rows) = match moveId (t .id) (content 13 rows).create, moveId (t .id) (content 13 rows).modify with
      | some l1, some l2 =>
        some { content 13 rows with
          nodes := ((withTupConfig (content 13 rows).nodes).map fun n => if n.dir = .int 2 then { n with dir := t .id } else n).filter fun n => n.id != .int 2
          create := l1, modify := l2 }
      | _, _ => none := by
    conv => lhs; unfold toTupConfig
    rw [hcn, hta]
    simp only
    rw [if_neg]
    · rfl
    · intro hx
      apply hb
      rw [blocked_iff, before_nodes]
      exact hx
  rw [hu]
  cases k1 : moveId (t .id) (content 13 rows).create with
  | none =>
    rw [show moveId (t .id) ((rows .createList).map (· .id)) = none from k1] at hcr
    refine execAll_cons e1' (execAll_fail ?_)
    rw [e2]
    rw [show updateRows _ _ _ _ _ (setRows (rowsB rows) .node _ .createList) = none from hcr]
    rfl
  | some l1 =>
    rw [show moveId (t .id) ((rows .createList).map (· .id)) = some l1 from k1] at hcr
    obtain ⟨c1, hc1, hc2, hc3⟩ := hcr
    rw [show updateRows _ _ _ _ _ (setRows (rowsB rows) .node _ .createList) = some c1 from hc1] at e2
    have e3 := exec_list (X := setRows (setRows (rowsB rows) .node ((before (rows .node)).map (move (t .id)))) .createList c1) (t := move (t .id) t) (T := t .id) hfm htid (u := .modifyList) (.inr rfl)
    cases k2 : moveId (t .id) (content 13 rows).modify with
    | none =>
      rw [show moveId (t .id) ((rows .modifyList).map (· .id)) = none from k2] at hmo
      refine execAll_cons e1' (execAll_cons e2 (execAll_fail ?_))
      rw [e3]
      rw [show updateRows _ _ _ _ _ (setRows (setRows (rowsB rows) .node _) .createList c1 .modifyList) = none from hmo]
      rfl
    | some l2 =>
      rw [show moveId (t .id) ((rows .modifyList).map (· .id)) = some l2 from k2] at hmo
      obtain ⟨d1, hd1, hd2, hd3⟩ := hmo
      rw [show updateRows _ _ _ _ _ (setRows (setRows (rowsB rows) .node _) .createList c1 .modifyList) = some d1 from hd1] at e3
      let ns : List Row := ((before (rows .node)).map (move (t .id))).filter fun r => !sqlEq (r .id) (.int 2)
      refine ⟨setRows (setRows (setRows (setRows (setRows rows .node ns) .createList c1) .modifyList d1) .configList []) .variantList [], ?_, ?_, ?_, rfl⟩
      · refine execAll_cons e1' (execAll_cons e2 (execAll_cons e3 (execAll_cons rfl ?_)))
        exact congrArg some (Db.ext' (fun t => by cases t <;> rfl) (fun i => by cases i <;> rfl))
      · have hns : Fits (nodeAt 14) ns := fits_filter m2 _
        constructor
        · intro t
          cases t
          case node => intro s e; cases e; exact hns
          case createList => intro s e; cases e; exact hc3
          case modifyList => intro s e; cases e; exact hd3
          case configList => intro s e; cases e; exact ⟨by simp [setRows], by simp [setRows]⟩
          case variantList => intro s e; cases e; exact ⟨by simp [setRows], by simp [setRows]⟩
          others h
        · intro _; omega
        · intro _; omega
        · intro _ _; omega
        · intro _ r hr
          exact ((missing_node (v := 14) (by omega) r).1 (hns.1 r hr)).2.2.2
      · have en : ns.map (nodeOf 14) = ((withTupConfig ((rows .node).map (nodeOf 13))).map fun n => if n.dir = .int 2 then { n with dir := t .id } else n).filter fun n => n.id != .int 2 := by
          rw [← before_nodes, List.map_map, List.filter_map]
          have emv : ∀ r, nodeOf 14 (move (t .id) r) = if (nodeOf 14 r).dir = .int 2 then { nodeOf 14 r with dir := t .id } else nodeOf 14 r := by
            intro r
            obtain ⟨a1, a2, a3, a4, a5, a6⟩ := move_row (t .id) r
            have ed : (nodeOf 14 r).dir = r .dir := rfl
            rw [ed]
            by_cases h2 : r .dir = .int 2
            · rw [if_pos h2] at a6 ⊢
              simp [nodeOf, a1, a2, a3, a4, a5, a6]
            · rw [if_neg h2] at a6 ⊢
              simp [nodeOf, a1, a2, a3, a4, a5, a6]
          simp only [ns, List.filter_map, List.map_map]
          refine congr (congrArg _ (funext fun r => emv r)) ?_
          apply List.filter_congr
          intro r _
          simp only [Function.comp, sqlEq_int, (move_row (t .id) r).1]
          by_cases h2 : (nodeOf 14 r).dir = .int 2
          · rw [if_pos h2]; rfl
          · rw [if_neg h2]; rfl
        simp only [content, setRows, if_pos, reduceCtorEq, if_false, en, hc2, hd2]
        rfl

end Tup.Upgrade
