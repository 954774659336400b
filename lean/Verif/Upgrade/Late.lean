import Verif.Upgrade.Tables

namespace Tup.Upgrade

/-- What `nodeAt` says from version 13 on. -/
theorem nodeAt_new {v : Nat} (hv : 13 ≤ v) : (nodeAt v).key = some .id ∧ (nodeAt v).notNull = [.id, .dir, .type, .mtime] ∧ (nodeAt v).unique = [[.dir, .name]] := by
  unfold nodeAt
  rw [if_neg (by omega), if_neg (by omega), if_neg (by omega), if_neg (by omega)]
  split
  · exact ⟨rfl, rfl, rfl⟩
  · split
    · exact ⟨rfl, rfl, rfl⟩
    · split <;> exact ⟨rfl, rfl, rfl⟩

theorem missing_node {v : Nat} (hv : 13 ≤ v) (r : Row) : (nodeAt v).missing r = false ↔ r .id ≠ .null ∧ r .dir ≠ .null ∧ r .type ≠ .null ∧ r .mtime ≠ .null := by
  simp [Schema.missing, (nodeAt_new hv).2.1]

theorem clash_node {v : Nat} (hv : 13 ≤ v) (a b : Row) : (nodeAt v).clash a b = (sqlEq (a .id) (b .id) || (sqlEq (a .dir) (b .dir) && sqlEq (a .name) (b .name))) := by
  obtain ⟨h1, _, h3⟩ := nodeAt_new hv
  simp [Schema.clash, h1, h3, sameIn]

theorem fits_map {v w : Nat} (hv : 13 ≤ v) (hw : 13 ≤ w) {rows : List Row} {f : Row → Row}
    (hf : ∀ r, f r .id = r .id ∧ f r .dir = r .dir ∧ f r .type = r .type ∧ f r .mtime = r .mtime ∧ f r .name = r .name) (h : Fits (nodeAt v) rows) : Fits (nodeAt w) (rows.map f) := by
  constructor
  · intro r hr
    obtain ⟨r0, hr0, rfl⟩ := List.mem_map.1 hr
    have := (missing_node hv r0).1 (h.1 r0 hr0)
    rw [missing_node hw]
    obtain ⟨h1, h2, h3, h4, _⟩ := hf r0
    rwa [h1, h2, h3, h4]
  · rw [List.pairwise_map]
    refine h.2.imp ?_
    intro a b hab
    rw [clash_node hv] at hab
    rw [clash_node hw]
    obtain ⟨h1, h2, h3, h4, h5⟩ := hf a
    obtain ⟨k1, k2, k3, k4, k5⟩ := hf b
    rwa [h1, h2, h5, k1, k2, k5]

theorem node_ids {v : Nat} (hv : 13 ≤ v) {rows : List Row} (h : Fits (nodeAt v) rows) :
    (∀ r ∈ rows, r .id ≠ .null) ∧ (rows.map (· .id)).Nodup := by
  refine ⟨fun r hr => ((missing_node hv r).1 (h.1 r hr)).1, ?_⟩
  unfold List.Nodup
  rw [List.pairwise_map]
  refine h.2.imp_of_mem ?_
  intro a b ha _ hab e
  rw [clash_node hv] at hab
  simp only [Bool.or_eq_false_iff] at hab
  have := hab.1
  rw [e] at this
  simp only [sqlEq, BEq.rfl, Bool.and_true, bne_eq_false_iff_eq] at this
  exact ((missing_node hv a).1 (h.1 a ha)).1 (e.trans this)

theorem step15 : Step 15 (fun c => some (setSources c)) := by
  intro rows h
  have hn := h.fits .node _ rfl
  let f : Row → Row := upd .srcid (fun r => r .dir) (fun r => sqlEq (r .type) (.int 4))
  have hf : ∀ r, f r .id = r .id ∧ f r .dir = r .dir ∧ f r .type = r .type ∧ f r .mtime = r .mtime ∧ f r .name = r .name := by
    intro r
    simp only [f, upd]
    split <;> simp [setCol]
  have hup : updateRows (nodeAt 15) .srcid (fun r => r .dir) (fun r => sqlEq (r .type) (.int 4)) [] (rows .node) = some ((rows .node).map f) := by
    have := updateRows_some (s := nodeAt 15) (c := .srcid) (f := fun r => r .dir) (w := fun r => sqlEq (r .type) (.int 4)) (rs := rows .node) (done := []) ?_ ?_ ?_
    · simpa using this
    · intro r hr _
      rw [missing_node (by omega)]
      have := (missing_node (by omega) r).1 (hn.1 r hr)
      obtain ⟨h1, h2, h3, h4, _⟩ := hf r
      simp only [f] at h1 h2 h3 h4
      rwa [h1, h2, h3, h4]
    · simp
    · refine hn.2.imp ?_
      intro a b hab
      have e : ∀ x y, (nodeAt 15).clash (f x) (f y) = (nodeAt 15).clash x y ∧ (nodeAt 15).clash (f x) y = (nodeAt 15).clash x y := by
        intro x y
        simp only [clash_node (show 13 ≤ 15 by omega), hf, and_self]
      refine ⟨fun _ => ?_, fun _ => ?_⟩
      · exact (e b a).1.trans ((clash_comm _ _ _).trans hab)
      · exact (e a b).2.trans hab
  refine ⟨setRows rows .node ((rows .node).map f), ?_, ?_, ?_, rfl⟩
  · refine execAll_cons rfl ?_
    refine execAll_cons ((exec_update (x := ⟨nodeAt 15, rows .node⟩) rfl rfl).trans (congrArg (Option.map _) hup)) ?_
    exact congrArg some (Db.ext' (fun t => by cases t <;> rfl) (fun i => by cases i <;> rfl))
  · constructor
    · intro t
      cases t
      case node => intro s e; cases e; exact fits_map (v := 15) (w := 16) (by omega) (by omega) hf hn
      others h
    · intro _; omega
    · intro _; omega
    · intro _ _; omega
    · intro _ r hr
      obtain ⟨r0, hr0, rfl⟩ := List.mem_map.1 hr
      rw [(hf r0).2.2.2.1]
      exact h.mtime (by omega) r0 hr0
  · have e : ∀ r, nodeOf 16 (f r) = if (nodeOf 15 r).type = .int 4 then { nodeOf 15 r with srcid := (nodeOf 15 r).dir } else nodeOf 15 r := by
      intro r
      simp only [f, upd, sqlEq]
      by_cases h4 : r .type = .int 4
      · simp [h4, nodeOf, setCol]
      · simp [h4, nodeOf]
    simp [content, setRows, Function.comp_def, e, setSources]

/-- `insert or replace into create_list select id from node where type=2` -/
theorem exec_reparse {v : Nat} {d : Db} {nodes create : List Row} {s : Schema} (hs : s.cols.contains .id = true) (hs2 : s.cols.contains .type = true)
    (hid : (∀ r ∈ nodes, r .id ≠ .null) ∧ (nodes.map (· .id)).Nodup) (h1 : d.tables .node = some ⟨s, nodes⟩) (h2 : d.tables .createList = some ⟨idList, create⟩)
    (hc : Fits idList create) :
    ∃ rows, exec d reparse = some (d.set .createList (some ⟨idList, rows⟩)) ∧ Fits idList rows ∧
      rows.map (· .id) = (create.map (· .id)).filter (fun x => !(dirs (nodes.map (nodeOf v))).contains x) ++ dirs (nodes.map (nodeOf v)) := by
  have hd : dirs (nodes.map (nodeOf v)) = ((nodes.filter fun r => sqlEq (r .type) (.int 2)).map fun r => rowOf [(Col.id, r .id)]).map (· .id) := by
    simp only [dirs, List.filter_map, List.map_map]
    refine congr (congrArg _ (funext fun r => rfl)) ?_
    apply List.filter_congr
    intro r _
    simp only [Function.comp, nodeOf, sqlEq]
    rw [Bool.eq_iff_iff]
    simp only [beq_iff_eq, Bool.and_eq_true, bne_iff_ne, ne_eq]
    constructor
    · intro h; exact ⟨by simp [h], h⟩
    · exact fun h => h.2
  have hnn : ∀ r ∈ (nodes.filter fun r => sqlEq (r .type) (.int 2)).map (fun r => rowOf [(Col.id, r .id)]), r .id ≠ .null := by
    intro r hr
    obtain ⟨r0, hr0, rfl⟩ := List.mem_map.1 hr
    exact hid.1 r0 (List.mem_filter.1 hr0).1
  have hnd : (((nodes.filter fun r => sqlEq (r .type) (.int 2)).map fun r => rowOf [(Col.id, r .id)]).map (· .id)).Nodup := by
    rw [List.map_map]
    exact (List.filter_sublist.map (fun r : Row => r .id)).nodup hid.2
  obtain ⟨rows, h3, h4⟩ := replace_ids (rows := create) hnn hnd
  refine ⟨rows, ?_, ?_, ?_⟩
  · refine exec_insertSelect h2 h1 ?_ rfl h3
    simp [Cond.ok, hs, hs2]
    exact ⟨by simpa using hs, by simpa using hs2⟩
  · rw [fits_idList] at hc ⊢
    rw [h4]
    constructor
    · have hall : ∀ x ∈ rows.map (· .id), x ≠ .null := by
        rw [h4]
        intro x hx
        rcases List.mem_append.1 hx with hx | hx
        · obtain ⟨r, hr, rfl⟩ := List.mem_map.1 (List.mem_filter.1 hx).1
          exact hc.1 r hr
        · obtain ⟨r, hr, rfl⟩ := List.mem_map.1 hx
          exact hnn r hr
      exact fun r hr => hall _ (List.mem_map.2 ⟨r, hr, rfl⟩)
    · rw [List.nodup_append]
      refine ⟨List.filter_sublist.nodup hc.2, hnd, ?_⟩
      intro a ha b hb e
      have := (List.mem_filter.1 ha).2
      rw [e] at this
      simp only [Bool.not_eq_true', List.contains_eq_mem, decide_eq_false_iff_not] at this
      exact this hb
  · rw [h4, hd]

theorem step16 : Step 16 (fun c => some (parseAll c)) := by
  intro rows h
  have hn := h.fits .node _ rfl
  have hc := h.fits .createList _ rfl
  let f : Row → Row := fun r => setCol .flags .null (setCol .display .null r)
  have hf : ∀ r, f r .id = r .id ∧ f r .dir = r .dir ∧ f r .type = r .type ∧ f r .mtime = r .mtime ∧ f r .name = r .name := by
    intro r; exact ⟨rfl, rfl, rfl, rfl, rfl⟩
  have hfit := fits_map (v := 16) (w := 17) (by omega) (by omega) hf hn
  have hmm : ((rows .node).map (setCol .display .null)).map (setCol .flags .null) = (rows .node).map f := by simp [f, Function.comp_def]
  obtain ⟨l, h1, h2, h3⟩ := exec_reparse (v := 17) (d := ((mk 16 rows).set .node (some ⟨nodeAt 17, (rows .node).map f⟩))) (nodes := (rows .node).map f) (create := rows .createList) (s := nodeAt 17) rfl rfl
    (node_ids (by omega) hfit) rfl rfl hc
  refine ⟨setRows (setRows rows .node ((rows .node).map f)) .createList l, ?_, ?_, ?_, rfl⟩
  · refine execAll_cons rfl ?_
    refine execAll_cons rfl ?_
    refine execAll_cons (d1 := ((mk 16 rows).set .node (some ⟨nodeAt 17, (rows .node).map f⟩)).set .createList (some ⟨idList, l⟩)) ?_ ?_
    · rw [← h1]
      congr 1
      refine Db.ext' (fun t => ?_) (fun i => by cases i <;> rfl)
      cases t
      case node =>
        rw [← hmm]; rfl
      all_goals rfl
    · exact congrArg some (Db.ext' (fun t => by cases t <;> rfl) (fun i => by cases i <;> rfl))
  · constructor
    · intro t
      cases t
      case node => intro s e; cases e; exact hfit
      case createList => intro s e; cases e; exact h2
      others h
    · intro _; omega
    · intro _; omega
    · intro _ _; omega
    · intro _ r hr
      obtain ⟨r0, hr0, rfl⟩ := List.mem_map.1 hr
      exact h.mtime (by omega) r0 hr0
  · have e : ∀ r, nodeOf 17 (f r) = nodeOf 16 r := fun r => rfl
    rw [List.map_map, show (nodeOf 17 ∘ f) = nodeOf 16 from funext e] at h3
    simp [content, setRows, Function.comp_def, e, parseAll, h3]

theorem sqlEq_int (x : Val) (n : Int) : sqlEq x (.int n) = (x == .int n) := by
  rw [Bool.eq_iff_iff]
  simp only [sqlEq, beq_iff_eq, Bool.and_eq_true, bne_iff_ne, ne_eq]
  constructor
  · exact fun h => h.2
  · intro h; exact ⟨by simp [h], h⟩

theorem group_iff (v : Nat) (nodes : List Row) (x : Val) :
    (nodes.any fun o => sqlEq (o .type) (.int 6) && sqlEq x (o .id)) = decide (IsGroup (nodes.map (nodeOf v)) x) := by
  rw [Bool.eq_iff_iff, decide_eq_true_eq]
  simp only [sqlEq_int, List.any_eq_true, IsGroup, List.mem_map, Bool.and_eq_true, beq_iff_eq]
  simp only [sqlEq, Bool.and_eq_true, bne_iff_ne, ne_eq, beq_iff_eq]
  constructor
  · rintro ⟨o, ho, h6, hx, e⟩
    exact ⟨hx, _, ⟨o, ho, rfl⟩, h6, e.symm⟩
  · rintro ⟨hx, _, ⟨o, ho, rfl⟩, h6, e⟩
    exact ⟨o, ho, h6, hx, e.symm⟩

/-- A link in the tables of version 15. -/
def pair (r : Row) : Row := rowOf [(.fromId, r .fromId), (.toId, r .toId)]

theorem pairs_fits {rows : Tab → List Row} (h : Sound 14 rows) (p : Row → Bool) : Fits pairs (((rows .link).filter p).map pair) := by
  constructor
  · intro r _; rfl
  · rw [List.pairwise_map]
    exact (h.fits .link _ rfl).2.sublist List.filter_sublist

theorem fits_filter {s : Schema} {l : List Row} (h : Fits s l) (p : Row → Bool) : Fits s (l.filter p) :=
  ⟨fun r hr => h.1 r (List.mem_filter.1 hr).1, h.2.sublist List.filter_sublist⟩

theorem pairs_insert {rows : Tab → List Row} (h : Sound 14 rows) (p : Row → Bool) :
    insertRows .abort pairs [] (((rows .link).filter p).map pair) = some (((rows .link).filter p).map pair) := by
  obtain ⟨h1, h2⟩ := pairs_fits h p
  exact insertRows_all h1 (by intro r _ k e; cases e) h2

/-- The normal links of version 15. -/
def normals (l : List Row) : List Row := (l.filter fun r => sqlEq (r .style) (.int 1) || sqlEq (r .style) (.int 3)).map pair

/-- The sticky links of version 15. -/
def stickies (nodes l : List Row) : List Row :=
  (((l.filter fun r => sqlEq (r .style) (.int 2) || sqlEq (r .style) (.int 3)).map pair).filter
    fun r => !(nodes.any fun o => sqlEq (o .type) (.int 6) && sqlEq (r .fromId) (o .id))).filter
    fun r => !(nodes.any fun o => sqlEq (o .type) (.int 6) && sqlEq (r .toId) (o .id))

/-- A database of version 15 in which the new statements for the directories have not run; it is that of version 15. -/
def mkAt (rows : Tab → List Row) : Db := mk 15 rows

theorem step14 : Step 14 (fun c => some (parseAll (dropGroups c))) := by
  intro rows h
  have hn := h.fits .node _ rfl
  have hc := h.fits .createList _ rfl
  let ns : List Row := (rows .node).filter fun r => !sqlEq (r .type) (.int 6)
  have hns : Fits (nodeAt 15) ns := fits_filter hn _
  let rows1 : Tab → List Row := setRows (setRows (setRows (setRows (setRows rows .node ns) .normalLink (normals (rows .link))) .stickyLink (stickies (rows .node) (rows .link))) .groupLink []) .link []
  obtain ⟨l, h1, h2, h3⟩ := exec_reparse (v := 15) (d := mkAt rows1) (nodes := ns) (create := rows .createList) (s := nodeAt 15) rfl rfl
    (node_ids (by omega) hns) rfl rfl hc
  refine ⟨setRows rows1 .createList l, ?_, ?_, ?_, rfl⟩
  · refine execAll_cons rfl ?_
    refine execAll_cons rfl ?_
    refine execAll_cons rfl ?_
    refine execAll_cons rfl ?_
    refine execAll_cons rfl ?_
    refine execAll_cons rfl ?_
    refine execAll_cons (exec_insertSelect rfl rfl rfl rfl (pairs_insert h fun r => sqlEq (r .style) (.int 1) || sqlEq (r .style) (.int 3))) ?_
    refine execAll_cons (exec_insertSelect rfl rfl rfl rfl (pairs_insert h fun r => sqlEq (r .style) (.int 2) || sqlEq (r .style) (.int 3))) ?_
    refine execAll_cons rfl ?_
    refine execAll_cons rfl ?_
    refine execAll_cons rfl ?_
    refine execAll_cons rfl ?_
    refine execAll_cons (d1 := (mkAt rows1).set .createList (some ⟨idList, l⟩)) ?_ ?_
    · rw [← h1]
      congr 1
      exact Db.ext' (fun t => by cases t <;> rfl) (fun i => by cases i <;> rfl)
    · exact congrArg some (Db.ext' (fun t => by cases t <;> rfl) (fun i => by cases i <;> rfl))
  · constructor
    · intro t
      cases t
      case node => intro s e; cases e; exact hns
      case createList => intro s e; cases e; exact h2
      case normalLink => intro s e; cases e; exact pairs_fits h _
      case stickyLink => intro s e; cases e; exact fits_filter (fits_filter (pairs_fits h _) _) _
      case groupLink => intro s e; cases e; exact ⟨by simp [setRows, rows1], by simp [setRows, rows1]⟩
      others h
    · intro _; omega
    · intro _; omega
    · intro _ _; omega
    · intro _ r hr
      exact h.mtime (by omega) r (List.mem_filter.1 hr).1
  · have e : ∀ r, nodeOf 15 r = nodeOf 14 r := fun r => rfl
    have e2 : nodeOf 15 = nodeOf 14 := funext e
    have en : ns.map (nodeOf 15) = ((rows .node).map (nodeOf 14)).filter fun n => n.type != .int 6 := by
      rw [e2, List.filter_map]
      simp only [ns, sqlEq_int]
      rfl
    have es : (stickies (rows .node) (rows .link)).map ends =
        (((rows .link).filter fun r => r .style == .int 2 || r .style == .int 3).map ends).filter
          fun l => !decide (IsGroup ((rows .node).map (nodeOf 14)) l.1) && !decide (IsGroup ((rows .node).map (nodeOf 14)) l.2) := by
      simp only [stickies, group_iff 14]
      simp only [List.filter_filter, List.filter_map, List.map_map, sqlEq_int]
      refine congr (congrArg _ (funext fun r => rfl)) ?_
      apply List.filter_congr
      intro r _
      show (!decide (IsGroup _ (r .toId)) && (!decide (IsGroup _ (r .fromId)) && _)) = (!decide (IsGroup _ (r .fromId)) && !decide (IsGroup _ (r .toId)) && _)
      simp only [Bool.and_assoc, Bool.and_left_comm]
    have em : (normals (rows .link)).map ends = ((rows .link).filter fun r => r .style == .int 1 || r .style == .int 3).map ends := by
      simp only [normals, List.map_map, sqlEq_int]
      rfl
    rw [en] at h3
    simp only [content, setRows, rows1, parseAll, dropGroups, if_pos, reduceCtorEq, if_false, en, es, em, h3]
    rfl

end Tup.Upgrade
