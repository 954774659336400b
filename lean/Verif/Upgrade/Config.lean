import Verif.Upgrade.Late

namespace Tup.Upgrade

theorem sqlEq_of_ne {x : Val} (h : x ≠ .null) (y : Val) : sqlEq x y = (x == y) := by
  simp [sqlEq, h]

theorem sqlEq_config (x : Val) : sqlEq x tupConfig = (x == tupConfig) := by
  rw [sqlEq_comm, sqlEq_of_ne (by simp [tupConfig])]
  exact BEq.comm

/-- The statement's row for `tup.config`. -/
def configRow : Row := rowOf [(.dir, .int 1), (.name, tupConfig), (.type, .int 5), (.mtime, .int (-1))]

/-- The same with its number. -/
def ghostRow (l : List Row) : Row := fun c => if c = .id then .int (nextKey l .id) else configRow c

/-- The rows with one for `tup.config`. -/
def addConfig (l : List Row) : List Row := if l.any (fun r => r .dir == .int 1 && r .name == tupConfig) then l else l ++ [ghostRow l]

theorem nextKey_le (k : Col) : ∀ (l : List Row) (m : Int),
    m ≤ l.foldl (maxKey k) m ∧
    ∀ r ∈ l, ∀ n, r k = .int n → n ≤ l.foldl (maxKey k) m := by
  intro l
  induction l with
  | nil => intro m; exact ⟨Int.le_refl _, by simp⟩
  | cons a l ih =>
    intro m
    simp only [List.foldl_cons]
    obtain ⟨h1, h2⟩ := ih (maxKey k m a)
    constructor
    · refine Int.le_trans ?_ h1
      unfold maxKey
      split
      · exact Int.le_max_left ..
      · exact Int.le_refl _
    · intro r hr n hn
      rcases List.mem_cons.1 hr with rfl | hr
      · refine Int.le_trans ?_ h1
        unfold maxKey
        rw [hn]
        exact Int.le_max_right ..
      · exact h2 r hr n hn

theorem nextKey_new {k : Col} {l : List Row} {r : Row} (h : r ∈ l) : r k ≠ .int (nextKey l k) := by
  intro e
  have := (nextKey_le k l 0).2 r h _ e
  unfold nextKey at this
  omega

theorem insert_config {l : List Row} (h : Fits (nodeAt 13) l) :
    insertRow .ignore (nodeAt 13) l configRow = some (addConfig l) ∧ Fits (nodeAt 13) (addConfig l) := by
  have hw : withKey (nodeAt 13) l configRow = ghostRow l := rfl
  have hm : (nodeAt 13).missing (ghostRow l) = false := by
    rw [missing_node (by omega)]
    simp [ghostRow, configRow, rowOf]
  have hc : ∀ r ∈ l, (nodeAt 13).clash (ghostRow l) r = (r .dir == .int 1 && r .name == tupConfig) := by
    intro r hr
    rw [clash_node (by omega)]
    have h1 : sqlEq (ghostRow l .id) (r .id) = false := by
      have : ghostRow l .id = .int (nextKey l .id) := rfl
      rw [this, sqlEq_comm, sqlEq_int, beq_eq_false_iff_ne]
      exact nextKey_new hr
    have h2 : sqlEq (ghostRow l .dir) (r .dir) = (r .dir == .int 1) := by
      show sqlEq (.int 1) (r .dir) = _
      rw [sqlEq_comm, sqlEq_int]
    have h3 : sqlEq (ghostRow l .name) (r .name) = (r .name == tupConfig) := by
      show sqlEq tupConfig (r .name) = _
      rw [sqlEq_comm, sqlEq_config]
    rw [h1, h2, h3, Bool.false_or]
  have ha : l.any ((nodeAt 13).clash (ghostRow l)) = l.any (fun r => r .dir == .int 1 && r .name == tupConfig) := by
    rw [Bool.eq_iff_iff]
    simp only [List.any_eq_true]
    constructor
    · rintro ⟨r, hr, e⟩; exact ⟨r, hr, by rw [← hc r hr]; exact e⟩
    · rintro ⟨r, hr, e⟩; exact ⟨r, hr, by rw [hc r hr]; exact e⟩
  simp only [insertRow, hw, hm, ha, addConfig, Bool.false_eq_true, if_false]
  split
  · exact ⟨rfl, h⟩
  · next hno =>
    refine ⟨rfl, ?_, ?_⟩
    · intro r hr
      rcases List.mem_append.1 hr with hr | hr
      · exact h.1 r hr
      · rw [List.mem_singleton.1 hr]; exact hm
    · rw [List.pairwise_append]
      refine ⟨h.2, by simp, ?_⟩
      intro a ha' b hb
      rw [List.mem_singleton.1 hb, clash_comm, hc a ha']
      simp only [List.any_eq_true, not_exists, not_and] at hno
      simpa using hno a ha'

/-- The nodes just before the variables are moved. -/
def before (l : List Row) : List Row := (addConfig l).map (setCol .srcid (.int (-1)))

theorem before_nodes (l : List Row) : (before l).map (nodeOf 14) = withTupConfig (l.map (nodeOf 13)) := by
  have e : ∀ r, nodeOf 14 (setCol .srcid (.int (-1)) r) = nodeOf 13 r := fun r => rfl
  have hk : nextKey l .id = newId (l.map (nodeOf 13)) := by
    unfold nextKey newId
    rw [List.foldl_map]
    rfl
  have ha : (l.map (nodeOf 13)).any isTupConfig = l.any (fun r => r .dir == .int 1 && r .name == tupConfig) := by
    rw [List.any_map]; rfl
  unfold before withTupConfig addConfig
  rw [List.map_map, show nodeOf 14 ∘ setCol .srcid (.int (-1)) = nodeOf 13 from funext e, ha]
  split
  · rfl
  · rw [List.map_append, ← hk]
    rfl

theorem before_fits {l : List Row} (h : Fits (nodeAt 13) l) : Fits (nodeAt 14) (before l) :=
  fits_map (v := 13) (w := 14) (by omega) (by omega) (fun r => ⟨rfl, rfl, rfl, rfl, rfl⟩) (insert_config h).2

theorem before_has (l : List Row) : ∃ t, (before l).find? (fun o => sqlEq (o .name) tupConfig && sqlEq (o .dir) (.int 1)) = some t := by
  have : ∃ r ∈ before l, (sqlEq (r .name) tupConfig && sqlEq (r .dir) (.int 1)) = true := by
    unfold before addConfig
    split
    · next h =>
      obtain ⟨r, hr, e⟩ := List.any_eq_true.1 h
      refine ⟨_, List.mem_map.2 ⟨r, hr, rfl⟩, ?_⟩
      show (sqlEq (r .name) tupConfig && sqlEq (r .dir) (.int 1)) = true
      rw [sqlEq_config, sqlEq_int, Bool.and_comm]
      exact e
    · exact ⟨_, List.mem_map.2 ⟨ghostRow l, by simp, rfl⟩, rfl⟩
  obtain ⟨r, hr, e⟩ := this
  cases hf : (before l).find? (fun o => sqlEq (o .name) tupConfig && sqlEq (o .dir) (.int 1)) with
  | some t => exact ⟨t, rfl⟩
  | none => exact absurd e (List.find?_eq_none.1 hf r hr)

theorem find_config (l : List Row) (t : Row) (h : (before l).find? (fun o => sqlEq (o .name) tupConfig && sqlEq (o .dir) (.int 1)) = some t) :
    (withTupConfig (l.map (nodeOf 13))).find? isTupConfig = some (nodeOf 14 t) := by
  rw [← before_nodes, List.find?_map]
  have : (isTupConfig ∘ nodeOf 14) = fun o => sqlEq (o .name) tupConfig && sqlEq (o .dir) (.int 1) := by
    funext o
    simp only [Function.comp, isTupConfig, nodeOf, sqlEq_config, sqlEq_int]
    exact Bool.and_comm ..
  rw [this, h]
  rfl

/-- A row after the variables are moved to the node `T`. -/
def move (T : Val) (r : Row) : Row := upd .dir (fun _ => T) (fun r => sqlEq (r .dir) (.int 2)) r

/-- A variable cannot be moved because of a node that is there already. -/
def Blocked (T : Val) (l : List Row) : Prop := ∃ a ∈ l, a .dir = .int 2 ∧ ∃ b ∈ l, b .dir ≠ .int 2 ∧ b .dir = T ∧ b .name = a .name ∧ a .name ≠ .null

theorem move_dir {T : Val} {l : List Row} (hT : T ≠ .null) (hb : Blocked T l) :
    updateRows (nodeAt 14) .dir (fun _ => T) (fun r => sqlEq (r .dir) (.int 2)) [] l = none := by
  obtain ⟨a, ha, ha2, b, hb, hb2, hbT, hn, hnn⟩ := hb
  refine updateRows_none (a := a) (u := b) (by simp [sqlEq_int, ha2]) (by simp [sqlEq_int, hb2]) ?_ ha (.inr hb)
  rw [clash_node (by omega), Bool.or_eq_true]
  right
  simp [upd, ha2, setCol, hbT, hn, sqlEq, hnn, hT]

theorem move_row (T : Val) (r : Row) : move T r .id = r .id ∧ move T r .name = r .name ∧ move T r .type = r .type ∧ move T r .mtime = r .mtime ∧
    move T r .srcid = r .srcid ∧ move T r .dir = if r .dir = .int 2 then T else r .dir := by
  simp only [move, upd, sqlEq_int, beq_iff_eq]
  split <;> simp_all [setCol]

theorem move_clash {T : Val} {l : List Row} (hb : ¬ Blocked T l) {x y : Row} (hx : x ∈ l) (hy : y ∈ l) (hd : x .dir = .int 2) (hc : (nodeAt 14).clash x y = false) :
    (nodeAt 14).clash (move T x) y = false ∧ (nodeAt 14).clash (move T x) (move T y) = false := by
  rw [clash_node (by omega)] at hc ⊢
  rw [clash_node (by omega)]
  obtain ⟨a1, a2, _, _, _, a6⟩ := move_row T x
  obtain ⟨b1, b2, _, _, _, b6⟩ := move_row T y
  rw [a1, a2, a6, b1, b2, b6, if_pos hd]
  simp only [Bool.or_eq_false_iff] at hc ⊢
  obtain ⟨c1, c2⟩ := hc
  rw [hd] at c2
  by_cases hy2 : y .dir = .int 2
  · rw [if_pos hy2]
    rw [hy2] at c2 ⊢
    have hn : sqlEq (x .name) (y .name) = false := by simpa [sqlEq] using c2
    simp [c1, hn]
  · rw [if_neg hy2]
    have hz : (sqlEq T (y .dir) && sqlEq (x .name) (y .name)) = false := by
      cases e : (sqlEq T (y .dir) && sqlEq (x .name) (y .name)) with
      | false => rfl
      | true =>
        exfalso
        simp only [sqlEq, Bool.and_eq_true, bne_iff_ne, ne_eq, beq_iff_eq] at e
        exact hb ⟨x, hx, hd, y, hy, hy2, e.1.2.symm, e.2.2.symm, e.2.1⟩
    exact ⟨⟨c1, hz⟩, c1, hz⟩

theorem move_ok {T : Val} {l : List Row} (hT : T ≠ .null) (hf : Fits (nodeAt 14) l) (hb : ¬ Blocked T l) :
    updateRows (nodeAt 14) .dir (fun _ => T) (fun r => sqlEq (r .dir) (.int 2)) [] l = some (l.map (move T)) ∧ Fits (nodeAt 14) (l.map (move T)) := by
  have hmiss : ∀ r ∈ l, (nodeAt 14).missing (move T r) = false := by
    intro r hr
    have := (missing_node (by omega) r).1 (hf.1 r hr)
    rw [missing_node (by omega)]
    obtain ⟨a1, a2, a3, a4, _, a6⟩ := move_row T r
    rw [a1, a3, a4, a6]
    refine ⟨this.1, ?_, this.2.2⟩
    split
    · exact hT
    · exact this.2.1
  constructor
  · have := updateRows_some (s := nodeAt 14) (c := .dir) (f := fun _ => T) (w := fun r => sqlEq (r .dir) (.int 2)) (rs := l) (done := []) ?_ ?_ ?_
    · rw [List.nil_append] at this; exact this
    · exact fun r hr _ => hmiss r hr
    · simp
    · refine hf.2.imp_of_mem ?_
      intro a b ha hb' hab
      refine ⟨fun hw => ?_, fun hw => ?_⟩
      · simp only [sqlEq_int, beq_iff_eq] at hw
        rw [clash_comm] at hab
        exact (move_clash hb hb' ha hw hab).2
      · simp only [sqlEq_int, beq_iff_eq] at hw
        exact (move_clash hb ha hb' hw hab).1
  · refine ⟨?_, ?_⟩
    · intro r hr
      obtain ⟨r0, hr0, rfl⟩ := List.mem_map.1 hr
      exact hmiss r0 hr0
    · rw [List.pairwise_map]
      refine hf.2.imp_of_mem ?_
      intro a b ha hb' hab
      by_cases h2 : a .dir = .int 2
      · exact (move_clash hb ha hb' h2 hab).2
      · by_cases h3 : b .dir = .int 2
        · rw [clash_comm] at hab ⊢
          exact (move_clash hb hb' ha h3 hab).2
        · have e : ∀ r : Row, r .dir ≠ .int 2 → move T r = r := by
            intro r hr; simp [move, upd, sqlEq_int, hr]
          rwa [e a h2, e b h3]

/-- The list of ids after node 2 has become `T`. -/
theorem moveId_rows {T : Val} {l : List Row} (hT : T ≠ .null) (hf : Fits idList l) :
    match moveId T (l.map (· .id)) with
    | none => updateRows idList .id (fun _ => T) (fun r => sqlEq (r .id) (.int 2)) [] l = none
    | some l' => ∃ rows, updateRows idList .id (fun _ => T) (fun r => sqlEq (r .id) (.int 2)) [] l = some rows ∧ rows.map (· .id) = l' ∧ Fits idList rows := by
  obtain ⟨hn, hd⟩ := fits_idList.1 hf
  unfold moveId
  by_cases hc : Val.int 2 ∈ l.map (· .id) ∧ T ∈ l.map (· .id) ∧ T ≠ .int 2
  · rw [if_pos hc]
    obtain ⟨h2, h3, h4⟩ := hc
    obtain ⟨a, ha, ea⟩ := List.mem_map.1 h2
    obtain ⟨b, hb, eb⟩ := List.mem_map.1 h3
    refine updateRows_none (a := a) (u := b) (by simp [sqlEq_int, ea]) (by simp [sqlEq_int, eb, h4]) ?_ ha (.inr hb)
    rw [clash_idList]
    simp [upd, ea, setCol, eb, sqlEq, hT]
  · rw [if_neg hc]
    let f := upd .id (fun _ => T) (fun r => sqlEq (r .id) (.int 2))
    have hfid : ∀ r, f r .id = if r .id = .int 2 then T else r .id := by
      intro r
      simp only [f, upd, sqlEq_int, beq_iff_eq]
      split <;> simp_all [setCol]
    have hnn : ∀ r ∈ l, f r .id ≠ .null := by
      intro r hr
      rw [hfid]
      split
      · exact hT
      · exact hn r hr
    have hcl : ∀ a ∈ l, ∀ b ∈ l, a .id = .int 2 → a .id ≠ b .id → idList.clash (f a) b = false ∧ idList.clash (f a) (f b) = false := by
      intro a ha b hb h2 hab
      have hb2 : b .id ≠ .int 2 := fun e => hab (h2.trans e.symm)
      have hTb : T ≠ b .id := by
        intro e
        exact hc ⟨List.mem_map.2 ⟨a, ha, h2⟩, List.mem_map.2 ⟨b, hb, e.symm⟩, e ▸ hb2⟩
      simp only [clash_idList, hfid, if_pos h2, if_neg hb2]
      simp [sqlEq, hTb]
    unfold List.Nodup at hd
    rw [List.pairwise_map] at hd
    refine ⟨l.map f, ?_, ?_, ?_⟩
    · have := updateRows_some (s := idList) (c := .id) (f := fun _ => T) (w := fun r => sqlEq (r .id) (.int 2)) (rs := l) (done := []) ?_ ?_ ?_
      · simpa using this
      · intro r hr _
        rw [missing_idList, beq_eq_false_iff_ne]
        exact hnn r hr
      · simp
      · refine hd.imp_of_mem ?_
        intro a b ha hb hab
        exact ⟨fun h2 => (hcl b hb a ha (by simpa [sqlEq_int] using h2) (Ne.symm hab)).2, fun h2 => (hcl a ha b hb (by simpa [sqlEq_int] using h2) hab).1⟩
    · rw [List.map_map, List.map_map]
      apply List.map_congr_left
      intro r _
      exact hfid r
    · refine ⟨?_, ?_⟩
      · intro r hr
        obtain ⟨r0, hr0, rfl⟩ := List.mem_map.1 hr
        rw [missing_idList, beq_eq_false_iff_ne]
        exact hnn r0 hr0
      · rw [List.pairwise_map]
        refine hd.imp_of_mem ?_
        intro a b ha hb hab
        by_cases h2 : a .id = .int 2
        · exact (hcl a ha b hb h2 hab).2
        · by_cases h3 : b .id = .int 2
          · rw [clash_comm]
            exact (hcl b hb a ha h3 (Ne.symm hab)).2
          · rw [clash_idList, hfid, hfid, if_neg h2, if_neg h3]
            simp [sqlEq, hab]

end Tup.Upgrade
