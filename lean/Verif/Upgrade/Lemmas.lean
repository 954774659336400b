import Verif.Upgrade.Spec

namespace Tup.Upgrade

theorem Db.ext' {a b : Db} (h1 : ∀ t, a.tables t = b.tables t) (h2 : ∀ i, a.indexes i = b.indexes i) : a = b := by
  cases a; cases b
  simp only [Db.mk.injEq]
  exact ⟨funext h1, funext h2⟩

theorem sqlEq_comm (a b : Val) : sqlEq a b = sqlEq b a := by
  rw [Bool.eq_iff_iff]
  simp only [sqlEq, Bool.and_eq_true, bne_iff_ne, ne_eq, beq_iff_eq]
  constructor <;> (rintro ⟨h, rfl⟩; exact ⟨h, rfl⟩)

theorem sameIn_comm (cs : List Col) (a b : Row) : sameIn cs a b = sameIn cs b a := by
  simp only [sameIn]
  congr 1
  funext c
  exact sqlEq_comm ..

theorem clash_comm (s : Schema) (a b : Row) : s.clash a b = s.clash b a := by
  simp only [Schema.clash]
  congr 1
  funext c
  exact sameIn_comm ..

/-- The rows of one table changed. -/
def setRows (rows : Tab → List Row) (t : Tab) (l : List Row) : Tab → List Row := fun u => if u = t then l else rows u

/-- A row with another value in one column. -/
def setCol (c : Col) (v : Val) (r : Row) : Row := fun k => if k = c then v else r k

theorem execAll_cons {d d1 : Db} {s : Stmt} {r : List Stmt} {x : Option Db} (h : exec d s = some d1) (h2 : execAll d1 r = x) :
    execAll d (s :: r) = x := by
  simp only [execAll, h, h2]

theorem execAll_fail {d : Db} {s : Stmt} {r : List Stmt} (h : exec d s = none) : execAll d (s :: r) = none := by
  simp only [execAll, h]

theorem exec_insertSelect {d : Db} {o : Or} {into src : Tab} {cs : List Col} {w : Cond} {x y : Table} {rows : List Row}
    (h1 : d.tables into = some x) (h2 : d.tables src = some y) (h3 : (cs.all y.schema.cols.contains && w.ok d y.schema.cols) = true)
    (h4 : cs.length = x.schema.cols.length)
    (h5 : insertRows o x.schema x.rows ((y.rows.filter fun r => w.holds d r).map fun r => rowOf (x.schema.cols.zip (cs.map r))) = some rows) :
    exec d (.insertSelect o into src cs w) = some (d.set into (some ⟨x.schema, rows⟩)) := by
  simp [exec, h1, h2, h3, h4, h5]

theorem exec_update {d : Db} {t : Tab} {c : Col} {e : Expr} {w : Cond} {x : Table} (h1 : d.tables t = some x)
    (h3 : (x.schema.cols.contains c && e.ok d x.schema.cols && w.ok d x.schema.cols) = true) :
    exec d (.update t c e w) = (updateRows x.schema c (fun r => e.value d r) (fun r => w.holds d r) [] x.rows).map fun rows => d.set t (some ⟨x.schema, rows⟩) := by
  simp only [exec, h1, h3, Bool.not_true, Bool.false_eq_true, if_false]

theorem withKey_id {s : Schema} {rows : List Row} {r : Row} (h : ∀ k, s.key = some k → r k ≠ .null) : withKey s rows r = r := by
  unfold withKey
  split
  · rfl
  · next k e => rw [if_neg (h k e)]

theorem insertRows_all {o : Or} {s : Schema} {rs : List Row} : ∀ {rows : List Row}, (∀ r ∈ rs, s.missing r = false) →
    (∀ r ∈ rs, ∀ k, s.key = some k → r k ≠ .null) → (rows ++ rs).Pairwise (fun a b => s.clash a b = false) →
    insertRows o s rows rs = some (rows ++ rs) := by
  induction rs with
  | nil => intro rows _ _ _; simp [insertRows]
  | cons r rs ih =>
    intro rows hm hk hp
    have hno : rows.any (s.clash r) = false := by
      rw [List.any_eq_false]
      intro x hx
      have := (List.pairwise_append.1 hp).2.2 x hx r (List.mem_cons_self ..)
      rw [clash_comm] at this
      simp [this]
    have hw := withKey_id (rows := rows) (hk r (List.mem_cons_self ..))
    simp only [insertRows, insertRow, hw, hm r (List.mem_cons_self ..), hno, Bool.false_eq_true, if_false]
    rw [ih (fun x hx => hm x (List.mem_cons_of_mem _ hx)) (fun x hx => hk x (List.mem_cons_of_mem _ hx)) (by simpa using hp)]
    simp

theorem clash_idList (a b : Row) : idList.clash a b = sqlEq (a .id) (b .id) := by
  simp [Schema.clash, idList, sameIn]

theorem missing_idList (a : Row) : idList.missing a = (a .id == .null) := by
  simp [Schema.missing, idList]

theorem fits_idList {rows : List Row} : Fits idList rows ↔ (∀ r ∈ rows, r .id ≠ .null) ∧ (rows.map (· .id)).Nodup := by
  unfold Fits List.Nodup
  simp only [clash_idList, missing_idList, List.pairwise_map, beq_eq_false_iff_ne, ne_eq]
  constructor
  · rintro ⟨h1, h2⟩
    refine ⟨h1, h2.imp_of_mem ?_⟩
    intro a b ha _ h e
    simp [sqlEq, e] at h
    exact h1 a ha (by rw [e]; exact h)
  · rintro ⟨h1, h2⟩
    refine ⟨h1, h2.imp ?_⟩
    intro a b h
    simp [sqlEq, h]

theorem replace_ids {rs : List Row} : ∀ {rows : List Row}, (∀ r ∈ rs, r .id ≠ .null) → (rs.map (· .id)).Nodup →
    ∃ rows', insertRows .replace idList rows rs = some rows' ∧
      rows'.map (· .id) = (rows.map (· .id)).filter (fun x => !(rs.map (· .id)).contains x) ++ rs.map (· .id) := by
  induction rs with
  | nil => intro rows _ _; exact ⟨rows, rfl, by rw [List.filter_eq_self.2 (by simp)]; simp⟩
  | cons r rs ih =>
    intro rows hn hd
    simp only [List.map_cons, List.nodup_cons] at hd
    have hr := hn r (List.mem_cons_self ..)
    have hw : withKey idList rows r = r := withKey_id (by intro k e; cases e; exact hr)
    have hins : ∃ rows1, insertRow .replace idList rows r = some rows1 ∧ rows1 = rows.filter (fun x => !idList.clash r x) ++ [r] := by
      simp only [insertRow, hw, missing_idList, beq_eq_false_iff_ne.2 hr, Bool.false_eq_true, if_false]
      split
      · exact ⟨_, rfl, rfl⟩
      · next h =>
        refine ⟨_, rfl, ?_⟩
        rw [List.filter_eq_self.2]
        intro x hx
        simp only [List.any_eq_true, not_exists, not_and, Bool.not_eq_true] at h
        simp [h x hx]
    obtain ⟨rows1, h1, h2⟩ := hins
    obtain ⟨rows', h3, h4⟩ := ih (rows := rows1) (fun x hx => hn x (List.mem_cons_of_mem _ hx)) hd.2
    refine ⟨rows', by simp only [insertRows, h1, h3], ?_⟩
    rw [h4, h2]
    simp only [List.map_append, List.map_cons, List.map_nil, List.filter_append]
    have e1 : List.filter (fun x => !(rs.map (· .id)).contains x) [r .id] = [r .id] := by
      simp only [List.filter_cons, List.filter_nil]
      rw [if_pos]
      simp only [Bool.not_eq_true', List.contains_eq_mem, decide_eq_false_iff_not]
      exact hd.1
    rw [e1, List.append_assoc]
    congr 1
    rw [List.filter_map, List.filter_map, List.filter_filter]
    congr 1
    apply List.filter_congr
    intro x _
    simp only [Function.comp, clash_idList, List.contains_cons, Bool.not_or]
    rw [Bool.and_comm]
    congr 1
    rw [sqlEq_comm]
    rw [Bool.eq_iff_iff]
    simp only [sqlEq, Bool.not_eq_true', Bool.and_eq_false_iff, bne_eq_false_iff_eq, beq_eq_false_iff_ne, ne_eq]
    constructor
    · rintro (h | h)
      · intro e; exact hr (e ▸ h)
      · exact h
    · exact .inr

/-- A row after `update`. -/
def upd (c : Col) (f : Row → Val) (w : Row → Bool) (r : Row) : Row := if w r then setCol c (f r) r else r

theorem updateRows_some {s : Schema} {c : Col} {f : Row → Val} {w : Row → Bool} : ∀ {rs done : List Row},
    (∀ r ∈ rs, w r = true → s.missing (upd c f w r) = false) →
    (∀ d ∈ done, ∀ r ∈ rs, w r = true → s.clash (upd c f w r) d = false) →
    rs.Pairwise (fun a b => (w b = true → s.clash (upd c f w b) (upd c f w a) = false) ∧ (w a = true → s.clash (upd c f w a) b = false)) →
    updateRows s c f w done rs = some (done ++ rs.map (upd c f w)) := by
  intro rs
  induction rs with
  | nil => intro done _ _ _; simp [updateRows]
  | cons r rs ih =>
    intro done hm hd hp
    obtain ⟨hp1, hp2⟩ := List.pairwise_cons.1 hp
    unfold updateRows
    by_cases hw : w r = true
    · rw [if_pos hw]
      have e : (fun k => if k = c then f r else r k) = upd c f w r := by simp only [upd, hw, if_true]; rfl
      simp only [e]
      have h1 : s.missing (upd c f w r) = false := hm r (List.mem_cons_self ..) hw
      have h2 : (done ++ rs).any (s.clash (upd c f w r)) = false := by
        rw [List.any_eq_false]
        intro x hx
        rcases List.mem_append.1 hx with hx | hx
        · simp [hd x hx r (List.mem_cons_self ..) hw]
        · simp [(hp1 x hx).2 hw]
      rw [h1, h2]
      simp only [Bool.or_self, Bool.false_eq_true, if_false]
      rw [ih (fun x hx => hm x (List.mem_cons_of_mem _ hx)) ?_ hp2]
      · simp
      · intro d hdm x hx hwx
        rcases List.mem_append.1 hdm with hdm | hdm
        · exact hd d hdm x (List.mem_cons_of_mem _ hx) hwx
        · rw [List.mem_singleton.1 hdm]
          exact (hp1 x hx).1 hwx
    · rw [if_neg hw]
      have e : upd c f w r = r := by simp [upd, hw]
      rw [ih (fun x hx => hm x (List.mem_cons_of_mem _ hx)) ?_ hp2]
      · simp [e]
      · intro d hdm x hx hwx
        rcases List.mem_append.1 hdm with hdm | hdm
        · exact hd d hdm x (List.mem_cons_of_mem _ hx) hwx
        · rw [List.mem_singleton.1 hdm]
          have := (hp1 x hx).1 hwx
          rwa [e] at this

theorem updateRows_none {s : Schema} {c : Col} {f : Row → Val} {w : Row → Bool} {a u : Row} (hwa : w a = true) (hwu : w u = false)
    (hc : s.clash (upd c f w a) u = true) : ∀ {rs done : List Row}, a ∈ rs → (u ∈ done ∨ u ∈ rs) → updateRows s c f w done rs = none := by
  intro rs
  induction rs with
  | nil => intro done h; cases h
  | cons r rs ih =>
    intro done ha hu
    unfold updateRows
    by_cases hw : w r = true
    · rw [if_pos hw]
      have e : (fun k => if k = c then f r else r k) = upd c f w r := by simp only [upd, hw, if_true]; rfl
      simp only [e]
      have hur : u ≠ r := by rintro rfl; rw [hw] at hwu; cases hwu
      have hu' : u ∈ done ∨ u ∈ rs := by
        rcases hu with hu | hu
        · exact .inl hu
        · rcases List.mem_cons.1 hu with hu | hu
          · exact absurd hu hur
          · exact .inr hu
      by_cases hx : (s.missing (upd c f w r) || (done ++ rs).any (s.clash (upd c f w r))) = true
      · rw [if_pos hx]
      · rw [if_neg hx]
        rcases List.mem_cons.1 ha with ha | ha
        · exfalso
          apply hx
          rw [← ha, Bool.or_eq_true]
          right
          rw [List.any_eq_true]
          exact ⟨u, List.mem_append.2 hu', hc⟩
        · exact ih ha (hu'.imp (fun h => List.mem_append_left _ h) id)
    · rw [if_neg hw]
      have har : a ≠ r := by rintro rfl; exact hw hwa
      have ha' : a ∈ rs := by
        rcases List.mem_cons.1 ha with h | h
        · exact absurd h har
        · exact h
      refine ih ha' ?_
      rcases hu with hu | hu
      · exact .inl (List.mem_append_left _ hu)
      · rcases List.mem_cons.1 hu with hu | hu
        · exact .inl (List.mem_append_right _ (by simp [hu]))
        · exact .inr hu

end Tup.Upgrade
