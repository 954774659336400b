import Verif.Ghosts.Spec

/-! One round of the loop. -/

namespace Tup.Ghosts

open Db

theorem ghosty_iff {db : Db} {i : Nat} :
    db.ghosty i = true ↔ ∃ n, db.node i = some n ∧ (n.kind = .ghost ∨ n.kind = .group ∨ n.kind = .generatedDir) := by
  unfold Db.ghosty
  rw [Bool.or_eq_true, Bool.or_eq_true, isKind_iff, isKind_iff, isKind_iff]
  constructor
  · rintro ((⟨n, h, h'⟩ | ⟨n, h, h'⟩) | ⟨n, h, h'⟩)
    · exact ⟨n, h, .inl h'⟩
    · exact ⟨n, h, .inr (.inl h')⟩
    · exact ⟨n, h, .inr (.inr h')⟩
  · rintro ⟨n, h, h' | h' | h'⟩
    · exact .inl (.inl ⟨n, h, h'⟩)
    · exact .inl (.inr ⟨n, h, h'⟩)
    · exact .inr ⟨n, h, h'⟩

theorem ghosty_congr {db db' : Db} {i : Nat} (h : db'.node i = db.node i) : db'.ghosty i = db.ghosty i := by
  simp only [Db.ghosty, isKind_congr h]

theorem anyId_iff {db : Db} {p : Nat → Bool} (h : ∀ j, p j = true → j < db.top) :
    anyId db p = true ↔ ∃ j, p j = true := by
  unfold anyId
  rw [List.any_eq_true]
  constructor
  · rintro ⟨j, _, h⟩; exact ⟨j, h⟩
  · rintro ⟨j, hj⟩; exact ⟨j, List.mem_range.2 (h j hj), hj⟩

theorem anyId_false {db : Db} {p : Nat → Bool} (h : ∀ j, p j = true → j < db.top) :
    anyId db p = false ↔ ∀ j, p j = false := by
  rw [Bool.eq_false_iff, ne_eq, anyId_iff h]
  constructor
  · intro hn j
    cases hj : p j with
    | false => rfl
    | true => exact absurd ⟨j, hj⟩ hn
  · rintro hn ⟨j, hj⟩
    rw [hn] at hj
    cases hj

theorem some_lt {db : Db} (hb : Bounded db) {i : Nat} (h : (db.node i).isSome = true) : i < db.top := by
  obtain ⟨n, hn⟩ := Option.isSome_iff_exists.1 h
  exact lt_top hb hn

/-- The test finds out whether something needs the entry. -/
theorem reclaimable_iff {ex : Nat} {db : Db} (hs : Sound ex db) {i : Nat} {n : Node} (hn : db.node i = some n)
    (hg : db.ghosty i = true) : reclaimable ex db i n = true ↔ ∀ j, ¬ Needs ex db j i := by
  have lt1 : ∀ j, db.normal j i = true → j < db.top := fun j h => some_lt hs.bounded (hs.normal j i h).1
  have lt2 : ∀ j, db.normal i j = true → j < db.top := fun j h => some_lt hs.bounded (hs.normal i j h).2
  have lt3 : ∀ j, db.sticky i j = true → j < db.top := fun j h => some_lt hs.bounded (hs.sticky i j h).2.1
  have lt4 : ∀ j, (db.normal i j || db.normal j i) = true → j < db.top := fun j h => by
    rcases (Bool.or_eq_true _ _).mp h with h | h
    · exact lt2 j h
    · exact lt1 j h
  obtain ⟨n', hn', hk⟩ := ghosty_iff.1 hg
  rw [hn] at hn'
  cases hn'
  unfold reclaimable
  by_cases he : n.dir = ex
  · rw [if_pos he, Bool.not_eq_true', anyId_false lt1]
    constructor
    · rintro h j (⟨h1, h2⟩ | ⟨h1, h2⟩ | ⟨h1, h2⟩ | ⟨h1, h2⟩ | ⟨h1, h2⟩ | ⟨h1, h2, h3⟩)
      · rw [hn] at h1; cases h1; exact h2 he
      · rw [hn] at h1; cases h1; exact h2 he
      · rw [hn] at h1; cases h1; exact h2 he
      · rw [hn] at h1; cases h1; exact h2 he
      · rw [hn] at h1; cases h1; exact h2 he
      · rw [h j] at h3; cases h3
    · intro h j
      cases hj : db.normal j i with
      | false => rfl
      | true => exact absurd (.excludes hn he hj) (h j)
  · rw [if_neg he]
    by_cases hgh : n.kind = .ghost ∨ n.kind = .generatedDir
    · rw [if_pos hgh, Bool.and_eq_true, Bool.not_eq_true', Bool.not_eq_true', anyId_false lt2]
      have hng : n.kind ≠ .group := by rcases hgh with h | h <;> rw [h] <;> decide
      constructor
      · rintro ⟨h, h'⟩ j hnd
        have hh : ¬ ∃ a m, db.node a = some m ∧ (decide (m.dir = i) || decide (m.src = some i)) = true := by
          rw [← anyNode_iff hs.bounded]
          unfold Db.hasGhosts at h
          rw [h]
          simp
        cases hnd with
        | inDir _ _ _ h4 h5 => exact hh ⟨j, _, h4, by simp [h5]⟩
        | fromDir _ _ _ h4 h5 => exact hh ⟨j, _, h4, by simp [h5]⟩
        | uses _ _ h3 => rw [h' j] at h3; cases h3
        | member h1 _ h3 _ => rw [hn] at h1; cases h1; exact hng h3
        | declares h1 _ h3 _ => rw [hn] at h1; cases h1; exact hng h3
        | excludes h1 h2 _ => rw [hn] at h1; cases h1; exact he h2
      · intro h
        refine ⟨?_, ?_⟩
        · rw [Bool.eq_false_iff, ne_eq, Db.hasGhosts, anyNode_iff hs.bounded]
          rintro ⟨a, m, h1, h2⟩
          simp only [Bool.or_eq_true, decide_eq_true_eq] at h2
          rcases h2 with h2 | h2
          · exact h a (.inDir hn he hng h1 h2)
          · exact h a (.fromDir hn he hng h1 h2)
        · intro j
          cases hj : db.normal i j with
          | false => rfl
          | true => exact absurd (.uses hn he hj) (h j)
    · rw [if_neg hgh, Bool.and_eq_true, Bool.not_eq_true', Bool.not_eq_true', anyId_false lt4, anyId_false lt3]
      have hgr : n.kind = .group := by
        rcases hk with h | h | h
        · exact absurd (.inl h) hgh
        · exact h
        · exact absurd (.inr h) hgh
      constructor
      · rintro ⟨h, h'⟩ j hnd
        cases hnd with
        | inDir h1 _ h3 _ _ => rw [hn] at h1; cases h1; exact h3 hgr
        | fromDir h1 _ h3 _ _ => rw [hn] at h1; cases h1; exact h3 hgr
        | uses _ _ h3 => have := h j; rw [h3] at this; cases this
        | member _ _ _ h4 => have := h j; rw [h4, Bool.or_true] at this; cases this
        | declares _ _ _ h4 => rw [h' j] at h4; cases h4
        | excludes h1 h2 _ => rw [hn] at h1; cases h1; exact he h2
      · intro h
        refine ⟨fun j => ?_, fun j => ?_⟩
        · rw [Bool.or_eq_false_iff]
          constructor
          · cases hj : db.normal i j with
            | false => rfl
            | true => exact absurd (.uses hn he hj) (h j)
          · cases hj : db.normal j i with
            | false => rfl
            | true => exact absurd (.member hn he hgr hj) (h j)
        · cases hj : db.sticky i j with
          | false => rfl
          | true => exact absurd (.declares hn he hgr hj) (h j)

/-- An entry that nothing needs has nothing in it. -/
theorem no_ghosts {ex : Nat} {db : Db} (hs : Sound ex db) {i : Nat} {n : Node} (hn : db.node i = some n)
    (hnd : ∀ j, ¬ Needs ex db j i) : db.hasGhosts i = false := by
  rw [Bool.eq_false_iff, ne_eq, Db.hasGhosts, anyNode_iff hs.bounded]
  rintro ⟨a, m, h1, h2⟩
  simp only [Bool.or_eq_true, decide_eq_true_eq] at h2
  by_cases hl : n.kind = .group ∨ n.dir = ex
  · obtain ⟨h3, h4⟩ := hs.leaf i n hn hl a m h1
    rcases h2 with h2 | h2
    · exact h3 h2
    · exact h4 h2
  · have h3 : n.kind ≠ .group := fun h => hl (.inl h)
    have h4 : n.dir ≠ ex := fun h => hl (.inr h)
    rcases h2 with h2 | h2
    · exact hnd a (.inDir hn h4 h3 h1 h2)
    · exact hnd a (.fromDir hn h4 h3 h1 h2)

/-- The deletion of an entry that nothing needs. -/
theorem delete_spec {ex : Nat} {db : Db} (hs : Sound ex db) {i : Nat} {n : Node} (hn : db.node i = some n)
    (hg : db.ghosty i = true) (hnd : ∀ j, ¬ Needs ex db j i) :
    let db' := db.deleteNameFile i
    db'.top = db.top ∧ (∀ j, db'.node j = if j = i then none else db.node j) ∧
    (∀ a b, db'.normal a b = (db.normal a b && !decide (a = i) && !decide (b = i))) ∧
    (∀ a b, db'.sticky a b = (db.sticky a b && !decide (a = i) && !decide (b = i))) ∧
    (∀ j, db'.create j = (db.create j && !decide (j = i))) ∧ (∀ j, db'.modify j = (db.modify j && !decide (j = i))) ∧
    (∀ j, db'.ghosts j = true ↔
      ((db.ghosts j = true ∨ ((db.normal j i = true ∨ db.normal i j = true) ∧ db.ghosty j = true) ∨
        (n.src = some j ∧ db.ghosty j = true) ∨ (j = n.dir ∧ db.ghosty j = true)) ∧ j ≠ i)) := by
  have hng := no_ghosts hs hn hnd
  obtain ⟨n', hn', hk⟩ := ghosty_iff.1 hg
  rw [hn] at hn'
  cases hn'
  have hgr : ∀ x : Db, x.node = db.node → x.top = db.top → x.sticky = db.sticky → x.normal = db.normal →
      x.flagGroupUsers i = x := by
    intro x h1 h2 h3 h4
    unfold Db.flagGroupUsers
    by_cases hgk : n.kind = .group
    · have hex : n.dir ≠ ex := fun h => hs.exclusion i n hn h hgk
      have hf : ∀ d, (x.anyNode fun j m => decide (m.dir = d) && (x.sticky i j || x.normal j i)) = false := by
        intro d
        have hbx : Bounded x := fun j hj => by rw [h1]; rw [h2] at hj; exact hs.bounded j hj
        rw [Bool.eq_false_iff, ne_eq, anyNode_iff hbx]
        rintro ⟨a, m, _, g⟩
        simp only [Bool.and_eq_true, Bool.or_eq_true, decide_eq_true_eq, h3, h4] at g
        rcases g.2 with g | g
        · exact hnd a (.declares hn hex hgk g)
        · exact hnd a (.member hn hex hgk g)
      split
      · simp only [hf, Bool.or_false]
      · rfl
    · have : x.isKind .group i = false := by
        rw [Bool.eq_false_iff, ne_eq, isKind_iff]
        rintro ⟨m, g1, g2⟩
        rw [h1, hn] at g1
        cases g1
        exact hgk g2
      rw [if_neg (by rw [this]; simp)]
  have hl : (db.unflagAll i).deleteLinks i = ((db.unflagAll i).ghostChecks i).dropLinks i := by
    unfold Db.deleteLinks
    rw [hgr ((db.unflagAll i).ghostChecks i) rfl rfl rfl rfl]
  generalize hx : ((db.unflagAll i).ghostChecks i).dropLinks i = x at hl
  intro db'
  have hdb' : db' = x.deleteNode i := by
    show db.deleteNameFile i = _
    rw [Db.deleteNameFile, hl]
  clear_value db'
  have xn : x.node = db.node := by rw [← hx]; rfl
  have xg : ∀ j, x.ghosty j = db.ghosty j := fun j => ghosty_congr (by rw [xn])
  have xgh : ∀ j, x.ghosts j = (db.ghosts j || ((db.normal j i || db.normal i j) && db.ghosty j)) := by
    intro j; rw [← hx]; rfl
  generalize hy : x.addGhostOf n.src = y
  have yn : y.node = db.node := by rw [← hy]; unfold Db.addGhostOf; split <;> exact xn
  have ygh : ∀ j, y.ghosts j = true ↔ x.ghosts j = true ∨ (n.src = some j ∧ db.ghosty j = true) := by
    intro j
    rw [← hy]
    cases n.src with
    | none => simp [Db.addGhostOf]
    | some s =>
      simp only [Db.addGhostOf, Db.addGhost, xg, Bool.or_eq_true, Bool.and_eq_true, decide_eq_true_eq, Option.some.injEq]
      constructor
      · rintro (h | ⟨rfl, h⟩)
        · exact .inl h
        · exact .inr ⟨rfl, h⟩
      · rintro (h | ⟨rfl, h⟩)
        · exact .inl h
        · exact .inr ⟨rfl, h⟩
  have ytop : y.top = db.top := by rw [← hy, ← hx]; unfold Db.addGhostOf; split <;> rfl
  have yhg : y.hasGhosts i = false := by
    unfold Db.hasGhosts Db.anyNode
    rw [ytop, yn]
    exact hng
  have hfin : db' = ({ y with node := fun j => if j = i then none else y.node j }.delGhost i).addGhost n.dir := by
    rw [hdb']
    unfold Db.deleteNode
    rw [xn, hn]
    simp only [hy]
    rw [if_neg (by rw [yhg]; simp)]
  have ynormal : y.normal = fun a b => db.normal a b && !decide (a = i) && !decide (b = i) := by
    rw [← hy, ← hx]; unfold Db.addGhostOf; split <;> rfl
  have ysticky : y.sticky = fun a b => db.sticky a b && !decide (a = i) && !decide (b = i) := by
    rw [← hy, ← hx]; unfold Db.addGhostOf; split <;> rfl
  have ycreate : y.create = fun j => db.create j && !decide (j = i) := by
    rw [← hy, ← hx]; unfold Db.addGhostOf; split <;> rfl
  have ymodify : y.modify = fun j => db.modify j && !decide (j = i) := by
    rw [← hy, ← hx]; unfold Db.addGhostOf; split <;> rfl
  have hnode : ∀ j, db'.node j = if j = i then none else db.node j := by
    intro j
    rw [hfin]
    show (if j = i then none else y.node j) = _
    rw [yn]
  refine ⟨by rw [hfin]; exact ytop, hnode, fun a b => by rw [hfin]; exact congrFun (congrFun ynormal a) b,
    fun a b => by rw [hfin]; exact congrFun (congrFun ysticky a) b, fun j => by rw [hfin]; exact congrFun ycreate j,
    fun j => by rw [hfin]; exact congrFun ymodify j, fun j => ?_⟩
  have h1 : db'.ghosts j = ((y.ghosts j && !decide (j = i)) || (decide (j = n.dir) &&
      db'.ghosty n.dir)) := by rw [hfin]; rfl
  have h2 : db'.ghosty n.dir = true ↔ db.ghosty n.dir = true ∧ n.dir ≠ i := by
    rw [ghosty_iff, ghosty_iff, hnode]
    by_cases hd : n.dir = i
    · rw [if_pos hd]
      simp [hd]
    · rw [if_neg hd]
      simp [hd]
  rw [h1]
  simp only [Bool.or_eq_true, Bool.and_eq_true, decide_eq_true_eq, Bool.not_eq_true', decide_eq_false_iff_not, h2, ygh, xgh]
  constructor
  · rintro (⟨(h | h) | h, h'⟩ | ⟨rfl, h, h'⟩)
    · exact ⟨.inl h, h'⟩
    · exact ⟨.inr (.inl h), h'⟩
    · exact ⟨.inr (.inr (.inl h)), h'⟩
    · exact ⟨.inr (.inr (.inr ⟨rfl, h⟩)), h'⟩
  · rintro ⟨h | h | h | ⟨rfl, h⟩, h'⟩
    · exact .inl ⟨.inl (.inl h), h'⟩
    · exact .inl ⟨.inl (.inr h), h'⟩
    · exact .inl ⟨.inr h, h'⟩
    · exact .inr ⟨rfl, h, h'⟩

end Tup.Ghosts
