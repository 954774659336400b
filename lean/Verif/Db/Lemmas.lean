import Verif.Db.Model

/-! Lemmas about the database model. -/

namespace Tup.Db

/-- The ids of all rows are below the bound. -/
def Bounded (db : Db) : Prop := ∀ i, db.top ≤ i → db.node i = none

/-- `unique(dir, name)`, src/tup/db.c:313. -/
def Unique (db : Db) : Prop :=
  ∀ i j n m, db.node i = some n → db.node j = some m → n.dir = m.dir → n.name = m.name → i = j

theorem isKind_iff {db : Db} {k : Kind} {i : Nat} :
    db.isKind k i = true ↔ ∃ n, db.node i = some n ∧ n.kind = k := by
  unfold Db.isKind
  cases h : db.node i with
  | none => simp
  | some n => simp

theorem isKind_congr {db db' : Db} {i : Nat} (h : db'.node i = db.node i) (k : Kind) : db'.isKind k i = db.isKind k i := by
  simp only [Db.isKind, h]

theorem lt_top {db : Db} (hb : Bounded db) {i : Nat} {n : Node} (h : db.node i = some n) : i < db.top := by
  by_cases hi : i < db.top
  · exact hi
  · rw [hb i (by omega)] at h; cases h

theorem select_some {db : Db} {d : Nat} {name : Str} {i : Nat} (h : db.select d name = some i) :
    ∃ n, db.node i = some n ∧ n.dir = d ∧ n.name = name := by
  have := List.find?_some h
  cases hn : db.node i with
  | none => rw [hn] at this; cases this
  | some n =>
    rw [hn] at this
    simp only [Bool.and_eq_true, decide_eq_true_eq] at this
    exact ⟨n, rfl, this⟩

theorem select_none {db : Db} (hb : Bounded db) {d : Nat} {name : Str} (h : db.select d name = none) {i : Nat} {n : Node}
    (hn : db.node i = some n) (hd : n.dir = d) : n.name ≠ name := by
  intro he
  have := List.find?_eq_none.1 h i (List.mem_range.2 (lt_top hb hn))
  rw [hn] at this
  simp [hd, he] at this

theorem select_eq {db : Db} (hb : Bounded db) (hu : Unique db) {i : Nat} {n : Node} (hn : db.node i = some n) :
    db.select n.dir n.name = some i := by
  cases h : db.select n.dir n.name with
  | none => exact absurd rfl (select_none hb h hn rfl)
  | some j =>
    obtain ⟨m, h1, h2, h3⟩ := select_some h
    rw [hu i j n m hn h1 h2.symm h3.symm]

theorem fresh_none {node : Nat → Option Node} {t : Nat} (h : ∀ i, t ≤ i → node i = none) :
    ∀ i, fresh node t ≤ i → node i = none := by
  induction t with
  | zero => intro i _; exact h i (Nat.zero_le _)
  | succ n ih =>
    unfold fresh
    split
    · exact h
    · rename_i hn
      apply ih
      intro i hi
      by_cases hin : i = n
      · subst hin
        cases hx : node i with
        | none => rfl
        | some x => rw [hx] at hn; simp at hn
      · exact h i (by omega)

theorem fresh_node {db : Db} (hb : Bounded db) : db.node (fresh db.node db.top) = none :=
  fresh_none hb _ (Nat.le_refl _)

theorem anyNode_iff {db : Db} (hb : Bounded db) {p : Nat → Node → Bool} :
    db.anyNode p = true ↔ ∃ i n, db.node i = some n ∧ p i n = true := by
  unfold Db.anyNode
  rw [List.any_eq_true]
  constructor
  · rintro ⟨i, _, h⟩
    cases hn : db.node i with
    | none => rw [hn] at h; cases h
    | some n => rw [hn] at h; exact ⟨i, n, hn, h⟩
  · rintro ⟨i, n, hn, h⟩
    refine ⟨i, List.mem_range.2 (lt_top hb hn), ?_⟩
    rw [hn]
    exact h

/-- What `deleteNameFile` does to a node that is neither a group nor a directory. -/
theorem deleteNameFile_spec {db : Db} {i : Nat} {n : Node} (hn : db.node i = some n) (hg : n.kind ≠ .group)
    (hd : n.kind ≠ .dir) :
    let db' := db.deleteNameFile i
    (∀ j, db'.create j = (db.create j && !decide (j = i))) ∧ (∀ j, db'.modify j = (db.modify j && !decide (j = i))) ∧
    (∀ j, db'.config j = (db.config j && !decide (j = i))) ∧
    (∀ a b, db'.normal a b = (db.normal a b && !decide (a = i) && !decide (b = i))) ∧
    (∀ a b, db'.sticky a b = (db.sticky a b && !decide (a = i) && !decide (b = i))) ∧
    db'.vars = db.vars ∧ db'.top = db.top ∧ (∀ j, j ≠ i → db'.node j = db.node j) ∧
    (db'.node i = none ∨ db'.node i = some { n with kind := .ghost, src := none }) := by
  have hgk : ∀ x : Db, x.node = db.node → x.isKind .group i = false := by
    intro x hx
    cases h : x.isKind .group i with
    | false => rfl
    | true =>
      obtain ⟨m, h1, h2⟩ := isKind_iff.1 h
      rw [hx, hn] at h1
      cases h1
      exact absurd h2 hg
  have hl : (db.unflagAll i).deleteLinks i = ((db.unflagAll i).ghostChecks i).dropLinks i := by
    unfold Db.deleteLinks Db.flagGroupUsers
    rw [hgk ((db.unflagAll i).ghostChecks i) rfl]
    rfl
  intro db'
  have hdb' : db' = (((db.unflagAll i).ghostChecks i).dropLinks i).deleteNode i := by
    show db.deleteNameFile i = _
    rw [Db.deleteNameFile, hl]
  clear_value db'
  subst hdb'
  have hn' : (((db.unflagAll i).ghostChecks i).dropLinks i).node i = some n := hn
  unfold Db.deleteNode
  rw [hn']
  simp only
  cases hs : n.src <;> simp only [if_neg hd, Db.addGhostOf] <;> split
  all_goals
    refine ⟨fun _ => rfl, fun _ => rfl, fun _ => rfl, fun _ _ => rfl, fun _ _ => rfl, rfl, rfl, ?_, ?_⟩
    · intro j hj
      first
        | (show (if j = i then _ else if j = i then _ else db.node j) = _; rw [if_neg hj, if_neg hj])
        | (show (if j = i then _ else db.node j) = _; rw [if_neg hj])
    · first
        | (right
           show (if i = i then (if i = i then (db.node i).map _ else _).map _ else _) = _
           rw [if_pos rfl, if_pos rfl, hn]
           rfl)
        | (left
           show (if i = i then none else _) = none
           rw [if_pos rfl])

end Tup.Db
