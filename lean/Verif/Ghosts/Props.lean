import Verif.Ghosts.Run

/-! Entries that are not needed any more are removed, and no others (C40). -/

namespace Tup.Ghosts

open Db

variable {ex : Nat} {db db' : Db}

theorem reclaims_inv (hs : Sound ex db) (h : Reclaims ex db db') :
    Inv ex db db' (fun _ => false) ∧ ∀ j, db'.ghosts j = false := by
  obtain ⟨k, hk⟩ := h
  obtain ⟨d, h1, h2, h3⟩ := loop_inv hs (measure db fun _ => false) db (fun _ => false) (inv_init hs) (fun _ _ => rfl)
    (Nat.le_refl _)
  have a := loop_mono _ (measure db (fun _ => false) + 1) _ _ _ hk
  have b := loop_mono _ k _ _ _ h1
  rw [Nat.add_comm] at b
  rw [a] at b
  cases b
  exact ⟨h2, h3⟩

/-- The loop comes to an end, without an internal error. -/
theorem c40_terminates (hs : Sound ex db) : ∃ db', Reclaims ex db db' := by
  obtain ⟨d, h1, _⟩ := loop_inv hs (measure db fun _ => false) db (fun _ => false) (inv_init hs) (fun _ _ => rfl)
    (Nat.le_refl _)
  exact ⟨d, _, h1⟩

/-- Only entries that can go are removed: whatever is needed by something that stays, stays, with all its data. -/
theorem c40_safe (hs : Sound ex db) (h : Reclaims ex db db') (i : Nat) (n : Node) (hn : db.node i = some n) :
    (db'.node i = some n ∧ db'.create i = db.create i ∧ db'.modify i = db.modify i) ∨
      (db'.node i = none ∧ Dead ex db i) := by
  obtain ⟨hi, _⟩ := reclaims_inv hs h
  cases hx : db'.node i with
  | none => exact .inr ⟨rfl, hi.gone i (by rw [hn]; rfl) hx⟩
  | some m =>
    left
    have := hi.sub i m hx
    rw [hn] at this
    cases this
    exact ⟨rfl, hi.create i n hx, hi.modify i n hx⟩

/-- An entry is removed only when nothing that stays needs it. -/
theorem c40_needed (hs : Sound ex db) (h : Reclaims ex db db') {i j : Nat} (hi : (db.node i).isSome = true)
    (hn : Needs ex db j i) (hj : (db'.node j).isSome = true) : (db'.node i).isSome = true := by
  obtain ⟨inv, _⟩ := reclaims_inv hs h
  cases hx : db'.node i with
  | some m => rfl
  | none =>
    exfalso
    have hmono : ∀ (k : Nat) (d : Db) (t : Nat → Bool), Inv ex db d t → loop ex k d t = some (.done db') →
        (d.node j).isSome = true := by
      intro k
      induction k with
      | zero => intro d t _ hl; cases hl
      | succ k ih =>
        intro d t hd hl
        unfold loop at hl
        rcases round_inv hs hd with ⟨h1, _⟩ | ⟨d', t', h1, h2, _⟩
        · rw [h1] at hl
          cases hl
          exact hj
        · rw [h1] at hl
          have h3 := ih d' t' h2 hl
          rcases round_node (hd.sound hs) hd.listed h1 with h4 | ⟨a, _, h4⟩
          · rw [← h4]; exact h3
          · rw [h4] at h3
            split at h3
            · cases h3
            · exact h3
    have key : ∀ (k : Nat) (d : Db) (t : Nat → Bool), Inv ex db d t → (d.node i).isSome = true →
        loop ex k d t = some (.done db') → False := by
      intro k
      induction k with
      | zero => intro d t _ _ hl; cases hl
      | succ k ih =>
        intro d t hd hdi hl
        have hdj := hmono _ d t hd hl
        unfold loop at hl
        rcases round_inv hs hd with ⟨h1, _⟩ | ⟨d', t', h1, h2, _⟩
        · rw [h1] at hl
          cases hl
          rw [hx] at hdi
          cases hdi
        · rw [h1] at hl
          by_cases hdi' : (d'.node i).isSome = true
          · exact ih d' t' h2 hdi' hl
          · rcases round_node (hd.sound hs) hd.listed h1 with h4 | ⟨a, ha, h4⟩
            · rw [h4] at hdi'; exact hdi' hdi
            · by_cases hia : i = a
              · subst hia
                obtain ⟨n, hni⟩ := Option.isSome_iff_exists.1 hdi
                rcases hd.needs' hs hni hn with g | ⟨_, g⟩
                · exact ha j g
                · rw [g] at hdj; cases hdj
              · rw [h4, if_neg hia] at hdi'; exact hdi' hdi
    obtain ⟨k, hk⟩ := h
    exact key k db (fun _ => false) (inv_init hs) hi hk

/-- Links between entries that stay are kept, and there are no others. -/
theorem c40_links (hs : Sound ex db) (h : Reclaims ex db db') (a b : Nat) :
    (db'.normal a b = true ↔ db.normal a b = true ∧ (db'.node a).isSome = true ∧ (db'.node b).isSome = true) ∧
    (db'.sticky a b = true ↔ db.sticky a b = true ∧ (db'.node a).isSome = true ∧ (db'.node b).isSome = true) := by
  obtain ⟨hi, _⟩ := reclaims_inv hs h
  exact ⟨hi.normal a b, hi.sticky a b⟩

/-- Nothing is scheduled by the removal. -/
theorem c40_quiet (hs : Sound ex db) (h : Reclaims ex db db') (j : Nat) :
    (db'.create j = true → db.create j = true) ∧ (db'.modify j = true → db.modify j = true) := by
  obtain ⟨hi, _⟩ := reclaims_inv hs h
  exact ⟨hi.create' j, hi.modify' j⟩

/-- If the list has every placeholder that nothing needs, then exactly the entries that can go are removed, including
those that become free by the removal of others; and afterwards none is left. -/
theorem c40_exact (hs : Sound ex db) (hc : Covered ex db) (h : Reclaims ex db db') :
    (∀ i, (db.node i).isSome = true → (db'.node i = none ↔ Dead ex db i)) ∧
    (∀ i, ¬ Dead ex db' i) ∧ Sound ex db' ∧ Covered ex db' := by
  obtain ⟨hi, hg⟩ := reclaims_inv hs h
  have hnone : ∀ i, Placeholder db' i → ¬ ∀ j, ¬ Needs ex db' j i := by
    intro i hp hn
    rcases hi.covered hc i hp hn with k | k
    · rw [hg] at k; cases k
    · cases k
  have hdead : ∀ i, Dead ex db i → db'.node i = none := by
    intro i hd
    induction hd with
    | @mk i hp hall ih =>
      cases hx : db'.node i with
      | none => rfl
      | some n =>
        exfalso
        obtain ⟨m, h1, h2⟩ := hp
        have h3 := hi.sub i n hx
        rw [h1] at h3
        cases h3
        refine hnone i ⟨_, hx, h2⟩ fun j hj => ?_
        have h4 := ih j (hi.needs hj)
        -- what needs an entry exists
        have h5 : (db'.node j).isSome = true := by
          cases hj with
          | inDir _ _ _ g _ => rw [g]; rfl
          | fromDir _ _ _ g _ => rw [g]; rfl
          | uses _ _ g => exact ((hi.normal _ _).1 g).2.2
          | member _ _ _ g => exact ((hi.normal _ _).1 g).2.1
          | declares _ _ _ g => exact ((hi.sticky _ _).1 g).2.2
          | excludes _ _ g => exact ((hi.normal _ _).1 g).2.1
        rw [h4] at h5
        cases h5
  refine ⟨fun i hs' => ⟨fun hn => hi.gone i hs' hn, hdead i⟩, ?_, hi.sound hs, ?_⟩
  · intro i hd
    induction hd with
    | @mk i hp hall ih =>
      exact hnone i hp fun j hj => ih j hj
  · intro i hp hn
    exact absurd hn (hnone i hp)

/-! ## An example: directory 3 was made by tup, its subdirectory 4 is a ghost with the ghost 5 in it, which command 9
does not use any more; ghost 6 is used by command 9, and group 7 has no members -/

/-- A database for the example; `ex` is 2. -/
def exDb : Db where
  node := fun i =>
    match i with
    | 1 => some { dir := 0, kind := .dir, name := ['.'] }
    | 3 => some { dir := 1, kind := .generatedDir, name := ['d'] }
    | 4 => some { dir := 3, kind := .ghost, name := ['e'] }
    | 5 => some { dir := 4, kind := .ghost, name := ['f'] }
    | 6 => some { dir := 1, kind := .ghost, name := ['g'] }
    | 7 => some { dir := 1, kind := .group, name := ['<', 'g', '>'] }
    | 9 => some { dir := 1, kind := .cmd, name := ['c'] }
    | _ => none
  top := 10
  normal := fun a b => a == 6 && b == 9
  sticky := fun _ _ => false
  group := fun _ _ _ => false
  vars := fun _ => none
  config := fun _ => false
  create := fun _ => false
  modify := fun j => j == 9
  variant := fun _ => false
  transient := fun _ => false
  ghosts := fun j => j == 5 || j == 6 || j == 7

theorem exSound : Sound 2 exDb where
  bounded := by
    intro i hi
    have : (10 : Nat) ≤ i := hi
    show (match i with | 1 => _ | 3 => _ | 4 => _ | 5 => _ | 6 => _ | 7 => _ | 9 => _ | _ => _) = _
    split <;> first | omega | rfl
  normal := by
    intro a b h
    simp only [exDb, Bool.and_eq_true, beq_iff_eq] at h
    rw [h.1, h.2]
    decide
  sticky := fun a b h => by cases h
  leaf := by
    intro i n hn hl j m hm
    simp only [exDb] at hn hm
    split at hn <;> cases hn <;> simp at hl
    split at hm <;> cases hm <;> simp
  exclusion := by
    intro i n hn hl
    simp only [exDb] at hn
    split at hn <;> cases hn <;> simp at hl
  listed := by
    intro i h
    simp only [exDb, Bool.or_eq_true, beq_iff_eq] at h
    rcases h with (h | h) | h <;> subst h <;> decide

example : Dead 2 exDb 3 := by
  have h5 : Dead 2 exDb 5 := by
    refine .mk ⟨_, rfl, by decide, by decide⟩ fun j hj => ?_
    exfalso
    cases hj with
    | inDir _ _ _ h h' => simp only [exDb] at h; split at h <;> cases h <;> simp at h'
    | fromDir _ _ _ h h' => simp only [exDb] at h; split at h <;> cases h <;> simp at h'
    | uses _ _ h => simp [exDb] at h
    | member _ _ _ h => simp [exDb] at h
    | declares _ _ _ h => simp [exDb] at h
    | excludes _ _ h => simp [exDb] at h
  have h4 : Dead 2 exDb 4 := by
    refine .mk ⟨_, rfl, by decide, by decide⟩ fun j hj => ?_
    cases hj with
    | inDir _ _ _ h h' => simp only [exDb] at h; split at h <;> cases h <;> first | exact h5 | simp at h'
    | fromDir _ _ _ h h' => simp only [exDb] at h; split at h <;> cases h <;> simp at h'
    | uses _ _ h => simp [exDb] at h
    | member _ _ _ h => simp [exDb] at h
    | declares _ _ _ h => simp [exDb] at h
    | excludes _ _ h => simp [exDb] at h
  refine .mk ⟨_, rfl, by decide, by decide⟩ fun j hj => ?_
  cases hj with
  | inDir _ _ _ h h' => simp only [exDb] at h; split at h <;> cases h <;> first | exact h4 | simp at h'
  | fromDir _ _ _ h h' => simp only [exDb] at h; split at h <;> cases h <;> simp at h'
  | uses _ _ h => simp [exDb] at h
  | member _ _ _ h => simp [exDb] at h
  | declares _ _ _ h => simp [exDb] at h
  | excludes _ _ h => simp [exDb] at h

/-- The entries 3, 4, 5 and 7 are removed, 6 and 9 stay. -/
example : (match loop 2 20 exDb (fun _ => false) with
    | some (.done d) => (List.range 10).map fun i => (d.node i).isSome
    | _ => []) = [false, true, false, false, false, false, true, false, false, true] := by
  decide +kernel

end Tup.Ghosts
