import Verif.Cache.Spec

/-! Lemmas about the entries. -/

namespace Tup.Cache

open Tup.Db (Kind)

theorem select_some {t : Table} {d : Nat} {n : Str} {i : Nat} (h : t.select d n = some i) : ∃ r, t.row i = some r ∧ r.dir = d ∧ r.name = n := by
  have := List.find?_some h
  cases hr : t.row i with
  | none => rw [hr] at this; cases this
  | some r =>
    rw [hr] at this
    simp only [Bool.and_eq_true, decide_eq_true_eq] at this
    exact ⟨r, rfl, this⟩

theorem select_none {t : Table} (ht : Sound t) {d : Nat} {n : Str} (h : t.select d n = none) {i : Nat} {r : Row} (hr : t.row i = some r) (hd : r.dir = d) : r.name ≠ n := by
  intro he
  have hlt : i < t.top := by
    by_cases hi : i < t.top
    · exact hi
    · rw [ht.bound i (by omega)] at hr; cases hr
  have := List.find?_eq_none.1 h i (List.mem_range.2 hlt)
  rw [hr] at this
  simp [hd, he] at this

theorem select_eq {t : Table} (ht : Sound t) {i : Nat} {r : Row} (hr : t.row i = some r) : t.select r.dir r.name = some i := by
  cases h : t.select r.dir r.name with
  | none => exact absurd rfl (select_none ht h hr rfl)
  | some j =>
    obtain ⟨q, h1, h2, h3⟩ := select_some h
    rw [ht.unique i j r q hr h1 h2.symm h3.symm]

theorem fresh_none {row : Nat → Option Row} {t : Nat} (h : ∀ i, t ≤ i → row i = none) : ∀ i, fresh row t ≤ i → row i = none := by
  induction t with
  | zero => intro i _; exact h i (Nat.zero_le _)
  | succ n ih =>
    unfold fresh
    split
    · exact h
    · rename_i hn
      apply ih
      intro i hi
      by_cases hin : i = n
      · subst hin
        cases hx : row i with
        | none => rfl
        | some x => rw [hx] at hn; simp at hn
      · exact h i (by omega)

theorem fresh_pos (row : Nat → Option Row) (t : Nat) : fresh row t ≠ 0 := by
  induction t with
  | zero => unfold fresh; omega
  | succ n ih =>
    unfold fresh
    split
    · omega
    · exact ih

/-- The entries agree with the table; those in `P` are not connected with their directory yet. -/
structure Inv (P : Nat → Prop) (t : Table) (c : Cache) : Prop where
  row : ∀ i e, c.ent i = some e → (i = 0 ∧ e.row = rootRow) ∨ (i ≠ 0 ∧ t.row i = some e.row)
  done : ∀ i e, c.ent i = some e → ¬ P i → (e.row.dir = 0 ∧ e.parent = none) ∨
    (e.row.dir ≠ 0 ∧ e.parent = some e.row.dir ∧ ∃ p, c.ent e.row.dir = some p ∧ (e.row.name, i) ∈ p.kids)
  kid : ∀ p q n i, c.ent p = some q → (n, i) ∈ q.kids → ¬ P i ∧ p ≠ 0 ∧ ∃ e, c.ent i = some e ∧ e.row.name = n ∧ e.row.dir = p
  here : ∀ i, P i → c.ent i ≠ none

theorem Inv.empty (t : Table) : Inv (fun _ => False) t {} :=
  ⟨fun _ _ h => (by cases h), fun _ _ h => (by cases h), fun _ _ _ _ h => (by cases h), fun _ h => h.elim⟩

theorem Inv.congr {P Q : Nat → Prop} {t : Table} {c : Cache} (h : Inv P t c) (hpq : ∀ i, P i ↔ Q i) : Inv Q t c := by
  have : P = Q := funext fun i => propext (hpq i)
  subst this
  exact h

/-- A new entry waits for its directory. -/
theorem Inv.new {P : Nat → Prop} {t : Table} {c : Cache} (h : Inv P t c) {i : Nat} {r : Row} (hn : c.ent i = none) (hr : (i = 0 ∧ r = rootRow) ∨ (i ≠ 0 ∧ t.row i = some r)) :
    ∃ c', c.new i r = some c' ∧ c'.ent i = some { row := r } ∧ (∀ j, j ≠ i → c'.ent j = c.ent j) ∧ Inv (fun j => P j ∨ j = i) t c' := by
  refine ⟨_, by simp only [Cache.new]; rw [hn], if_pos rfl, fun j hj => if_neg hj, ?_⟩
  refine ⟨?_, ?_, ?_, ?_⟩
  · intro j e he
    simp only at he
    split at he
    · rename_i hj
      cases he
      subst hj
      exact hr
    · exact h.row j e he
  · intro j e he hp
    simp only at he
    have hj : j ≠ i := fun hx => hp (.inr hx)
    rw [if_neg hj] at he
    rcases h.done j e he (fun hx => hp (.inl hx)) with h1 | ⟨h1, h2, p, h3, h4⟩
    · exact .inl h1
    · refine .inr ⟨h1, h2, p, ?_, h4⟩
      have hd : e.row.dir ≠ i := by
        intro hx
        rw [hx, hn] at h3
        cases h3
      show (if e.row.dir = i then _ else _) = _
      rw [if_neg hd]
      exact h3
  · intro p q n k hp hk
    simp only at hp
    split at hp
    · cases hp
      cases hk
    · obtain ⟨h1, h2, e, h3, h4⟩ := h.kid p q n k hp hk
      have hki : k ≠ i := by
        intro hx
        rw [hx, hn] at h3
        cases h3
      refine ⟨fun hx => hx.elim h1 hki, h2, e, ?_, h4⟩
      show (if k = i then _ else _) = _
      rw [if_neg hki]
      exact h3
  · intro j hj
    simp only
    split
    · simp
    · rename_i hji
      exact h.here j (hj.resolve_right hji)

/-- The entries after `resolve`. -/
theorem resolve_ent {c c' : Cache} {i : Nat} {e : Ent} (he : c.ent i = some e) (h : c.resolve i = some c') :
    (e.row.dir = 0 ∧ ∀ j, c'.ent j = if j = i then some { e with parent := none } else c.ent j) ∨
    (e.row.dir ≠ 0 ∧ ∃ p, c.ent e.row.dir = some p ∧ (∀ k ∈ p.kids, k.1 ≠ e.row.name) ∧ ∀ j, c'.ent j = (c.ent j).map fun x =>
      { x with parent := if j = i then some e.row.dir else x.parent, kids := if j = e.row.dir then (e.row.name, i) :: x.kids else x.kids }) := by
  unfold Cache.resolve at h
  rw [he] at h
  simp only at h
  split at h
  · rename_i hd
    cases h
    refine .inl ⟨hd, fun j => ?_⟩
    simp only [Cache.modify]
    split
    · rename_i hj
      subst hj
      rw [he]
      rfl
    · rfl
  · rename_i hd
    split at h
    · cases h
    · rename_i p hp
      split at h
      · cases h
      · rename_i hk
        cases h
        refine .inr ⟨hd, p, hp, ?_, fun j => ?_⟩
        · intro k hkm hx
          apply hk
          rw [List.any_eq_true]
          exact ⟨k, hkm, decide_eq_true hx⟩
        · simp only [Cache.modify]
          by_cases hj : j = i
          · subst hj
            rw [he]
            by_cases hjd : j = e.row.dir
            · rw [if_pos hjd, if_pos rfl]
              simp only [Option.map_some, if_pos hjd, if_true]
            · rw [if_neg hjd, if_pos rfl]
              simp only [Option.map_some, if_neg hjd, if_true]
          · simp only [if_neg hj]
            cases c.ent j with
            | none => simp
            | some x =>
              by_cases hjd : j = e.row.dir
              · simp only [if_pos hjd, Option.map_some]
              · simp only [if_neg hjd, Option.map_some]

/-- Nothing else changes in the fields. -/
def Keeps (c c' : Cache) : Prop := ∀ j, (c'.ent j).map Ent.row = (c.ent j).map Ent.row

theorem Keeps.some {c c' : Cache} (h : Keeps c c') {j : Nat} {e : Ent} (he : c.ent j = some e) : ∃ e', c'.ent j = some e' ∧ e'.row = e.row := by
  have := h j
  rw [he] at this
  cases h' : c'.ent j with
  | none => rw [h'] at this; cases this
  | some e' =>
    rw [h'] at this
    exact ⟨e', rfl, Option.some.inj this⟩

theorem Keeps.none {c c' : Cache} (h : Keeps c c') {j : Nat} (he : c.ent j = none) : c'.ent j = none := by
  have := h j
  rw [he] at this
  cases h' : c'.ent j with
  | none => rfl
  | some e' => rw [h'] at this; cases this

/-- The directory of a waiting entry can be set if it is there. -/
theorem Inv.resolve {P : Nat → Prop} {t : Table} (ht : Sound t) {c : Cache} (h : Inv P t c) {i : Nat} {e : Ent} (he : c.ent i = some e) (hp : P i)
    (hd : e.row.dir = 0 ∨ c.ent e.row.dir ≠ none) : ∃ c', c.resolve i = some c' ∧ Keeps c c' ∧ Inv (fun j => P j ∧ j ≠ i) t c' := by
  have hex : ∃ c', c.resolve i = some c' := by
    unfold Cache.resolve
    rw [he]
    simp only
    split
    · exact ⟨_, rfl⟩
    · rename_i hd0
      cases hpe : c.ent e.row.dir with
      | none => exact absurd hpe (hd.resolve_left hd0)
      | some p =>
        simp only
        split
        · rename_i hk
          exfalso
          rw [List.any_eq_true] at hk
          obtain ⟨⟨n, k⟩, hk1, hk2⟩ := hk
          rw [decide_eq_true_iff] at hk2
          obtain ⟨g1, g2, e', g3, g4, g5⟩ := h.kid _ p n k hpe hk1
          have hi0 : i ≠ 0 ∧ t.row i = some e.row := by
            rcases h.row i e he with ⟨h1, h2⟩ | h1
            · rw [h2] at hd0
              exact absurd rfl hd0
            · exact h1
          have hk0 : k ≠ 0 ∧ t.row k = some e'.row := by
            rcases h.row k e' g3 with ⟨h1, h2⟩ | h1
            · rw [h2] at g5
              exact absurd g5.symm hd0
            · exact h1
          have := ht.unique i k e.row e'.row hi0.2 hk0.2 g5.symm (by rw [g4]; exact hk2.symm)
          subst this
          exact g1 hp
        · exact ⟨_, rfl⟩
  obtain ⟨c', hc'⟩ := hex
  refine ⟨c', hc', ?_, ?_⟩
  · intro j
    rcases resolve_ent he hc' with ⟨_, h1⟩ | ⟨_, p, _, _, h1⟩
    · rw [h1]
      split
      · rename_i hj
        subst hj
        rw [he]
        rfl
      · rfl
    · rw [h1]
      cases c.ent j <;> rfl
  · rcases resolve_ent he hc' with ⟨hd0, h1⟩ | ⟨hd0, p, hpe, hkn, h1⟩
    · have hfwd : ∀ j x, c.ent j = some x → c'.ent j = some { x with parent := if j = i then none else x.parent } := by
        intro j x hx
        rw [h1]
        split
        · rename_i hj
          subst hj
          rw [he] at hx
          cases hx
          rfl
        · exact hx
      have hback : ∀ j x', c'.ent j = some x' → ∃ x, c.ent j = some x ∧ x' = { x with parent := if j = i then none else x.parent } := by
        intro j x' hx
        rw [h1] at hx
        split at hx
        · rename_i hj
          cases hx
          exact ⟨e, by rw [hj]; exact he, by rw [if_pos hj]⟩
        · rename_i hj
          exact ⟨x', hx, by rw [if_neg hj]⟩
      refine ⟨?_, ?_, ?_, ?_⟩
      · intro j x' hx
        obtain ⟨x, g1, rfl⟩ := hback j x' hx
        exact h.row j x g1
      · intro j x' hx hnp
        obtain ⟨x, g1, rfl⟩ := hback j x' hx
        simp only
        by_cases hj : j = i
        · subst hj
          rw [he] at g1
          cases g1
          exact .inl ⟨hd0, if_pos rfl⟩
        · rw [if_neg hj]
          rcases h.done j x g1 (fun hy => hnp ⟨hy, hj⟩) with g | ⟨g2, g3, q, g4, g5⟩
          · exact .inl g
          · exact .inr ⟨g2, g3, _, hfwd _ q g4, g5⟩
      · intro p q' n k hpq hk
        obtain ⟨q, g1, rfl⟩ := hback p q' hpq
        obtain ⟨f1, f2, y, f3, f4⟩ := h.kid p q n k g1 hk
        exact ⟨fun hy => f1 hy.1, f2, _, hfwd k y f3, f4⟩
      · intro j hj hx
        cases hc : c.ent j with
        | none => exact h.here j hj.1 hc
        | some x =>
          rw [hfwd j x hc] at hx
          cases hx
    · have hfwd : ∀ j x, c.ent j = some x → c'.ent j = some { x with parent := if j = i then some e.row.dir else x.parent, kids := if j = e.row.dir then (e.row.name, i) :: x.kids else x.kids } := by
        intro j x hx
        rw [h1, hx]
        rfl
      have hback : ∀ j x', c'.ent j = some x' → ∃ x, c.ent j = some x ∧
          x' = { x with parent := if j = i then some e.row.dir else x.parent, kids := if j = e.row.dir then (e.row.name, i) :: x.kids else x.kids } := by
        intro j x' hx
        rw [h1] at hx
        cases hc : c.ent j with
        | none => rw [hc] at hx; cases hx
        | some x =>
          rw [hc] at hx
          exact ⟨x, rfl, (Option.some.inj hx).symm⟩
      refine ⟨?_, ?_, ?_, ?_⟩
      · intro j x' hx
        obtain ⟨x, g1, rfl⟩ := hback j x' hx
        exact h.row j x g1
      · intro j x' hx hnp
        obtain ⟨x, g1, rfl⟩ := hback j x' hx
        simp only
        by_cases hj : j = i
        · subst hj
          rw [he] at g1
          cases g1
          refine .inr ⟨hd0, if_pos rfl, _, hfwd _ p hpe, ?_⟩
          simp only [if_true]
          exact List.mem_cons_self
        · rcases h.done j x g1 (fun hy => hnp ⟨hy, hj⟩) with g | ⟨g2, g3, q, g4, g5⟩
          · exact .inl ⟨g.1, by rw [if_neg hj]; exact g.2⟩
          · refine .inr ⟨g2, by rw [if_neg hj]; exact g3, _, hfwd _ q g4, ?_⟩
            simp only
            split
            · exact List.mem_cons_of_mem _ g5
            · exact g5
      · intro a q' n k hq hk
        obtain ⟨q, g1, rfl⟩ := hback a q' hq
        simp only at hk
        have hold : (n, k) ∈ q.kids → ¬ (P k ∧ k ≠ i) ∧ a ≠ 0 ∧ ∃ e, c'.ent k = some e ∧ e.row.name = n ∧ e.row.dir = a := by
          intro hk
          obtain ⟨f1, f2, y, f3, f4⟩ := h.kid a q n k g1 hk
          exact ⟨fun hy => f1 hy.1, f2, _, hfwd k y f3, f4⟩
        split at hk
        · rename_i had
          rcases List.mem_cons.1 hk with hk | hk
          · cases hk
            refine ⟨fun hy => hy.2 rfl, by rw [had]; exact hd0, _, hfwd i e he, rfl, had.symm⟩
          · exact hold hk
        · exact hold hk
      · intro j hj hx
        cases hc : c.ent j with
        | none => exact h.here j hj.1 hc
        | some x =>
          rw [hfwd j x hc] at hx
          cases hx

theorem filter_lt {l : List Nat} {p q : Nat → Bool} (h : ∀ x, q x = true → p x = true) {y : Nat} (hy : y ∈ l) (hp : p y = true) (hq : q y = false) :
    (l.filter q).length < (l.filter p).length := by
  have hle : ∀ l : List Nat, (l.filter q).length ≤ (l.filter p).length := by
    intro l
    induction l with
    | nil => exact Nat.le_refl _
    | cons x l ih =>
      rw [List.filter_cons, List.filter_cons]
      by_cases hx : q x = true
      · rw [if_pos hx, if_pos (h x hx)]
        simp only [List.length_cons]
        omega
      · rw [if_neg hx]
        split
        · simp only [List.length_cons]; omega
        · exact ih
  induction l with
  | nil => cases hy
  | cons x l ih =>
    rw [List.filter_cons, List.filter_cons]
    rcases List.mem_cons.1 hy with hy | hy
    · subst hy
      rw [if_pos hp, if_neg (by rw [hq]; decide)]
      have := hle l
      simp only [List.length_cons]
      omega
    · have := ih hy
      by_cases hx : q x = true
      · rw [if_pos hx, if_pos (h x hx)]
        simp only [List.length_cons]
        omega
      · rw [if_neg hx]
        split
        · simp only [List.length_cons]; omega
        · exact this

theorem read_eq {t : Table} (ht : Sound t) {i : Nat} {r : Row} (hr : t.row i = some r) : r.read = r := by
  obtain ⟨h1, h2⟩ := ht.fits i r hr
  unfold Row.read
  rw [h1, h2]

/-- Entries are only added. -/
def Grows (c c' : Cache) : Prop := ∀ j e, c.ent j = some e → ∃ e', c'.ent j = some e' ∧ e'.row = e.row

theorem Grows.refl (c : Cache) : Grows c c := fun _ e h => ⟨e, h, rfl⟩

theorem Grows.trans {a b c : Cache} (h : Grows a b) (h' : Grows b c) : Grows a c := by
  intro j e he
  obtain ⟨e1, h1, h2⟩ := h j e he
  obtain ⟨e2, h3, h4⟩ := h' j e1 h1
  exact ⟨e2, h3, h4.trans h2⟩

theorem Keeps.grows {c c' : Cache} (h : Keeps c c') : Grows c c' := fun _ _ he => h.some he

/-- `tup_entry_add` finds or makes the entry, and the entries go on to agree with the table. -/
theorem addN_ok {t : Table} (ht : Sound t) (n : Nat) {P : Nat → Prop} {c : Cache} (h : Inv P t c) {i : Nat} (hn : missing t c < n) (hi : i = 0 ∨ t.row i ≠ none) :
    ∃ c', addN n t c i = some c' ∧ Inv P t c' ∧ c'.ent i ≠ none ∧ Grows c c' := by
  induction n generalizing P c i with
  | zero => omega
  | succ n ih =>
    unfold addN
    cases he : c.ent i with
    | some e => exact ⟨c, rfl, h, by rw [he]; simp, Grows.refl c⟩
    | none =>
      simp only
      by_cases h0 : i = 0
      · subst h0
        rw [if_pos rfl]
        obtain ⟨c1, h1, h2, h3, h4⟩ := h.new he (.inl ⟨rfl, rfl⟩)
        rw [h1]
        simp only
        obtain ⟨c2, h5, h6, h7⟩ := h4.resolve ht h2 (.inr rfl) (.inl rfl)
        refine ⟨c2, h5, ?_, ?_, ?_⟩
        · refine h7.congr fun j => ⟨fun hx => hx.1.resolve_right hx.2, fun hx => ⟨.inl hx, ?_⟩⟩
          rintro rfl
          exact h.here 0 hx he
        · obtain ⟨e', g1, _⟩ := h6.some h2
          rw [g1]
          simp
        · intro j e hj
          have hj0 : j ≠ 0 := by rintro rfl; rw [he] at hj; cases hj
          exact h6.some (by rw [h3 j hj0]; exact hj)
      · rw [if_neg h0]
        cases hr : t.row i with
        | none => exact absurd hr (hi.resolve_left h0)
        | some r =>
          simp only
          rw [read_eq ht hr]
          obtain ⟨c1, h1, h2, h3, h4⟩ := h.new he (.inr ⟨h0, hr⟩)
          rw [h1]
          simp only
          have hgrow1 : Grows c c1 := by
            intro j e hj
            have hji : j ≠ i := by rintro rfl; rw [he] at hj; cases hj
            exact ⟨e, by rw [h3 j hji]; exact hj, rfl⟩
          have hmid : ∃ c2, (if 0 < r.dir then addN n t c1 r.dir else some c1) = some c2 ∧ Inv (fun j => P j ∨ j = i) t c2 ∧ (r.dir = 0 ∨ c2.ent r.dir ≠ none) ∧ Grows c1 c2 := by
            by_cases hd : 0 < r.dir
            · rw [if_pos hd]
              have hlt : i < t.top := by
                by_cases hlt : i < t.top
                · exact hlt
                · rw [ht.bound i (by omega)] at hr; cases hr
              have hm : missing t c1 < missing t c := by
                refine filter_lt (y := i) ?_ (List.mem_range.2 hlt) (by rw [he]; rfl) (by rw [h2]; rfl)
                intro x hx
                by_cases hxi : x = i
                · subst hxi
                  rw [he]
                  rfl
                · rw [h3 x hxi] at hx
                  exact hx
              obtain ⟨c2, g1, g2, g3, g4⟩ := ih (c := c1) (i := r.dir) h4 (by omega) ((ht.dirs i r hr).imp_left id)
              exact ⟨c2, g1, g2, .inr g3, g4⟩
            · rw [if_neg hd]
              exact ⟨c1, rfl, h4, .inl (by omega), Grows.refl c1⟩
          obtain ⟨c2, g1, g2, g3, g4⟩ := hmid
          rw [g1]
          simp only
          obtain ⟨e2, g5, g6⟩ := g4 i _ h2
          have hrow : e2.row = r := g6
          obtain ⟨c3, g7, g8, g9⟩ := g2.resolve ht g5 (.inr rfl) (by rw [hrow]; exact g3)
          refine ⟨c3, g7, ?_, ?_, (hgrow1.trans g4).trans g8.grows⟩
          · refine g9.congr fun j => ⟨fun hx => hx.1.resolve_right hx.2, fun hx => ⟨.inl hx, ?_⟩⟩
            rintro rfl
            exact h.here _ hx he
          · obtain ⟨e', f1, _⟩ := g8.some g5
            rw [f1]
            simp

theorem addN_none {t : Table} {P : Nat → Prop} {c : Cache} (h : Inv P t c) {n i : Nat} (h0 : i ≠ 0) (hi : t.row i = none) : addN n t c i = none := by
  cases n with
  | zero => rfl
  | succ n =>
    unfold addN
    cases he : c.ent i with
    | some e =>
      rcases h.row i e he with h1 | h1
      · exact absurd h1.1 h0
      · rw [hi] at h1
        exact absurd h1.2 (by simp)
    | none =>
      simp only
      rw [if_neg h0, hi]

/-- The entries agree with the table. -/
abbrev Agree (t : Table) (c : Cache) : Prop := Inv (fun _ => False) t c

theorem add_ok {t : Table} (ht : Sound t) {c : Cache} (h : Agree t c) {i : Nat} (hi : i = 0 ∨ t.row i ≠ none) :
    ∃ c', add t c i = some c' ∧ Agree t c' ∧ c'.ent i ≠ none ∧ Grows c c' := addN_ok ht _ h (Nat.lt_succ_self _) hi

theorem add_none {t : Table} {c : Cache} (h : Agree t c) {i : Nat} (h0 : i ≠ 0) (hi : t.row i = none) : add t c i = none := addN_none h h0 hi

theorem Inv.show1 {P : Nat → Prop} {t : Table} {c : Cache} (h : Inv P t c) {i : Nat} (h0 : i ≠ 0) {r : Row} (hr : t.row i = some r) (hc : c.ent i ≠ none) : show1 c i = some (i, r) := by
  unfold Cache.show1
  cases he : c.ent i with
  | none => exact absurd he hc
  | some e =>
    rcases h.row i e he with h1 | h1
    · exact absurd h1.1 h0
    · rw [hr] at h1
      rw [Option.map_some, ← Option.some.inj h1.2]

/-- An entry for a row is put in its directory. -/
theorem addToDir_ok {t : Table} (ht : Sound t) {c : Cache} (h : Agree t c) {i : Nat} {r : Row} (h0 : i ≠ 0) (hr : t.row i = some r) (he : c.ent i = none)
    (hd : r.dir = 0 ∨ c.ent r.dir ≠ none) : ∃ c', addToDir c i r = some c' ∧ Agree t c' ∧ c'.ent i ≠ none ∧ Grows c c' := by
  obtain ⟨c1, h1, h2, h3, h4⟩ := h.new he (.inr ⟨h0, hr⟩)
  have hgrow1 : Grows c c1 := by
    intro j e hj
    have hji : j ≠ i := by rintro rfl; rw [he] at hj; cases hj
    exact ⟨e, by rw [h3 j hji]; exact hj, rfl⟩
  have hd1 : r.dir = 0 ∨ c1.ent r.dir ≠ none := by
    refine hd.imp_right fun hx => ?_
    by_cases hri : r.dir = i
    · rw [hri, h2]
      simp
    · rw [h3 _ hri]
      exact hx
  obtain ⟨c2, h5, h6, h7⟩ := h4.resolve ht h2 (.inr rfl) hd1
  refine ⟨c2, ?_, ?_, ?_, hgrow1.trans h6.grows⟩
  · unfold addToDir
    rw [h1]
    exact h5
  · exact h7.congr fun j => ⟨fun hx => hx.2 (hx.1.resolve_left (fun hy => hy)), fun hx => hx.elim⟩
  · obtain ⟨e', f1, _⟩ := h6.some h2
    rw [f1]
    simp

/-- The search by name finds the entry, if there is one. -/
theorem findName_spec {t : Table} (ht : Sound t) {c : Cache} (h : Agree t c) {d : Nat} (hd : d ≠ 0) (hc : c.ent d ≠ none) (n : Str) :
    match findName c d n with
    | some i => ∃ r, i ≠ 0 ∧ t.row i = some r ∧ r.dir = d ∧ r.name = n ∧ c.ent i ≠ none
    | none => ∀ i r, t.row i = some r → r.dir = d → r.name = n → c.ent i = none := by
  unfold findName
  cases he : c.ent d with
  | none => exact absurd he hc
  | some e =>
    simp only
    cases hf : e.kids.find? fun k => decide (k.1 = n) with
    | some k =>
      obtain ⟨m, i⟩ := k
      have hm : m = n := by simpa using List.find?_some hf
      subst hm
      obtain ⟨_, h2, e', h3, h4, h5⟩ := h.kid d e m i he (List.mem_of_find?_eq_some hf)
      simp only [Option.map_some]
      rcases h.row i e' h3 with ⟨g1, g2⟩ | ⟨g1, g2⟩
      · rw [g2] at h5
        exact absurd h5.symm hd
      · exact ⟨e'.row, g1, g2, h5, h4, by rw [h3]; simp⟩
    | none =>
      simp only [Option.map_none]
      intro i r hr hrd hrn
      cases hi : c.ent i with
      | none => rfl
      | some e' =>
        exfalso
        have hi0 : i ≠ 0 := by rintro rfl; rw [ht.zero] at hr; cases hr
        rcases h.row i e' hi with g | ⟨_, g⟩
        · exact hi0 g.1
        · rw [hr] at g
          cases g
          rcases h.done i e' hi (fun hx => hx) with ⟨g1, _⟩ | ⟨_, _, p, g3, g4⟩
          · rw [g1] at hrd
            exact hd hrd.symm
          · rw [hrd, he] at g3
            cases g3
            have := List.find?_eq_none.1 hf _ g4
            rw [hrn] at this
            simp at this

end Tup.Cache
