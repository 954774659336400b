import Verif.VarStore.Lemmas
import Verif.Config.Props

/-! C16: a changed configuration is detected exactly. -/

namespace Tup.VarStore

open Db Tree

theorem mem_rows {db : Db} (hb : Bounded db) {d i : Nat} :
    i ∈ rows db d ↔ ∃ nd, db.node i = some nd ∧ nd.dir = d ∧ (db.vars i).isSome = true := by
  unfold rows
  rw [List.mem_filter, List.mem_range]
  constructor
  · rintro ⟨_, h⟩
    cases hn : db.node i with
    | none => rw [hn] at h; cases h
    | some nd =>
      rw [hn] at h
      simp only [Bool.and_eq_true, decide_eq_true_eq] at h
      exact ⟨nd, rfl, h⟩
  · rintro ⟨nd, h1, h2, h3⟩
    refine ⟨lt_top hb h1, ?_⟩
    rw [h1]
    simp [h2, h3]

theorem loads_map {db : Db} {n : Str} {x : Option Str} : ∀ (l : List Nat) (M0 M : Str → Option (Option Str)),
    (∀ i ∈ l, ∀ j ∈ l, nameOf db i = nameOf db j → i = j) → (∀ i ∈ l, (nameOf db i).isSome = true ∧ (db.vars i).isSome = true) →
    mapRun M0 (loads db l) = some M →
    (M n = some x ↔ (∃ i ∈ l, nameOf db i = some n ∧ db.vars i = some x) ∨
      ((∀ i ∈ l, nameOf db i ≠ some n) ∧ M0 n = some x)) := by
  intro l
  induction l with
  | nil =>
    intro M0 M _ _ h
    cases h
    simp
  | cons i l ih =>
    intro M0 M hu hs h
    obtain ⟨m, hm⟩ := Option.isSome_iff_exists.1 (hs i List.mem_cons_self).1
    obtain ⟨z, hz⟩ := Option.isSome_iff_exists.1 (hs i List.mem_cons_self).2
    have hl : loads db (i :: l) = (.set m z, .unit) :: loads db l := by
      simp only [loads, List.filterMap_cons, hm, hz]
    rw [hl, mapRun, if_pos (by rfl)] at h
    rw [ih _ _ (fun a ha b hb => hu a (List.mem_cons_of_mem _ ha) b (List.mem_cons_of_mem _ hb))
      (fun a ha => hs a (List.mem_cons_of_mem _ ha)) h]
    simp only [mapStep]
    constructor
    · rintro (⟨j, h1, h2, h3⟩ | ⟨h1, h2⟩)
      · exact .inl ⟨j, List.mem_cons_of_mem _ h1, h2, h3⟩
      · by_cases hnm : n = m
        · rw [if_pos hnm] at h2
          exact .inl ⟨i, List.mem_cons_self, by rw [hm, hnm], by rw [hz, Option.some.inj h2]⟩
        · rw [if_neg hnm] at h2
          refine .inr ⟨?_, h2⟩
          intro j hj
          rcases List.mem_cons.1 hj with rfl | hj
          · rw [hm]
            intro hx
            exact hnm (Option.some.inj hx).symm
          · exact h1 j hj
    · rintro (⟨j, h1, h2, h3⟩ | ⟨h1, h2⟩)
      · rcases List.mem_cons.1 h1 with rfl | h1
        · by_cases hx : ∃ k ∈ l, nameOf db k = some n
          · obtain ⟨k, h4, h5⟩ := hx
            have := hu j List.mem_cons_self k (List.mem_cons_of_mem _ h4) (h2.trans h5.symm)
            subst this
            exact .inl ⟨j, h4, h2, h3⟩
          · right
            refine ⟨fun k hk hk' => hx ⟨k, hk, hk'⟩, ?_⟩
            rw [hm] at h2
            rw [if_pos (Option.some.inj h2).symm, ← hz, h3]
        · exact .inl ⟨j, h1, h2, h3⟩
      · refine .inr ⟨fun j hj => h1 j (List.mem_cons_of_mem _ hj), ?_⟩
        have := h1 i List.mem_cons_self
        rw [hm] at this
        rw [if_neg (fun hx => this (by rw [hx]))]
        exact h2

/-- The store that is filled from the database holds the stored variables. -/
theorem loadedAny {db : Db} {d : Nat} (hb : Bounded db) (hq : Unique db) {u : Vardb}
    (hu : VarRun ⟨.nil, 0⟩ (loads db (rows db d)) u) (n : Str) (x : Option Str) :
    ⟨n, x⟩ ∈ u.root.toList ↔ ∃ i nd, db.node i = some nd ∧ nd.dir = d ∧ nd.name = n ∧ db.vars i = some x := by
  obtain ⟨M, h1, h2, _⟩ := c49_variable_stores hu
  rw [h2, loads_map _ _ _ _ _ h1]
  · constructor
    · rintro (⟨i, h3, h4, h5⟩ | ⟨_, h⟩)
      · obtain ⟨nd, h6, h7, h8⟩ := (mem_rows hb).1 h3
        simp only [nameOf, h6, Option.map_some] at h4
        exact ⟨i, nd, h6, h7, Option.some.inj h4, h5⟩
      · cases h
    · rintro ⟨i, nd, h3, h4, h5, h6⟩
      left
      exact ⟨i, (mem_rows hb).2 ⟨nd, h3, h4, by rw [h6]; rfl⟩, by simp [nameOf, h3, h5], h6⟩
  · intro i hi j hj hij
    obtain ⟨a, h3, h4, _⟩ := (mem_rows hb).1 hi
    obtain ⟨b, h5, h6, _⟩ := (mem_rows hb).1 hj
    simp only [nameOf, h3, h5, Option.map_some, Option.some.injEq] at hij
    exact hq i j a b h3 h5 (h4.trans h6.symm) hij
  · intro i hi
    obtain ⟨a, h3, _, h4⟩ := (mem_rows hb).1 hi
    exact ⟨by simp [nameOf, h3], h4⟩

theorem loaded {db : Db} {d : Nat} (hp : Proper db d) {u : Vardb} (hu : VarRun ⟨.nil, 0⟩ (loads db (rows db d)) u)
    (n : Str) (x : Option Str) :
    ⟨n, x⟩ ∈ u.root.toList ↔ ∃ i nd, db.node i = some nd ∧ nd.dir = d ∧ nd.name = n ∧ db.vars i = some x ∧ x.isSome = true := by
  rw [loadedAny hp.bounded hp.unique hu]
  constructor
  · rintro ⟨i, nd, h1, h2, h3, h4⟩
    refine ⟨i, nd, h1, h2, h3, h4, ?_⟩
    rcases hp.kinds i nd h1 h2 with h | h
    · obtain ⟨v, hv⟩ := h.2
      rw [hv] at h4
      cases h4
      rfl
    · rw [h.2] at h4; cases h4
  · rintro ⟨i, nd, h1, h2, h3, h4, _⟩
    exact ⟨i, nd, h1, h2, h3, h4⟩

theorem tent_eq {db : Db} {d : Nat} (hb : Bounded db) (hq : Unique db) {i : Nat} {nd : Node} (h1 : db.node i = some nd) (h2 : nd.dir = d)
    (h3 : (db.vars i).isSome = true) : tent db (rows db d) nd.name = some i := by
  have hi : i ∈ rows db d := (mem_rows hb).2 ⟨nd, h1, h2, h3⟩
  unfold tent
  cases h : (rows db d).find? (fun i => nameOf db i = some nd.name) with
  | none =>
    have := List.find?_eq_none.1 h i hi
    simp [nameOf, h1] at this
  | some j =>
    have hj := List.find?_some h
    have hjm := List.mem_of_find?_eq_some h
    obtain ⟨m, h4, h5, _⟩ := (mem_rows hb).1 hjm
    simp only [nameOf, h4, Option.map_some, decide_eq_true_eq, Option.some.injEq] at hj
    rw [hq i j nd m h1 h4 (h2.trans h5.symm) hj.symm]

/-- The whole comparison. -/
theorem run {s : St} {d : Nat} (hp : Proper s.db d) {bs : List (Str × Str)} {u v : Vardb}
    (hu : VarRun ⟨.nil, 0⟩ (loads s.db (rows s.db d)) u) (hv : VarRun ⟨.nil, 0⟩ (fileLoads bs) v) :
    ∃ F : Str → Option Str, (∀ n w, F n = some w ↔ Config.Last bs n w) ∧ ∃ t, readVars s d u v = some t ∧
      Inv s.db d F (fun n => (∃ w, Value s.db d n w) ∨ ∃ w, Config.Last bs n w) t ∧
      (t.changed = true ↔ s.changed = true ∨ ∃ n, Changed s.db d bs n) := by
  have hld := loaded hp hu
  have hfl := Config.c15_values hv
  obtain ⟨M, hM1, hM2, _⟩ := c49_variable_stores hv
  have hF : ∀ n w, (M n).bind id = some w ↔ Config.Last bs n w := by
    intro n w
    constructor
    · intro h
      cases hm : M n with
      | none => rw [hm] at h; cases h
      | some x =>
        rw [hm] at h
        have := (hfl n x).1 ((hM2 n x).2 hm)
        obtain ⟨w', h1, h2⟩ := this
        subst h1
        cases h
        exact h2
    · intro h
      have := (hM2 n (some w)).1 ((hfl n (some w)).2 ⟨w, rfl, h⟩)
      rw [this]
      rfl
  refine ⟨fun n => (M n).bind id, hF, ?_⟩
  generalize hFd : (fun n => (M n).bind id) = F
  have hF : ∀ n w, F n = some w ↔ Config.Last bs n w := by rw [← hFd]; exact hF
  obtain ⟨hA, hB, hC, hord⟩ := c26_compare_vars hu hv
  have hne : ∀ {a b : Str}, strcmp a b < 0 → a ≠ b := by
    rintro a b h rfl
    have := (strcmp_lawful.eq a a trivial trivial).2 rfl
    omega
  have hfile : ∀ y ∈ v.root.toList, ∃ w, y.value = some w ∧ F y.name = some w := by
    rintro ⟨n, x⟩ hy
    obtain ⟨w, h1, h2⟩ := (hfl n x).1 hy
    exact ⟨w, h1, (hF n w).2 h2⟩
  have hnofile : ∀ n, (∀ y ∈ v.root.toList, y.name ≠ n) → F n = none := by
    intro n hn
    cases hf : F n with
    | none => rfl
    | some w => exact absurd rfl (hn ⟨n, some w⟩ ((hfl n (some w)).2 ⟨w, rfl, (hF n w).1 hf⟩))
  have hgood : ∀ e ∈ walk (fun x y => strcmp x.name y.name) u.root.toList v.root.toList,
      Good s.db d F (tent s.db (rows s.db d)) e := by
    intro e he
    cases e with
    | onlyA x =>
      obtain ⟨h1, h2⟩ := (hA x).1 he
      obtain ⟨n, y⟩ := x
      obtain ⟨i, nd, h3, h4, h5, h6, h7⟩ := (hld n y).1 h1
      refine ⟨i, nd, ?_, h3, h4, h5, by rw [h6]; rfl, hnofile _ h2⟩
      rw [← tent_eq hp.bounded hp.unique h3 h4 (by rw [h6]; rfl), h5]
    | onlyB y =>
      obtain ⟨h1, h2⟩ := (hB y).1 he
      obtain ⟨w, h3, h4⟩ := hfile y h1
      refine ⟨w, h3, h4, ?_⟩
      rintro z ⟨i, nd, h5, h6, h7, h8⟩
      exact h2 ⟨y.name, some z⟩ ((hld _ _).2 ⟨i, nd, h5, h6, h7, h8, rfl⟩) rfl
    | both x y =>
      obtain ⟨h1, h2, h0⟩ := (hC x y).1 he
      obtain ⟨n, z⟩ := x
      obtain ⟨i, nd, h3, h4, h5, h6, h7⟩ := (hld n z).1 h1
      obtain ⟨w, h8, h9⟩ := hfile y h2
      refine ⟨i, nd, w, ?_, h3, h4, h5, h6, h7, h8, by rw [h0]; exact h9⟩
      rw [← tent_eq hp.bounded hp.unique h3 h4 (by rw [h6]; rfl), h5]
  obtain ⟨t, h1, h2, h3⟩ := inv_steps (F := F) hp _ (inv_init hp s.changed) (by simp)
    (hord.imp fun {e f} h => hne h) hgood
  refine ⟨t, h1, inv_congr h2 ?_, ?_⟩
  · intro n
    simp only [false_or]
    constructor
    · rintro ⟨e, he, rfl⟩
      rcases walk_keys _ _ _ e he with h | h
      · left
        obtain ⟨i, nd, h3, h4, h5, h6, h7⟩ := (hld e.elem.name e.elem.value).1 h
        obtain ⟨w, hw⟩ := Option.isSome_iff_exists.1 h7
        exact ⟨w, i, nd, h3, h4, h5, by rw [h6, hw]⟩
      · right
        obtain ⟨w, _, h4⟩ := (hfl e.elem.name e.elem.value).1 h
        exact ⟨w, h4⟩
    · intro h
      have hx : (∃ x ∈ u.root.toList, x.name = n) ∨ (∃ y ∈ v.root.toList, y.name = n) := by
        rcases h with ⟨w, i, nd, h3, h4, h5, h6⟩ | ⟨w, h⟩
        · exact .inl ⟨⟨n, some w⟩, (hld _ _).2 ⟨i, nd, h3, h4, h5, h6, rfl⟩, rfl⟩
        · exact .inr ⟨⟨n, some w⟩, (hfl _ _).2 ⟨w, rfl, h⟩, rfl⟩
      by_cases hu' : ∃ x ∈ u.root.toList, x.name = n
      · obtain ⟨x, hx1, rfl⟩ := hu'
        by_cases hv' : ∃ y ∈ v.root.toList, y.name = x.name
        · obtain ⟨y, hy1, hy2⟩ := hv'
          exact ⟨.both x y, (hC x y).2 ⟨hx1, hy1, hy2.symm⟩, rfl⟩
        · exact ⟨.onlyA x, (hA x).2 ⟨hx1, fun y hy hyx => hv' ⟨y, hy, hyx⟩⟩, rfl⟩
      · obtain ⟨y, hy1, rfl⟩ := hx.resolve_left hu'
        exact ⟨.onlyB y, (hB y).2 ⟨hy1, fun x hx1 hxy => hu' ⟨x, hx1, hxy⟩⟩, rfl⟩
  · rw [h3]
    refine or_congr_right ?_
    constructor
    · rintro ⟨e, he, hc⟩
      refine ⟨e.elem.name, ?_⟩
      intro hall
      cases e with
      | onlyA x =>
        obtain ⟨i, nd, _, g2, g3, g4, g5, g6⟩ := hgood _ he
        obtain ⟨w, hw⟩ : ∃ w, s.db.vars i = some (some w) := by
          rcases hp.kinds i nd g2 g3 with hx | hx
          · exact hx.2
          · rw [hx.2] at g5; cases g5
        have := (hF _ _).2 ((hall w).1 ⟨i, nd, g2, g3, g4, hw⟩)
        simp only [Diff.elem] at this
        rw [g6] at this
        cases this
      | onlyB y =>
        obtain ⟨w, _, g2, g3⟩ := hgood _ he
        exact g3 w ((hall w).2 ((hF _ _).1 g2))
      | both x y =>
        obtain ⟨i, nd, w, _, g2, g3, g4, g5, g6, g7, g8⟩ := hgood _ he
        obtain ⟨j, m, g9, g10, g11, g12⟩ := (hall w).2 ((hF _ _).1 g8)
        have := hp.unique i j nd m g2 g9 (g3.trans g10.symm) (g4.trans g11.symm)
        subst this
        exact hc ((Option.some.inj (g5.symm.trans g12)).trans g7.symm)
    · rintro ⟨n, hn⟩
      by_cases hu' : ∃ x ∈ u.root.toList, x.name = n
      · obtain ⟨x, hx1, rfl⟩ := hu'
        by_cases hv' : ∃ y ∈ v.root.toList, y.name = x.name
        · obtain ⟨y, hy1, hy2⟩ := hv'
          refine ⟨.both x y, (hC x y).2 ⟨hx1, hy1, hy2.symm⟩, ?_⟩
          intro hxy
          apply hn
          intro w
          obtain ⟨i, nd, g1, g2, g3, g4, g5⟩ := (hld x.name x.value).1 hx1
          obtain ⟨z, g6, g7⟩ := hfile y hy1
          constructor
          · rintro ⟨j, m, g8, g9, g10, g11⟩
            have := hp.unique i j nd m g1 g8 (g2.trans g9.symm) (g3.trans g10.symm)
            subst this
            rw [← hF, ← hy2, g7, ← g6, ← hxy]
            exact Option.some.inj (g4.symm.trans g11)
          · intro hl
            refine ⟨i, nd, g1, g2, g3, ?_⟩
            rw [← hF, ← hy2, g7, ← g6, ← hxy] at hl
            rw [g4, hl]
        · exact ⟨.onlyA x, (hA x).2 ⟨hx1, fun y hy hyx => hv' ⟨y, hy, hyx⟩⟩, trivial⟩
      · by_cases hv' : ∃ y ∈ v.root.toList, y.name = n
        · obtain ⟨y, hy1, rfl⟩ := hv'
          exact ⟨.onlyB y, (hB y).2 ⟨hy1, fun x hx1 hxy => hu' ⟨x, hx1, hxy⟩⟩, trivial⟩
        · exfalso
          apply hn
          intro w
          constructor
          · rintro ⟨i, nd, g1, g2, g3, g4⟩
            exact absurd ⟨⟨n, some w⟩, (hld _ _).2 ⟨i, nd, g1, g2, g3, g4, rfl⟩, rfl⟩ hu'
          · intro hl
            exact absurd ⟨⟨n, some w⟩, (hfl _ _).2 ⟨w, rfl, hl⟩, rfl⟩ hv'

end Tup.VarStore
