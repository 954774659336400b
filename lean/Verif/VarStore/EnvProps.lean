import Verif.VarStore.Env
import Verif.VarStore.Props

/-! Changes of the environment are detected exactly (C42). -/

namespace Tup.VarStore

open Db Tree

/-- The value that is stored for the environment variable `n` (`none`: known not to be set). -/
def EnvStored (db : Db) (d : Nat) (n : Str) (x : Option Str) : Prop :=
  ∃ i nd, db.node i = some nd ∧ nd.dir = d ∧ nd.name = n ∧ db.vars i = some (x.map fun v => n ++ '=' :: v)

/-- The directory of the environment holds variables with a row each. -/
structure EnvProper (db : Db) (d : Nat) : Prop where
  bounded : Bounded db
  unique : Unique db
  rows : ∀ i nd, db.node i = some nd → nd.dir = d → ∃ x, EnvStored db d nd.name x

/-- The variable is known and its value is not the stored one. -/
def EnvChanged (db : Db) (d : Nat) (env : Str → Option Str) (n : Str) : Prop := ∃ x, EnvStored db d n x ∧ x ≠ env n

theorem full_inj {n : Str} {x y : Option Str} : full n x = full n y ↔ x = y := by
  cases x <;> cases y <;> simp [full]

theorem envMatch_iff {n : Str} {st env : Option Str} : envMatch n st env = true ↔ st = full n env := by
  unfold envMatch full
  cases env with
  | none => cases st <;> simp
  | some e =>
    cases st with
    | none => simp
    | some st =>
      simp only [Bool.and_eq_true, decide_eq_true_eq, Option.map_some, Option.some.injEq]
      constructor
      · rintro ⟨⟨⟨h1, h2⟩, h3⟩, h4⟩
        rw [← List.take_append_drop n.length st, h2]
        congr 1
        have hlt : n.length < st.length := by omega
        rw [List.drop_eq_getElem_cons hlt]
        rw [List.getElem?_eq_getElem hlt] at h3
        rw [Option.some.inj h3]
        congr 1
        rw [← h4, List.take_of_length_le]
        rw [List.length_drop]
        omega
      · rintro rfl
        simp
        omega

theorem stored_id {db : Db} {d : Nat} (hq : Unique db) {n : Str} {x : Option Str} {i : Nat} {nd : Node}
    (h : EnvStored db d n x) (h1 : db.node i = some nd) (h2 : nd.dir = d) (h3 : nd.name = n) :
    db.vars i = some (full n x) := by
  obtain ⟨j, m, g1, g2, g3, g4⟩ := h
  have := hq j i m nd g1 h1 (g2.trans h2.symm) (g3.trans h3.symm)
  subst this
  exact g4

/-- What the loop does, with the check. -/
theorem envLoop_on {env : Str → Option Str} {te : Str → Option Nat} : ∀ (l : List Var) (s : EnvSt),
    (∀ e ∈ l, (te e.name).isSome = true) →
    ∃ t, envLoop true env te s l = some t ∧
      t.db.node = s.db.node ∧ t.db.top = s.db.top ∧ t.db.normal = s.db.normal ∧
      (∀ j, t.db.create j = true ↔ s.db.create j = true ∨ ∃ e ∈ l, te e.name = some j ∧ e.value ≠ full e.name (env e.name)) ∧
      (∀ j, t.db.modify j = true ↔ s.db.modify j = true ∨ ∃ e ∈ l, te e.name = some j ∧ e.value ≠ full e.name (env e.name)) ∧
      (∀ j, (∃ e ∈ l, te e.name = some j ∧ e.value ≠ full e.name (env e.name) ∧ t.db.vars j = some (full e.name (env e.name))) ∨
        ((∀ e ∈ l, te e.name = some j → e.value = full e.name (env e.name)) ∧ t.db.vars j = s.db.vars j)) ∧
      (∀ n, (∃ e ∈ l, e.name = n ∧ t.cache n = (te n).map fun i => (i, full n (env n))) ∨
        ((∀ e ∈ l, e.name ≠ n) ∧ t.cache n = s.cache n)) := by
  intro l
  induction l with
  | nil =>
    intro s _
    exact ⟨s, rfl, rfl, rfl, rfl, by simp, by simp, by simp, by simp⟩
  | cons e l ih =>
    intro s hs
    obtain ⟨i, hi⟩ := Option.isSome_iff_exists.1 (hs e List.mem_cons_self)
    have hs' : ∀ e ∈ l, (te e.name).isSome = true := fun e he => hs e (List.mem_cons_of_mem _ he)
    by_cases hm : e.value = full e.name (env e.name)
    · have hst : envLoop true env te s (e :: l) = envLoop true env te (envdbSet s e.name (env e.name) i false) l := by
        simp only [envLoop, hi, envCb, if_true, envMatch_iff.2 hm]
      obtain ⟨t, h0, h1, h2, h3, h4, h5, h6, h7⟩ := ih (envdbSet s e.name (env e.name) i false) hs'
      refine ⟨t, hst.trans h0, h1, h2, h3, fun j => ?_, fun j => ?_, fun j => ?_, fun n => ?_⟩
      · rw [h4]
        simp only [List.mem_cons, exists_eq_or_imp, hm, ne_eq, not_true, and_false, false_or]
        exact Iff.rfl
      · rw [h5]
        simp only [List.mem_cons, exists_eq_or_imp, hm, ne_eq, not_true, and_false, false_or]
        exact Iff.rfl
      · rcases h6 j with ⟨x, g1, g2⟩ | ⟨g1, g2⟩
        · exact .inl ⟨x, List.mem_cons_of_mem _ g1, g2⟩
        · refine .inr ⟨fun x hx hj => ?_, g2⟩
          rcases List.mem_cons.1 hx with rfl | hx
          · exact hm
          · exact g1 x hx hj
      · rcases h7 n with ⟨x, g1, g2⟩ | ⟨g1, g2⟩
        · exact .inl ⟨x, List.mem_cons_of_mem _ g1, g2⟩
        · by_cases hn : e.name = n
          · refine .inl ⟨e, List.mem_cons_self, hn, ?_⟩
            rw [g2]
            subst hn
            simp [envdbSet, hi]
          · refine .inr ⟨fun x hx => ?_, ?_⟩
            · rcases List.mem_cons.1 hx with rfl | hx
              · exact hn
              · exact g1 x hx
            · rw [g2]
              simp [envdbSet, Ne.symm hn]
    · generalize hs2 : envdbSet { s with db := (s.db.addCreate i).addModify i } e.name (env e.name) i true = s2
      have hst : envLoop true env te s (e :: l) = envLoop true env te s2 l := by
        have : envMatch e.name e.value (env e.name) = false := by
          rw [Bool.eq_false_iff]
          exact fun h => hm (envMatch_iff.1 h)
        rw [← hs2]
        simp only [envLoop, hi, envCb, if_true, this, Bool.false_eq_true, if_false]
      obtain ⟨t, h0, h1, h2, h3, h4, h5, h6, h7⟩ := ih s2 hs'
      have c1 : ∀ j, s2.db.create j = true ↔ s.db.create j = true ∨ j = i := by
        intro j
        rw [← hs2]
        simp [envdbSet, setVar, Db.addCreate, Db.addModify]
      have c2 : ∀ j, s2.db.modify j = true ↔ s.db.modify j = true ∨ j = i := by
        intro j
        rw [← hs2]
        simp [envdbSet, setVar, Db.addCreate, Db.addModify]
      have c3 : ∀ j, s2.db.vars j = if j = i then some (full e.name (env e.name)) else s.db.vars j := by
        intro j
        rw [← hs2]
        rfl
      have hij : ∀ j, te e.name = some j ↔ j = i := by
        intro j
        rw [hi, Option.some.injEq]
        exact eq_comm
      refine ⟨t, hst.trans h0, h1.trans (by rw [← hs2]; rfl), h2.trans (by rw [← hs2]; rfl), h3.trans (by rw [← hs2]; rfl),
        fun j => ?_, fun j => ?_, fun j => ?_, fun n => ?_⟩
      · rw [h4, c1]
        simp only [List.mem_cons, exists_eq_or_imp, hij, hm, ne_eq, not_false_eq_true, and_true, or_assoc]
      · rw [h5, c2]
        simp only [List.mem_cons, exists_eq_or_imp, hij, hm, ne_eq, not_false_eq_true, and_true, or_assoc]
      · rcases h6 j with ⟨x, g1, g2⟩ | ⟨g1, g2⟩
        · exact .inl ⟨x, List.mem_cons_of_mem _ g1, g2⟩
        · by_cases hj : j = i
          · subst hj
            exact .inl ⟨e, List.mem_cons_self, hi, hm, by rw [g2, c3, if_pos rfl]⟩
          · refine .inr ⟨fun x hx hxj => ?_, by rw [g2, c3, if_neg hj]⟩
            rcases List.mem_cons.1 hx with rfl | hx
            · exact absurd ((hij j).1 hxj) hj
            · exact g1 x hx hxj
      · rcases h7 n with ⟨x, g1, g2⟩ | ⟨g1, g2⟩
        · exact .inl ⟨x, List.mem_cons_of_mem _ g1, g2⟩
        · by_cases hn : e.name = n
          · refine .inl ⟨e, List.mem_cons_self, hn, ?_⟩
            rw [g2, ← hs2]
            subst hn
            simp [envdbSet, hi]
          · refine .inr ⟨fun x hx => ?_, ?_⟩
            · rcases List.mem_cons.1 hx with rfl | hx
              · exact hn
              · exact g1 x hx
            · rw [g2, ← hs2]
              simp [envdbSet, Ne.symm hn]

/-- What the loop does, without the check. -/
theorem envLoop_off {env : Str → Option Str} {te : Str → Option Nat} : ∀ (l : List Var) (s : EnvSt),
    (∀ e ∈ l, (te e.name).isSome = true ∧ ∃ x, e.value = full e.name x) →
    ∃ t, envLoop false env te s l = some t ∧ t.db = s.db ∧
      (∀ n, (∃ e ∈ l, e.name = n ∧ t.cache n = (te n).map fun i => (i, e.value)) ∨
        ((∀ e ∈ l, e.name ≠ n) ∧ t.cache n = s.cache n)) := by
  intro l
  induction l with
  | nil =>
    intro s _
    exact ⟨s, rfl, rfl, by simp⟩
  | cons e l ih =>
    intro s hs
    obtain ⟨h1, x, hx⟩ := hs e List.mem_cons_self
    obtain ⟨i, hi⟩ := Option.isSome_iff_exists.1 h1
    have hs' : ∀ e ∈ l, (te e.name).isSome = true ∧ ∃ x, e.value = full e.name x :=
      fun e he => hs e (List.mem_cons_of_mem _ he)
    have hst : envLoop false env te s (e :: l) = envLoop false env te (envdbSet s e.name x i false) l := by
      simp only [envLoop, hi, envCb, Bool.false_eq_true, if_false]
      rw [hx]
      cases x with
      | none => rfl
      | some v =>
        simp only [full, Option.map_some]
        rw [if_pos (by rw [List.length_append, List.length_cons]; omega)]
        simp only
        rw [show (e.name ++ '=' :: v).drop (e.name.length + 1) = v by
          rw [← List.drop_drop, List.drop_left]; rfl]
    obtain ⟨t, h0, h2, h7⟩ := ih (envdbSet s e.name x i false) hs'
    refine ⟨t, hst.trans h0, h2, fun n => ?_⟩
    rcases h7 n with ⟨y, g1, g2⟩ | ⟨g1, g2⟩
    · exact .inl ⟨y, List.mem_cons_of_mem _ g1, g2⟩
    · by_cases hn : e.name = n
      · refine .inl ⟨e, List.mem_cons_self, hn, ?_⟩
        rw [g2]
        subst hn
        simp [envdbSet, hi, hx]
      · refine .inr ⟨fun y hy => ?_, ?_⟩
        · rcases List.mem_cons.1 hy with rfl | hy
          · exact hn
          · exact g1 y hy
        · rw [g2]
          simp [envdbSet, Ne.symm hn]

section
variable {db : Db} {d : Nat} {u : Vardb} {env : Str → Option Str}

theorem env_entries (hp : EnvProper db d) (hu : VarRun ⟨.nil, 0⟩ (loads db (rows db d)) u) (e : Var) :
    e ∈ u.root.toList ↔ ∃ x, e.value = full e.name x ∧ EnvStored db d e.name x := by
  obtain ⟨n, y⟩ := e
  rw [loadedAny hp.bounded hp.unique hu]
  constructor
  · rintro ⟨i, nd, h1, h2, h3, h4⟩
    obtain ⟨x, hx⟩ := hp.rows i nd h1 h2
    rw [h3] at hx
    have := stored_id hp.unique hx h1 h2 h3
    exact ⟨x, Option.some.inj (h4.symm.trans this), hx⟩
  · rintro ⟨x, h1, i, nd, h2, h3, h4, h5⟩
    exact ⟨i, nd, h2, h3, h4, by rw [h5]; exact congrArg some h1.symm⟩

theorem env_tent (hp : EnvProper db d) {n : Str} {i : Nat} {nd : Node} (h1 : db.node i = some nd) (h2 : nd.dir = d)
    (h3 : nd.name = n) : tent db (rows db d) n = some i := by
  subst h3
  obtain ⟨x, hx⟩ := hp.rows i nd h1 h2
  exact tent_eq hp.bounded hp.unique h1 h2 (by rw [stored_id hp.unique hx h1 h2 rfl]; rfl)

theorem env_tents (hp : EnvProper db d) (hu : VarRun ⟨.nil, 0⟩ (loads db (rows db d)) u) :
    ∀ e ∈ u.root.toList, (tent db (rows db d) e.name).isSome = true ∧ ∃ x, e.value = full e.name x := by
  intro e he
  obtain ⟨x, h1, h2⟩ := (env_entries hp hu e).1 he
  obtain ⟨i, nd, g1, g2, g3, _⟩ := h2
  exact ⟨by rw [env_tent hp g1 g2 g3]; rfl, x, h1⟩

/-- The mismatches of the loop are the changed variables. -/
theorem env_flag (hp : EnvProper db d) (hu : VarRun ⟨.nil, 0⟩ (loads db (rows db d)) u) (j : Nat) :
    (∃ e ∈ u.root.toList, tent db (rows db d) e.name = some j ∧ e.value ≠ full e.name (env e.name)) ↔
      ∃ n, EnvChanged db d env n ∧ Names db d n j := by
  constructor
  · rintro ⟨e, he, h1, h2⟩
    obtain ⟨x, h3, h4⟩ := (env_entries hp hu e).1 he
    refine ⟨e.name, ⟨x, h4, fun hx => h2 (by rw [h3, hx])⟩, ?_⟩
    obtain ⟨i, nd, g1, g2, g3, _⟩ := h4
    rw [env_tent hp g1 g2 g3] at h1
    cases h1
    exact ⟨nd, g1, g2, g3⟩
  · rintro ⟨n, ⟨x, h1, h2⟩, nd, h3, h4, h5⟩
    refine ⟨⟨n, full n x⟩, (env_entries hp hu _).2 ⟨x, rfl, h1⟩, env_tent hp h3 h4 h5, fun h => h2 ?_⟩
    exact full_inj.1 h

/-- With the check: the stored values become those of the environment, for all variables that are known; the known
variables stay the same; and the cache has exactly these. -/
theorem c42_values (hp : EnvProper db d) (hu : VarRun ⟨.nil, 0⟩ (loads db (rows db d)) u) :
    ∃ t, checkEnv true env db d u = some t ∧ EnvProper t.db d ∧
      (∀ n x, EnvStored t.db d n x ↔ (∃ y, EnvStored db d n y) ∧ x = env n) ∧
      ∀ n i v, t.cache n = some (i, v) ↔ Names db d n i ∧ v = full n (env n) := by
  obtain ⟨t, h0, h1, h2, h3, h4, h5, h6, h7⟩ := envLoop_on (env := env) (te := tent db (rows db d)) u.root.toList
    ⟨db, fun _ => none⟩ (fun e he => (env_tents hp hu e he).1)
  have hvars : ∀ i nd, db.node i = some nd → nd.dir = d → t.db.vars i = some (full nd.name (env nd.name)) := by
    intro i nd g1 g2
    obtain ⟨x, hx⟩ := hp.rows i nd g1 g2
    rcases h6 i with ⟨e, he, k1, k2, k3⟩ | ⟨k1, k2⟩
    · rw [k3]
      obtain ⟨y, _, i', nd', m1, m2, m3, _⟩ := (env_entries hp hu e).1 he
      rw [env_tent hp m1 m2 m3] at k1
      cases k1
      rw [g1] at m1
      cases m1
      rw [m3]
    · rw [k2]
      have := k1 ⟨nd.name, full nd.name x⟩ ((env_entries hp hu _).2 ⟨x, rfl, hx⟩) (env_tent hp g1 g2 rfl)
      rw [show (⟨db, fun _ => none⟩ : EnvSt).db.vars i = some (full nd.name x) from stored_id hp.unique hx g1 g2 rfl]
      exact congrArg some this
  have hst : ∀ n x, EnvStored t.db d n x ↔ (∃ y, EnvStored db d n y) ∧ x = env n := by
    intro n x
    constructor
    · rintro ⟨i, nd, g1, g2, g3, g4⟩
      rw [h1] at g1
      obtain ⟨y, hy⟩ := hp.rows i nd g1 g2
      rw [g3] at hy
      refine ⟨⟨y, hy⟩, ?_⟩
      have := hvars i nd g1 g2
      rw [g3] at this
      exact full_inj.1 (Option.some.inj (g4.symm.trans this))
    · rintro ⟨⟨y, i, nd, g1, g2, g3, _⟩, rfl⟩
      refine ⟨i, nd, by rw [h1]; exact g1, g2, g3, ?_⟩
      rw [hvars i nd g1 g2, g3]
      rfl
  refine ⟨t, h0, ⟨?_, ?_, ?_⟩, hst, ?_⟩
  · intro i hi
    rw [h1]
    rw [h2] at hi
    exact hp.bounded i hi
  · intro i j a b
    rw [h1]
    exact hp.unique i j a b
  · intro i nd g1 g2
    rw [h1] at g1
    exact ⟨env nd.name, (hst _ _).2 ⟨hp.rows i nd g1 g2, rfl⟩⟩
  · intro n i v
    rcases h7 n with ⟨e, he, g1, g2⟩ | ⟨g1, g2⟩
    · obtain ⟨x, _, j, nd, k1, k2, k3, _⟩ := (env_entries hp hu e).1 he
      rw [g2, env_tent hp k1 k2 (k3.trans g1), Option.map_some, Option.some.injEq, Prod.mk.injEq]
      constructor
      · rintro ⟨rfl, rfl⟩
        exact ⟨⟨nd, k1, k2, k3.trans g1⟩, rfl⟩
      · rintro ⟨⟨m, m1, m2, m3⟩, rfl⟩
        exact ⟨hp.unique j i nd m k1 m1 (k2.trans m2.symm) ((k3.trans g1).trans m3.symm), rfl⟩
    · rw [g2]
      constructor
      · intro h; cases h
      · rintro ⟨⟨nd, k1, k2, k3⟩, _⟩
        obtain ⟨x, hx⟩ := hp.rows i nd k1 k2
        rw [k3] at hx
        exact absurd rfl (g1 ⟨n, full n x⟩ ((env_entries hp hu _).2 ⟨x, rfl, hx⟩))

/-- With the check: what is going to be parsed and run is what was going to be before, and the users of the variables
whose value has changed (or that have been set or unset). -/
theorem c42_scheduled (hp : EnvProper db d) (hu : VarRun ⟨.nil, 0⟩ (loads db (rows db d)) u) {t : EnvSt}
    (ht : checkEnv true env db d u = some t) (j : Nat) :
    (Parses t.db j ↔ Parses db j ∨ ∃ n, EnvChanged db d env n ∧ (Names db d n j ∨ Uses db d n j)) ∧
    (Runs t.db j ↔ Runs db j ∨ ∃ n, EnvChanged db d env n ∧ (Names db d n j ∨ Uses db d n j)) := by
  obtain ⟨t', h0, h1, h2, h3, h4, h5, _, _⟩ := envLoop_on (env := env) (te := tent db (rows db d)) u.root.toList
    ⟨db, fun _ => none⟩ (fun e he => (env_tents hp hu e he).1)
  have : t = t' := Option.some.inj (ht.symm.trans h0)
  subst this
  simp only [env_flag hp hu] at h4 h5
  constructor
  · unfold Parses
    rw [h3]
    simp only [h4]
    constructor
    · rintro ((h | ⟨n, h, h'⟩) | ⟨i, h | ⟨n, h, h'⟩, hl⟩)
      · exact .inl (.inl h)
      · exact .inr ⟨n, h, .inl h'⟩
      · exact .inl (.inr ⟨i, h, hl⟩)
      · exact .inr ⟨n, h, .inr ⟨i, h', hl⟩⟩
    · rintro ((h | ⟨i, h, hl⟩) | ⟨n, h, h' | ⟨i, h', hl⟩⟩)
      · exact .inl (.inl h)
      · exact .inr ⟨i, .inl h, hl⟩
      · exact .inl (.inr ⟨n, h, h'⟩)
      · exact .inr ⟨i, .inr ⟨n, h, h'⟩, hl⟩
  · unfold Runs
    rw [h3]
    simp only [h5]
    constructor
    · rintro ((h | ⟨n, h, h'⟩) | ⟨i, h | ⟨n, h, h'⟩, hl⟩)
      · exact .inl (.inl h)
      · exact .inr ⟨n, h, .inl h'⟩
      · exact .inl (.inr ⟨i, h, hl⟩)
      · exact .inr ⟨n, h, .inr ⟨i, h', hl⟩⟩
    · rintro ((h | ⟨i, h, hl⟩) | ⟨n, h, h' | ⟨i, h', hl⟩⟩)
      · exact .inl (.inl h)
      · exact .inr ⟨i, .inl h, hl⟩
      · exact .inl (.inr ⟨n, h, h'⟩)
      · exact .inr ⟨i, .inr ⟨n, h, h'⟩, hl⟩

/-- Without the check nothing is changed in the database, and commands get the stored values. -/
theorem c42_off (hp : EnvProper db d) (hu : VarRun ⟨.nil, 0⟩ (loads db (rows db d)) u) :
    ∃ t, checkEnv false env db d u = some t ∧ t.db = db ∧
      ∀ n i v, t.cache n = some (i, v) ↔ Names db d n i ∧ ∃ x, EnvStored db d n x ∧ v = full n x := by
  obtain ⟨t, h0, h1, h7⟩ := envLoop_off (env := env) (te := tent db (rows db d)) u.root.toList
    ⟨db, fun _ => none⟩ (env_tents hp hu)
  refine ⟨t, h0, h1, fun n i v => ?_⟩
  rcases h7 n with ⟨e, he, g1, g2⟩ | ⟨g1, g2⟩
  · obtain ⟨x, hx, hsx⟩ := (env_entries hp hu e).1 he
    have hsx' := hsx
    obtain ⟨j, nd, k1, k2, k3, _⟩ := hsx'
    rw [g2, env_tent hp k1 k2 (k3.trans g1), Option.map_some, Option.some.injEq, Prod.mk.injEq]
    constructor
    · rintro ⟨rfl, rfl⟩
      exact ⟨⟨nd, k1, k2, k3.trans g1⟩, x, g1 ▸ hsx, by rw [hx, g1]⟩
    · rintro ⟨⟨m, m1, m2, m3⟩, y, hy, rfl⟩
      refine ⟨hp.unique j i nd m k1 m1 (k2.trans m2.symm) ((k3.trans g1).trans m3.symm), ?_⟩
      rw [hx, g1]
      have a := stored_id hp.unique (g1 ▸ hsx : EnvStored db d n x) m1 m2 m3
      have b := stored_id hp.unique hy m1 m2 m3
      exact Option.some.inj (a.symm.trans b)
  · rw [g2]
    constructor
    · intro h; cases h
    · rintro ⟨⟨nd, k1, k2, k3⟩, _⟩
      obtain ⟨x, hx⟩ := hp.rows i nd k1 k2
      rw [k3] at hx
      exact absurd rfl (g1 ⟨n, full n x⟩ ((env_entries hp hu _).2 ⟨x, rfl, hx⟩))

/-- A variable that is used for the first time is stored with the value that it has, so that later changes are
noticed; the ones that are known are returned from the cache. -/
theorem c42_new {s : EnvSt} (hp : EnvProper s.db d) (hc : ∀ n i v, s.cache n = some (i, v) → Names s.db d n i)
    (hc' : ∀ n i, Names s.db d n i → (s.cache n).isSome = true) (n : Str) :
    ∃ t i v, findEnv env d s n = some (t, (i, v)) ∧ t.cache n = some (i, v) ∧ Names t.db d n i ∧ EnvProper t.db d ∧
      (s.cache n = some (i, v) ∧ t.db = s.db ∨
        s.cache n = none ∧ v = full n (env n) ∧ EnvStored t.db d n (env n) ∧
          ∀ m x, m ≠ n → (EnvStored t.db d m x ↔ EnvStored s.db d m x)) := by
  unfold findEnv
  cases hn : s.cache n with
  | some r => exact ⟨s, r.1, r.2, rfl, hn, hc _ _ _ hn, hp, .inl ⟨rfl, rfl⟩⟩
  | none =>
    have hnone : ∀ i nd, s.db.node i = some nd → nd.dir = d → nd.name ≠ n := by
      intro i nd h1 h2 h3
      have := hc' n i ⟨nd, h1, h2, h3⟩
      rw [hn] at this
      cases this
    have hsel : s.db.select d n = none := by
      cases hs : s.db.select d n with
      | none => rfl
      | some i =>
        obtain ⟨nd, h1, h2, h3⟩ := select_some hs
        exact absurd h3 (hnone i nd h1 h2)
    simp only [hsel]
    generalize hi : fresh s.db.node s.db.top = i
    have hfr : s.db.node i = none := by rw [← hi]; exact fresh_node hp.bounded
    generalize ht : envdbSet { s with db := (s.db.insertNode { dir := d, kind := .var, name := n }).1 } n (env n)
      (s.db.insertNode { dir := d, kind := .var, name := n }).2 true = t
    have hnode : ∀ j, t.db.node j = if j = i then some { dir := d, kind := .var, name := n } else s.db.node j := by
      intro j; rw [← ht, ← hi]; rfl
    have hvars : ∀ j, t.db.vars j = if j = i then some (full n (env n)) else s.db.vars j := by
      intro j; rw [← ht, ← hi]; rfl
    have hcache : t.cache n = some (i, full n (env n)) := by
      rw [← ht, ← hi]
      show (if n = n then _ else _) = _
      rw [if_pos rfl]
      rfl
    have htop : t.db.top = max s.db.top (i + 1) := by rw [← ht, ← hi]; rfl
    have hold : ∀ j, j ≠ i → t.db.node j = s.db.node j := fun j hj => by rw [hnode, if_neg hj]
    have hnew : t.db.node i = some { dir := d, kind := .var, name := n } := by rw [hnode, if_pos rfl]
    have hstn : EnvStored t.db d n (env n) := ⟨i, _, hnew, rfl, rfl, by rw [hvars, if_pos rfl]; rfl⟩
    have hst : ∀ m x, m ≠ n → (EnvStored t.db d m x ↔ EnvStored s.db d m x) := by
      intro m x hm
      constructor
      · rintro ⟨j, nd, g1, g2, g3, g4⟩
        by_cases hj : j = i
        · subst hj
          rw [hnew] at g1
          cases g1
          exact absurd g3.symm hm
        · rw [hold j hj] at g1
          rw [hvars, if_neg hj] at g4
          exact ⟨j, nd, g1, g2, g3, g4⟩
      · rintro ⟨j, nd, g1, g2, g3, g4⟩
        have hj : j ≠ i := fun hj => by rw [hj, hfr] at g1; cases g1
        exact ⟨j, nd, by rw [hold j hj]; exact g1, g2, g3, by rw [hvars, if_neg hj]; exact g4⟩
    refine ⟨t, i, full n (env n), ?_, hcache, ⟨_, hnew, rfl, rfl⟩, ⟨?_, ?_, ?_⟩, .inr ⟨trivial, rfl, hstn, hst⟩⟩
    · rw [← ht, ← hi]
      rfl
    · intro j hj
      rw [htop] at hj
      rw [hold j (by omega)]
      exact hp.bounded j (by omega)
    · intro a b x y g1 g2 g3 g4
      by_cases ha : a = i
      · subst ha
        rw [hnew] at g1
        cases g1
        by_cases hb : b = a
        · exact hb.symm
        · rw [hold b hb] at g2
          exact absurd g4.symm (hnone b y g2 g3.symm)
      · rw [hold a ha] at g1
        by_cases hb : b = i
        · subst hb
          rw [hnew] at g2
          cases g2
          exact absurd g4 (hnone a x g1 g3)
        · rw [hold b hb] at g2
          exact hp.unique a b x y g1 g2 g3 g4
    · intro j nd g1 g2
      by_cases hj : j = i
      · subst hj
        rw [hnew] at g1
        cases g1
        exact ⟨_, hstn⟩
      · rw [hold j hj] at g1
        obtain ⟨x, hx⟩ := hp.rows j nd g1 g2
        exact ⟨x, (hst _ x (hnone j nd g1 g2)).2 hx⟩

end

/-! ## An example: `A` was `1` and is `2`, `B` was not set and is `x`, `C` is not changed -/

/-- A database for the example. -/
def envDb : Db where
  node := fun i =>
    match i with
    | 2 => some { dir := 1, kind := .dir, name := ['$'] }
    | 3 => some { dir := 2, kind := .var, name := ['A'] }
    | 4 => some { dir := 2, kind := .var, name := ['B'] }
    | 5 => some { dir := 2, kind := .var, name := ['C'] }
    | 12 => some { dir := 10, kind := .cmd, name := ['x'] }
    | _ => none
  top := 14
  normal := fun a b => a == 4 && b == 12
  sticky := fun _ _ => false
  group := fun _ _ _ => false
  vars := fun i =>
    match i with
    | 3 => some (some ['A', '=', '1'])
    | 4 => some none
    | 5 => some (some ['C', '=', 'c'])
    | _ => none
  config := fun _ => false
  create := fun _ => false
  modify := fun _ => false
  variant := fun _ => false
  transient := fun _ => false
  ghosts := fun _ => false

/-- The environment. -/
def envEx (n : Str) : Option Str :=
  if n = ['A'] then some ['2'] else if n = ['B'] then some ['x'] else if n = ['C'] then some ['c'] else none

theorem envDbProper : EnvProper envDb 2 where
  bounded := by
    intro i hi
    have : (14 : Nat) ≤ i := hi
    show (match i with | 2 => _ | 3 => _ | 4 => _ | 5 => _ | 12 => _ | _ => _) = _
    split <;> first | omega | rfl
  unique := by
    intro i j a b h1 h2 h3 h4
    simp only [envDb] at h1 h2
    split at h1 <;> cases h1 <;> split at h2 <;> cases h2 <;> first | rfl | (simp at h3; done) | (simp at h4; done)
  rows := by
    intro i nd h1 h2
    simp only [envDb] at h1
    split at h1 <;> cases h1
    · simp at h2
    · exact ⟨some ['1'], 3, _, rfl, rfl, rfl, rfl⟩
    · exact ⟨none, 4, _, rfl, rfl, rfl, rfl⟩
    · exact ⟨some ['c'], 5, _, rfl, rfl, rfl, rfl⟩
    · simp at h2

example : (checkEnv true envEx envDb 2 (plain ⟨.nil, 0⟩ (loads envDb (rows envDb 2)))).map (fun t =>
      [t.db.create 3, t.db.modify 4, t.db.modify 5, decide (t.db.vars 4 = some (some ['B', '=', 'x']))]) =
    some [true, true, false, true] := by
  decide +kernel

example : EnvChanged envDb 2 envEx ['B'] ∧ Uses envDb 2 ['B'] 12 :=
  ⟨⟨none, ⟨4, { dir := 2, kind := .var, name := ['B'] }, rfl, rfl, rfl, rfl⟩, by decide⟩, 4,
    ⟨{ dir := 2, kind := .var, name := ['B'] }, rfl, rfl, rfl⟩, rfl⟩

end Tup.VarStore
