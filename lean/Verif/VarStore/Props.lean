import Verif.VarStore.Run

/-!
Reading `tup.config` makes the stored variables those of the file, and schedules the users of what has changed
(C16).
-/

namespace Tup.VarStore

open Db Tree Config

variable {s : St} {d : Nat} {bs : List (Str × Str)}

/-- `t` is the state after the file with the bindings `bs` has been read. -/
def Read (s : St) (d : Nat) (bs : List (Str × Str)) (t : St) : Prop :=
  ∃ u v, VarRun ⟨.nil, 0⟩ (loads s.db (rows s.db d)) u ∧ VarRun ⟨.nil, 0⟩ (fileLoads bs) v ∧
    readVars s d u v = some t

/-- The stores that are filled without rebalancing the tree. -/
def plain (s : Vardb) (l : List (VarOp × VarAns)) : Vardb := l.foldl (fun s o => (varStep s o.1).2) s

theorem plain_run {l : List (VarOp × VarAns)} (hl : ∀ o ∈ l, ∃ n v, o = (.set n v, .unit)) (s : Vardb) :
    VarRun s l (plain s l) := by
  induction l generalizing s with
  | nil => exact .nil s
  | cons o l ih =>
    obtain ⟨n, v, rfl⟩ := hl o List.mem_cons_self
    exact .cons rfl (.refl _) (ih (fun o ho => hl o (List.mem_cons_of_mem _ ho)) _)

theorem loads_sets (db : Db) (l : List Nat) : ∀ o ∈ loads db l, ∃ n v, o = (.set n v, .unit) := by
  intro o ho
  obtain ⟨i, _, h⟩ := List.mem_filterMap.1 ho
  split at h
  · exact ⟨_, _, (Option.some.inj h).symm⟩
  · cases h

theorem fileLoads_sets (bs : List (Str × Str)) : ∀ o ∈ fileLoads bs, ∃ n v, o = (.set n v, .unit) := by
  intro o ho
  obtain ⟨b, _, h⟩ := List.mem_map.1 ho
  exact ⟨_, _, h.symm⟩

/-- Reading the file does not fail, whatever the trees look like. -/
theorem c16_total (hp : Proper s.db d) (bs : List (Str × Str)) :
    (∃ t, Read s d bs t) ∧
    ∀ u v, VarRun ⟨.nil, 0⟩ (loads s.db (rows s.db d)) u → VarRun ⟨.nil, 0⟩ (fileLoads bs) v →
      ∃ t, readVars s d u v = some t := by
  have h : ∀ u v, VarRun ⟨.nil, 0⟩ (loads s.db (rows s.db d)) u → VarRun ⟨.nil, 0⟩ (fileLoads bs) v →
      ∃ t, readVars s d u v = some t := by
    intro u v hu hv
    obtain ⟨_, _, t, h, _⟩ := run hp hu hv
    exact ⟨t, h⟩
  refine ⟨?_, h⟩
  have hu := plain_run (loads_sets s.db (rows s.db d)) ⟨.nil, 0⟩
  have hv := plain_run (fileLoads_sets bs) ⟨.nil, 0⟩
  obtain ⟨t, ht⟩ := h _ _ hu hv
  exact ⟨t, _, _, hu, hv, ht⟩

theorem read_inv {t : St} (hp : Proper s.db d) (h : Read s d bs t) :
    ∃ F, (∀ n w, F n = some w ↔ Last bs n w) ∧
      Inv s.db d F (fun n => (∃ w, Value s.db d n w) ∨ ∃ w, Last bs n w) t ∧
      (t.changed = true ↔ s.changed = true ∨ ∃ n, Changed s.db d bs n) := by
  obtain ⟨u, v, hu, hv, hr⟩ := h
  obtain ⟨F, hF, t', h1, h2, h3⟩ := run hp hu hv
  rw [hr] at h1
  cases h1
  exact ⟨F, hF, h2, h3⟩

/-- The stored variables are those of the file, with the values of the file; the database stays proper. -/
theorem c16_values {t : St} (hp : Proper s.db d) (h : Read s d bs t) :
    Proper t.db d ∧ ∀ n w, Value t.db d n w ↔ Last bs n w := by
  obtain ⟨F, hF, hi, _⟩ := read_inv hp h
  refine ⟨hi.proper, fun n w => ?_⟩
  rw [← hF]
  by_cases hP : (∃ w, Value s.db d n w) ∨ ∃ w, Last bs n w
  · exact hi.done n hP w
  · constructor
    · rintro ⟨i, nd, h1, h2, h3, h4⟩
      subst h3
      have h5 := hi.todoVars i nd h2 hP h1
      exact absurd (.inl ⟨w, i, nd, (hi.todo i nd h2 hP).1 h1, h2, rfl, h5 ▸ h4⟩) hP
    · intro h1
      exact absurd (.inr ⟨w, (hF n w).1 h1⟩) hP

/-- A node of a changed variable is gone or has a new value. -/
theorem changed_node {F : Str → Option Str} (hp : Proper s.db d) (hF : ∀ n w, F n = some w ↔ Last bs n w) {n : Str} {i : Nat}
    (hn : Names s.db d n i) :
    Changed s.db d bs n ↔
      Rem s.db d F (fun n => (∃ w, Value s.db d n w) ∨ ∃ w, Last bs n w) i ∨
      Tou s.db d F (fun n => (∃ w, Value s.db d n w) ∨ ∃ w, Last bs n w) i := by
  obtain ⟨nd, h1, h2, h3⟩ := hn
  subst h3
  have hval : ∀ w, Value s.db d nd.name w ↔ s.db.vars i = some (some w) := by
    intro w
    constructor
    · rintro ⟨j, m, g1, g2, g3, g4⟩
      have := hp.unique j i m nd g1 h1 (g2.trans h2.symm) g3
      subst this
      exact g4
    · intro h
      exact ⟨i, nd, h1, h2, rfl, h⟩
  constructor
  · intro hc
    cases hf : F nd.name with
    | some w =>
      right
      refine ⟨nd, w, h1, h2, .inr ⟨w, (hF _ _).1 hf⟩, hf, fun hw => hc fun x => ?_⟩
      rw [hval, hw, ← hF, hf]
      simp
    | none =>
      left
      have hno : ∀ x, ¬ Last bs nd.name x := fun x hx => by
        have := (hF _ _).2 hx
        rw [hf] at this
        cases this
      have : ∃ x, Value s.db d nd.name x := Classical.byContradiction fun hx => hc fun x =>
        ⟨fun h => absurd ⟨x, h⟩ hx, fun h => absurd h (hno x)⟩
      obtain ⟨x, hx⟩ := this
      exact ⟨nd, h1, h2, .inl ⟨x, hx⟩, by rw [(hval x).1 hx]; rfl, hf⟩
  · rintro (⟨m, g1, g2, g3, g4, g5⟩ | ⟨m, w, g1, g2, g3, g4, g5⟩) hall
    · rw [h1] at g1
      cases g1
      rcases hp.kinds i nd h1 h2 with hk | hk
      · obtain ⟨w, hw⟩ := hk.2
        have := (hF _ _).2 ((hall w).1 ((hval w).2 hw))
        rw [g5] at this
        cases this
      · rw [hk.2] at g4; cases g4
    · rw [h1] at g1
      cases g1
      exact g5 ((hval w).1 ((hall w).2 ((hF _ _).1 g4)))

/-- Whatever was going to be parsed still is, and so is every Tupfile that used a variable that has been added,
removed or changed. -/
theorem c16_parses {t : St} (hp : Proper s.db d) (h : Read s d bs t) {j : Nat} (hj : s.db.isKind .dir j = true) :
    (Parses s.db j ∨ ∃ n, Changed s.db d bs n ∧ Uses s.db d n j) → Parses t.db j := by
  obtain ⟨F, hF, hi, _⟩ := read_inv hp h
  have hnr : ∀ Q, ¬ Rem s.db d F Q j := fun Q hr => by
    have := isKind_unique (Rem.kind hp hr) hj
    cases this
  rintro ((h1 | ⟨i, h1, h2⟩) | ⟨n, hc, i, hn, h2⟩)
  · exact .inl ((hi.create j).2 (.inl ⟨h1, hnr _⟩))
  · by_cases hr : Rem s.db d F (fun n => (∃ w, Value s.db d n w) ∨ ∃ w, Last bs n w) i
    · exact .inl ((hi.create j).2 (.inr (.inr ⟨i, hr, h2, hj⟩)))
    · exact .inr ⟨i, (hi.create i).2 (.inl ⟨h1, hr⟩), (hi.normal i j).2 ⟨h2, hr, hnr _⟩⟩
  · rcases (changed_node hp hF hn).1 hc with hr | ht
    · exact .inl ((hi.create j).2 (.inr (.inr ⟨i, hr, h2, hj⟩)))
    · refine .inr ⟨i, (hi.create i).2 (.inr (.inl ht)), (hi.normal i j).2 ⟨h2, ?_, hnr _⟩⟩
      rintro ⟨m, g1, _, _, _, g5⟩
      obtain ⟨m', w, g6, _, _, g7, _⟩ := ht
      rw [g1] at g6
      cases g6
      rw [g5] at g7
      cases g7

/-- Whatever was going to be run still is, and so is every command that used a variable that has been added,
removed or changed. -/
theorem c16_runs {t : St} (hp : Proper s.db d) (h : Read s d bs t) {j : Nat} (hj : s.db.isKind .cmd j = true) :
    (Runs s.db j ∨ ∃ n, Changed s.db d bs n ∧ Uses s.db d n j) → Runs t.db j := by
  obtain ⟨F, hF, hi, _⟩ := read_inv hp h
  have hnr : ∀ Q, ¬ Rem s.db d F Q j := fun Q hr => by
    have := isKind_unique (Rem.kind hp hr) hj
    cases this
  rintro ((h1 | ⟨i, h1, h2⟩) | ⟨n, hc, i, hn, h2⟩)
  · exact .inl ((hi.modify j).2 (.inl ⟨h1, hnr _⟩))
  · by_cases hr : Rem s.db d F (fun n => (∃ w, Value s.db d n w) ∨ ∃ w, Last bs n w) i
    · exact .inl ((hi.modify j).2 (.inr (.inr ⟨i, hr, h2, .inl hj⟩)))
    · exact .inr ⟨i, (hi.modify i).2 (.inl ⟨h1, hr⟩), (hi.normal i j).2 ⟨h2, hr, hnr _⟩⟩
  · rcases (changed_node hp hF hn).1 hc with hr | ht
    · exact .inl ((hi.modify j).2 (.inr (.inr ⟨i, hr, h2, .inl hj⟩)))
    · refine .inr ⟨i, (hi.modify i).2 (.inr (.inl ht)), (hi.normal i j).2 ⟨h2, ?_, hnr _⟩⟩
      rintro ⟨m, g1, _, _, _, g5⟩
      obtain ⟨m', w, g6, _, _, g7, _⟩ := ht
      rw [g1] at g6
      cases g6
      rw [g5] at g7
      cases g7

/-- Nothing else is scheduled: what has come to the list of things to parse is a changed variable or a Tupfile that
used one. -/
theorem c16_parses_only {t : St} (hp : Proper s.db d) (h : Read s d bs t) {j : Nat}
    (ht : t.db.create j = true) (hs : s.db.create j = false) :
    ∃ n, Changed s.db d bs n ∧ (Names s.db d n j ∨ (Uses s.db d n j ∧ s.db.isKind .dir j = true)) := by
  obtain ⟨F, hF, hi, _⟩ := read_inv hp h
  rcases (hi.create j).1 ht with h1 | h1 | ⟨i, h1, h2, h3⟩
  · rw [hs] at h1
    cases h1.1
  · have h1' := h1
    obtain ⟨nd, _, g1, g2, _⟩ := h1'
    exact ⟨nd.name, (changed_node hp hF ⟨nd, g1, g2, rfl⟩).2 (.inr h1), .inl ⟨nd, g1, g2, rfl⟩⟩
  · have h1' := h1
    obtain ⟨nd, g1, g2, _⟩ := h1'
    exact ⟨nd.name, (changed_node hp hF ⟨nd, g1, g2, rfl⟩).2 (.inl h1), .inr ⟨⟨i, ⟨nd, g1, g2, rfl⟩, h2⟩, h3⟩⟩

/-- The same for the commands. -/
theorem c16_runs_only {t : St} (hp : Proper s.db d) (h : Read s d bs t) {j : Nat}
    (ht : t.db.modify j = true) (hs : s.db.modify j = false) :
    ∃ n, Changed s.db d bs n ∧ (Names s.db d n j ∨
      (Uses s.db d n j ∧ (s.db.isKind .cmd j = true ∨ s.db.isKind .group j = true))) := by
  obtain ⟨F, hF, hi, _⟩ := read_inv hp h
  rcases (hi.modify j).1 ht with h1 | h1 | ⟨i, h1, h2, h3⟩
  · rw [hs] at h1
    cases h1.1
  · have h1' := h1
    obtain ⟨nd, _, g1, g2, _⟩ := h1'
    exact ⟨nd.name, (changed_node hp hF ⟨nd, g1, g2, rfl⟩).2 (.inr h1), .inl ⟨nd, g1, g2, rfl⟩⟩
  · have h1' := h1
    obtain ⟨nd, g1, g2, _⟩ := h1'
    exact ⟨nd.name, (changed_node hp hF ⟨nd, g1, g2, rfl⟩).2 (.inl h1), .inr ⟨⟨i, ⟨nd, g1, g2, rfl⟩, h2⟩, h3⟩⟩

/-- The flag that makes tup write the variable file again is set exactly when something has changed. -/
theorem c16_vardict {t : St} (hp : Proper s.db d) (h : Read s d bs t) :
    t.changed = true ↔ s.changed = true ∨ ∃ n, Changed s.db d bs n := by
  obtain ⟨_, _, _, h⟩ := read_inv hp h
  exact h

/-- Nothing of other directories is touched. -/
theorem c16_others {t : St} (hp : Proper s.db d) (h : Read s d bs t) (i : Nat) (nd : Node) (hd : nd.dir ≠ d) :
    t.db.node i = some nd ↔ s.db.node i = some nd := by
  obtain ⟨_, _, hi, _⟩ := read_inv hp h
  exact hi.outer i nd hd

/-! ## An example: variables `A` (changed), `B` (removed, used by command 12), `C` (a ghost used by directory 10,
added) and `D` (unchanged, used by command 13) -/

/-- A database for the example. -/
def exDb : Db where
  node := fun i =>
    match i with
    | 1 => some { dir := 0, kind := .dir, name := ['.'] }
    | 2 => some { dir := 1, kind := .file, name := ['c'] }
    | 3 => some { dir := 2, kind := .var, name := ['A'] }
    | 4 => some { dir := 2, kind := .var, name := ['B'] }
    | 5 => some { dir := 2, kind := .ghost, name := ['C'] }
    | 6 => some { dir := 2, kind := .var, name := ['D'] }
    | 10 => some { dir := 1, kind := .dir, name := ['s'] }
    | 12 => some { dir := 10, kind := .cmd, name := ['x'] }
    | 13 => some { dir := 10, kind := .cmd, name := ['y'] }
    | _ => none
  top := 14
  normal := fun a b => (a == 4 && b == 12) || (a == 5 && b == 10) || (a == 6 && b == 13)
  sticky := fun _ _ => false
  group := fun _ _ _ => false
  vars := fun i =>
    match i with
    | 3 => some (some ['y'])
    | 4 => some (some ['1'])
    | 6 => some (some ['7'])
    | _ => none
  config := fun _ => false
  create := fun _ => false
  modify := fun _ => false
  variant := fun _ => false
  transient := fun _ => false
  ghosts := fun _ => false

/-- The file for the example. -/
def exFile : List (Str × Str) := [(['D'], ['7']), (['C'], ['n']), (['A'], ['n'])]

theorem exProper : Proper exDb 2 where
  bounded := by
    intro i hi
    have : (14 : Nat) ≤ i := hi
    show (match i with | 1 => _ | 2 => _ | 3 => _ | 4 => _ | 5 => _ | 6 => _ | 10 => _ | 12 => _ | 13 => _ | _ => _) = _
    split <;> first | omega | rfl
  unique := by
    intro i j a b h1 h2 h3 h4
    simp only [exDb] at h1 h2
    split at h1 <;> cases h1 <;> split at h2 <;> cases h2 <;> first | rfl | (simp at h3; done) | (simp at h4; done)
  kinds := by
    intro i nd h1 h2
    simp only [exDb] at h1
    split at h1 <;> cases h1 <;> first | (simp at h2; done) | (simp [exDb])

example : (readVars ⟨exDb, false⟩ 2 (plain ⟨.nil, 0⟩ (loads exDb (rows exDb 2)))
      (plain ⟨.nil, 0⟩ (fileLoads exFile))).map (fun t =>
        [t.changed, t.db.modify 12, t.db.modify 13, t.db.create 5, t.db.create 3, t.db.create 6, (t.db.node 4).isSome,
          decide (t.db.vars 3 = some (some ['n'])), decide (t.db.vars 5 = some (some ['n']))]) =
    some [true, true, false, true, true, false, false, true, true] := by
  decide +kernel

end Tup.VarStore
