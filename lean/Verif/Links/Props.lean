import Verif.Links.InputsLemmas

/-! Properties of the links that are recorded after a command has run (C24). -/

namespace Tup.Links

open Tup.Db Tup.Graph

variable {db : Db} {env cmd : Nat} {variant : Nat → Option Nat} {outputs read : List Nat}

/-- The two comparisons together. -/
theorem check_inputs_spec (h : Sound db) (hr : ReadSet db read) {db' : Db} {ok important : Bool}
    (he : checkInputs db env cmd variant outputs read = some (db', ok, important)) :
    ∃ m : List Nat,
      (∀ a, Missing db cmd outputs read a → a ∈ m) ∧
      (Acyclic db → ∀ a ∈ m, Missing db cmd outputs read a) ∧
      (∀ a ∈ m, a ∈ read ∧ a ∉ outputs ∧ db.sticky a cmd = false ∧ db.isKind .generated a = true) ∧
      (ok = true ↔ m = []) ∧
      db' = { db with normal := db'.normal, ghosts := db'.ghosts } ∧
      (∀ a b, b ≠ cmd → db'.normal a b = db.normal a b) ∧
      (∀ a, db'.normal a cmd = true ↔
        (a ∈ read ∧ (db.normal a cmd = true ∨ (a ∉ outputs ∧ a ∉ m))) ∨ EnvLink db env cmd a) ∧
      (∀ a, db'.ghosts a = true ↔ db.ghosts a = true ∨
        (Unused db env cmd read a ∧ db.sticky a cmd = false ∧ db.ghosty a = true)) ∧
      (important = true ↔ ∃ a, Unused db env cmd read a ∧ db.isKind .generated a = true) := by
  unfold checkInputs at he
  simp only at he
  have hst : Asc (stickyInputs db cmd) := asc_filter _ (asc_range _)
  have hrc : Asc (recordedInputs db env cmd) := asc_filter _ (asc_filter _ (asc_range _))
  split at he
  · cases he
  · rename_i s hs
    obtain ⟨f1, f2, f3⟩ := first_spec hr.asc hst hs
    simp only at f3
    split at he
    · cases he
    · rename_i s2 hs2
      cases he
      obtain ⟨sd, sm, si⟩ := s
      simp only at f1 f2 f3
      subst f1
      subst f2
      simp only at hs2 ⊢
      have hmid := second_spec hr.asc hrc (fun a ha => ((mem_recordedInputs h).1 ha).1) hs2
      obtain ⟨g1, g2, g3⟩ := checkGenerated_spec h
        ⟨cmd, variant, stickyInputs sd cmd, groupInputs sd cmd, outputs⟩
        (fun g hg => by
          have := (mem_groupInputs h).1 hg
          exact ⟨(mem_stickyInputs h).2 this.1, this.2⟩) sm (fun a ha => ((f3 a).1 ha).2.2.2)
      generalize hm : checkGenerated sd ⟨cmd, variant, stickyInputs sd cmd, groupInputs sd cmd, outputs⟩ sm = m at *
      simp only at g2 g3
      have hD1 : ∀ x, Ev.left x ∈ diff read (recordedInputs sd env cmd) ↔
          x ∈ read ∧ ¬ (sd.normal x cmd = true ∧ ¬ EnvLink sd env cmd x) := by
        intro x; rw [(mem_diff hr.asc hrc).1, mem_recordedInputs h]
      have hD2 : ∀ x, Ev.right x ∈ diff read (recordedInputs sd env cmd) ↔ Unused sd env cmd read x := by
        intro x; rw [(mem_diff hr.asc hrc).2, mem_recordedInputs h]; simp only [Unused, and_assoc]
      have hnotst : ∀ {x}, x ∉ stickyInputs sd cmd ↔ sd.sticky x cmd = false := by
        intro x; rw [mem_stickyInputs h]; simp
      refine ⟨m, ?_, ?_, ?_, ?_, hmid.rest, ?_, ?_, ?_, ?_⟩
      · intro a ha
        refine g2 a ((f3 a).2 ⟨ha.read, ?_, ha.notOutput, ha.generated⟩) ?_
        · intro hc
          exact ha.undeclared a ((mem_stickyInputs h).1 hc) (.inl rfl)
        · intro v hv _ hp
          exact ha.undeclared v ((mem_stickyInputs h).1 hv) (.inr hp)
      · intro hac a ha
        obtain ⟨k1, k2, k3, k4⟩ := (f3 a).1 (g1 a ha)
        refine ⟨k1, k4, k3, ?_⟩
        rintro v hv (rfl | hp)
        · exact k2 ((mem_stickyInputs h).2 hv)
        · refine g3 hac a ha v ((mem_stickyInputs h).2 hv) ?_ hp
          rintro rfl
          exact k2 ((mem_stickyInputs h).2 hv)
      · intro a ha
        obtain ⟨k1, k2, k3, k4⟩ := (f3 a).1 (g1 a ha)
        exact ⟨k1, k3, hnotst.1 k2, k4⟩
      · exact List.isEmpty_iff
      · intro a b hb
        have := hmid.normal a b
        simp only [hb, false_and, or_false, not_false_eq_true, and_true] at this
        exact Bool.eq_iff_iff.2 this
      · intro a
        rw [hmid.normal]
        simp only [true_and, hD1, hD2, Unused]
        have : EnvLink sd env cmd a → sd.normal a cmd = true := fun h => h.1
        have hmn : a ∈ m → ¬ EnvLink sd env cmd a := by
          intro ha hc
          have := ((f3 a).1 (g1 a ha)).2.1
          exact this ((mem_stickyInputs h).2 hc.2.1)
        grind
      · intro a
        rw [hmid.ghosts]
        simp only [hD2, hnotst]
      · rw [hmid.important]
        simp only [hD2]

/-- C24, first half: if the check succeeds, then every generated file the command has read is one of its outputs or is
declared, directly or through something made from it; and the recorded dependencies of the command are then what it
has read, apart from its outputs (a dependency on an output is at most kept), and the declared
environment variables.  Nothing else changes, except that entries that are not used any more are examined at
the end of the transaction. -/
theorem c24_accepted (h : Sound db) (hr : ReadSet db read) {db' : Db} {important : Bool}
    (he : checkInputs db env cmd variant outputs read = some (db', true, important)) :
    (∀ a, ¬ Missing db cmd outputs read a) ∧
    (∀ a, db'.normal a cmd = true ↔
      (a ∈ read ∧ (a ∉ outputs ∨ db.normal a cmd = true)) ∨ EnvLink db env cmd a) ∧
    (∀ a b, b ≠ cmd → db'.normal a b = db.normal a b) ∧
    (∀ a, db'.ghosts a = true ↔ db.ghosts a = true ∨
      (Unused db env cmd read a ∧ db.sticky a cmd = false ∧ db.ghosty a = true)) ∧
    db' = { db with normal := db'.normal, ghosts := db'.ghosts } := by
  obtain ⟨m, h1, h2, h3, h4, h5, h6, h7, h8, h9⟩ := check_inputs_spec h hr he
  have hm := h4.1 rfl
  subst hm
  refine ⟨fun a ha => ?_, fun a => ?_, h6, h8, h5⟩
  · have := h1 a ha; cases this
  · rw [h7]
    simp only [List.not_mem_nil, not_false_eq_true, and_true]
    grind

/-- C24: if no dependency of the command on its own outputs was recorded, then the recorded dependencies are exactly the
files read that are not outputs. -/
theorem c24_exact (h : Sound db) (hr : ReadSet db read) {db' : Db} {important : Bool}
    (ho : ∀ a ∈ outputs, db.normal a cmd = false) (henv : ∀ a, ¬ EnvLink db env cmd a)
    (he : checkInputs db env cmd variant outputs read = some (db', true, important)) :
    ∀ a, db'.normal a cmd = true ↔ a ∈ read ∧ a ∉ outputs := by
  intro a
  rw [(c24_accepted h hr he).2.1]
  have := ho a
  have := henv a
  grind

/-- C24, second half: reading a generated file that is not declared, and from which nothing is made that is declared, is an
error; and the dependency is not recorded. -/
theorem c24_rejected (h : Sound db) (hr : ReadSet db read) {a : Nat} (hm : Missing db cmd outputs read a)
    (hnew : db.normal a cmd = false) {db' : Db} {ok important : Bool}
    (he : checkInputs db env cmd variant outputs read = some (db', ok, important)) :
    ok = false ∧ db'.normal a cmd = false := by
  obtain ⟨m, h1, h2, h3, h4, h5, h6, h7, h8, h9⟩ := check_inputs_spec h hr he
  have ham := h1 a hm
  constructor
  · cases ok with
    | false => rfl
    | true => rw [h4.1 rfl] at ham; cases ham
  · cases hc : db'.normal a cmd with
    | false => rfl
    | true =>
      rcases (h7 a).1 hc with ⟨_, h | h⟩ | h
      · rw [hnew] at h; cases h
      · exact absurd ham h.2
      · have := h.1
        rw [hnew] at this; cases this

/-- C24: the check says whether a generated file had been used that is not read any more; if so, the commands that use the
outputs are not skipped. -/
theorem c24_important (h : Sound db) (hr : ReadSet db read) {db' : Db} {ok important : Bool}
    (he : checkInputs db env cmd variant outputs read = some (db', ok, important)) :
    important = true ↔ ∃ a, Unused db env cmd read a ∧ db.isKind .generated a = true := by
  obtain ⟨m, h1, h2, h3, h4, h5, h6, h7, h8, h9⟩ := check_inputs_spec h hr he
  exact h9

/-- C24: the check decides exactly that, if nothing depends on itself: it comes to an end for every command whose read
files belong to its variant or to no variant, are not environment variables and do not have the name of a
command; it succeeds if and only if no input is missing; and when it fails, everything else that was read is
still recorded. -/
theorem c24_decides (h : Sound db) (hr : ReadSet db read) (hac : Acyclic db) (hcmd : db.isKind .cmd cmd = true)
    (hv : ∀ a ∈ read, a ∉ outputs → variant a = none ∨ variant a = variant cmd)
    (hk : ∀ a ∈ read, a ∉ outputs → db.isKind .cmd a = false) (henv : ∀ a ∈ read, inDir db env a = false) :
    ∃ db' ok important, checkInputs db env cmd variant outputs read = some (db', ok, important) ∧
      (ok = true ↔ ∀ a, ¬ Missing db cmd outputs read a) ∧
      ∀ a, db'.normal a cmd = true ↔
        (a ∈ read ∧ (db.normal a cmd = true ∨ (a ∉ outputs ∧ ¬ Missing db cmd outputs read a))) ∨
          EnvLink db env cmd a := by
  have hst : Asc (stickyInputs db cmd) := asc_filter _ (asc_range _)
  have hrc : Asc (recordedInputs db env cmd) := asc_filter _ (asc_filter _ (asc_range _))
  have hex : ∃ r, checkInputs db env cmd variant outputs read = some r := by
    unfold checkInputs
    simp only
    obtain ⟨s, hs⟩ := first_total (c := ⟨cmd, variant, stickyInputs db cmd, groupInputs db cmd, outputs⟩)
      hr.asc hst hv ⟨db, [], false⟩
    rw [hs]
    obtain ⟨f1, f2, f3⟩ := first_spec hr.asc hst hs
    obtain ⟨sd, sm, si⟩ := s
    simp only at f1 f2
    subst f1
    subst f2
    simp only
    obtain ⟨s2, hs2⟩ := second_total (db := sd)
      (c := ⟨cmd, variant, stickyInputs sd cmd, groupInputs sd cmd, outputs⟩)
      (m := checkGenerated sd ⟨cmd, variant, stickyInputs sd cmd, groupInputs sd cmd, outputs⟩ sm) hr.asc hrc
      (fun a ha => ((mem_recordedInputs h).1 ha).1)
      (fun a ha hnr ho => by
        have h0 := (h.lt (hr.node a ha)).1
        have hka := hk a ha ho
        refine ⟨by omega, ?_, hka, ?_⟩
        · intro hc
          simp only at hc
          rw [hc] at hka
          rw [hka] at hcmd
          cases hcmd
        · cases hn : sd.normal a cmd with
          | false => rfl
          | true =>
            refine absurd ((mem_recordedInputs h).2 ⟨hn, fun hc => ?_⟩) hnr
            have := henv a ha
            rw [hc.2.2] at this
            cases this)
      (by
        obtain ⟨n, hn, _⟩ := isKind_iff.1 hcmd
        have := (h.node cmd n hn).1
        simp only
        omega)
    rw [hs2]
    exact ⟨_, rfl⟩
  obtain ⟨⟨db', ok, important⟩, he⟩ := hex
  obtain ⟨m, h1, h2, h3, h4, h5, h6, h7, h8, h9⟩ := check_inputs_spec h hr he
  have hmem : ∀ a, a ∈ m ↔ Missing db cmd outputs read a := fun a => ⟨h2 hac a, h1 a⟩
  refine ⟨db', ok, important, he, ?_, ?_⟩
  · rw [h4]
    constructor
    · rintro rfl a ha
      have := (hmem a).2 ha
      cases this
    · intro hno
      exact List.eq_nil_iff_forall_not_mem.2 fun a ha => hno a ((hmem a).1 ha)
  · intro a
    rw [h7, ← hmem]

/-- C24 for tup.config files: the recorded files it is read from are exactly those that were used the last time. -/
theorem c24_config (h : Sound db) (hr : ReadSet db read) {t : Nat} {db' : Db}
    (he : checkConfigInputs db t read = some db') :
    (∀ a, db'.normal a t = true ↔ a ∈ read) ∧ ∀ a b, b ≠ t → db'.normal a b = db.normal a b := by
  unfold checkConfigInputs at he
  simp only at he
  split at he
  · cases he
  · rename_i s hs
    cases he
    have hn : Asc (normalInputs db t) := asc_filter _ (asc_range _)
    have hmid := second_spec hr.asc hn (fun a ha => (mem_normalInputs h).1 ha) hs
    constructor
    · intro a
      rw [hmid.normal]
      simp only [(mem_diff hr.asc hn).1, (mem_diff hr.asc hn).2, mem_normalInputs h, List.not_mem_nil, not_false_eq_true,
        and_true, true_and]
      grind
    · intro a b hb
      have := hmid.normal a b
      simp only [hb, false_and, or_false, not_false_eq_true, and_true] at this
      exact Bool.eq_iff_iff.2 this

/-! A project: command 3 makes file 4, command 5 makes file 6 from it, and command 7 declares file 6; command 9 makes
file 10; file 8 and ghost 11 are not made by any command.  Command 7 had read the ghost 11 and file 10. -/

def sampleKinds : List Db.Kind := [.ghost, .dir, .dir, .cmd, .generated, .cmd, .generated, .cmd, .file, .cmd, .generated, .ghost]

def sampleLinks : List (Nat × Nat) := [(3, 4), (4, 5), (5, 6), (9, 10), (11, 7)]

def sample : Db where
  node i := if i = 0 then none else (sampleKinds[i]?).map fun k => { dir := 1, kind := k, name := [Char.ofNat (96 + i)] }
  top := 12
  normal a b := decide ((a, b) ∈ sampleLinks)
  sticky a b := decide ((a, b) ∈ [(6, 7)])
  group _ _ _ := false
  vars _ := none
  config _ := false
  create _ := false
  modify _ := false
  variant _ := false
  transient _ := false
  ghosts _ := false

theorem sample_sound : Sound sample := by
  refine ⟨?_, ?_, ?_⟩
  · intro a n h
    by_cases h0 : a = 0
    · subst h0; cases h
    · by_cases h1 : a < 12
      · exact ⟨by omega, h1⟩
      · have hl : sampleKinds[a]? = none := List.getElem?_eq_none (by
          simp only [sampleKinds, List.length_cons, List.length_nil]; omega)
        simp only [sample, if_neg h0, hl] at h
        cases h
  · intro a b h
    simp only [sample, sampleLinks, decide_eq_true_eq, List.mem_cons, Prod.mk.injEq, List.not_mem_nil, or_false] at h
    rcases h with ⟨rfl, rfl⟩ | ⟨rfl, rfl⟩ | ⟨rfl, rfl⟩ | ⟨rfl, rfl⟩ | ⟨rfl, rfl⟩ <;> decide
  · intro a b h
    simp only [sample, decide_eq_true_eq, List.mem_cons, Prod.mk.injEq, List.not_mem_nil, or_false] at h
    obtain ⟨rfl, rfl⟩ := h
    decide

theorem sample_acyclic : Acyclic sample := by
  have hedge : ∀ a b, Feeds sample a b → (a < b ∧ b ≠ 7) ∨ (a = 11 ∧ b = 7) := by
    intro a b h
    simp only [Feeds, sample, sampleLinks, decide_eq_true_eq, List.mem_cons, Prod.mk.injEq, List.not_mem_nil, or_false] at h
    omega
  have key : ∀ a b, Plus (Feeds sample) a b → (a < b ∧ b ≠ 7) ∨ (b = 7) ∧ a = 11 := by
    intro a b h
    induction h with
    | one h => have := hedge _ _ h; omega
    | @tail b c h1 h2 ih =>
      have e1 := hedge _ _ h2
      rcases e1 with ⟨e1, e2⟩ | ⟨e1, e2⟩
      · rcases ih with ih | ⟨ih, _⟩
        · omega
        · subst ih
          exfalso
          simp only [Feeds, sample, sampleLinks, decide_eq_true_eq, List.mem_cons, Prod.mk.injEq, List.not_mem_nil, or_false] at h2
          omega
      · exfalso
        subst e1
        have : ∀ a, ¬ Feeds sample a 11 := by
          intro a h
          simp only [Feeds, sample, sampleLinks, decide_eq_true_eq, List.mem_cons, Prod.mk.injEq, List.not_mem_nil, or_false] at h
          omega
        cases h1 with
        | one h => exact this _ h
        | tail _ h => exact this _ h
  intro n hn
  have := key n n hn
  omega

theorem sample_read (l : List Nat) (h : Asc l) (hl : ∀ a ∈ l, 0 < a ∧ a < 12) : ReadSet sample l := by
  refine ⟨h, fun a ha => ?_⟩
  obtain ⟨h0, h1⟩ := hl a ha
  simp only [sample, if_neg (show ¬ a = 0 by omega), Option.isSome_map]
  rw [List.getElem?_eq_getElem (show a < sampleKinds.length by simp only [sampleKinds, List.length_cons, List.length_nil]; omega)]
  rfl

/-- Command 7 reads 4 (which 6 is made from), 6 and 8: accepted, and the ghost is not a dependency any more. -/
example : (checkInputs sample 2 7 (fun _ => none) [] [4, 6, 8]).map (fun r =>
    (r.2.1, r.2.2, normalInputs r.1 7, (List.range 12).filter r.1.ghosts)) = some (true, false, [4, 6, 8], [11]) := by
  decide +kernel

/-- It also reads 10, which is not declared: rejected, and the rest is recorded. -/
example : (checkInputs sample 2 7 (fun _ => none) [] [4, 6, 8, 10]).map (fun r =>
    (r.2.1, r.2.2, normalInputs r.1 7)) = some (false, false, [4, 6, 8]) := by
  decide +kernel

/-- The hypotheses of the theorems hold there. -/
example : ∃ db' important, checkInputs sample 2 7 (fun _ => none) [] [4, 6, 8] = some (db', true, important) ∧
    ∀ a, db'.normal a 7 = true ↔ a = 4 ∨ a = 6 ∨ a = 8 := by
  have hr := sample_read [4, 6, 8] (by decide) (by decide)
  have hex : ∃ db' important, checkInputs sample 2 7 (fun _ => none) [] [4, 6, 8] = some (db', true, important) := by
    have h : (checkInputs sample 2 7 (fun _ => none) [] [4, 6, 8]).map (fun r => r.2.1) = some true := by decide +kernel
    cases hc : checkInputs sample 2 7 (fun _ => none) [] [4, 6, 8] with
    | none => rw [hc] at h; cases h
    | some r =>
      obtain ⟨d, o, i⟩ := r
      rw [hc] at h
      cases h
      exact ⟨d, i, rfl⟩
  obtain ⟨db', i, he⟩ := hex
  refine ⟨db', i, he, fun a => ?_⟩
  rw [c24_exact sample_sound hr (fun a h => by cases h) (fun a h => ?_) he]
  · simp
  · have h1 := h.1
    have h2 := h.2.1
    simp only [sample, sampleLinks, decide_eq_true_eq, List.mem_cons, Prod.mk.injEq, List.not_mem_nil, or_false] at h1 h2
    omega

example : Missing sample 7 [] [4, 6, 8, 10] 10 := by
  refine ⟨by decide, by decide, by decide, ?_⟩
  intro v hv hs
  simp only [sample, decide_eq_true_eq, List.mem_cons, Prod.mk.injEq, List.not_mem_nil, or_false] at hv
  have hno : ∀ b, ¬ Feeds sample 10 b := by
    intro b h
    simp only [Feeds, sample, sampleLinks, decide_eq_true_eq, List.mem_cons, Prod.mk.injEq, List.not_mem_nil, or_false] at h
    omega
  have hp : ∀ a b, Plus (Feeds sample) a b → a ≠ 10 := by
    intro a b h
    induction h with
    | one h => rintro rfl; exact hno _ h
    | tail _ _ ih => exact ih
  rcases hs with h | h
  · omega
  · exact hp _ _ h rfl

example : ∃ db' ok important, checkInputs sample 2 7 (fun _ => none) [] [4, 6, 8, 10] = some (db', ok, important) ∧
    (ok = true ↔ ∀ a, ¬ Missing sample 7 [] [4, 6, 8, 10] a) := by
  obtain ⟨db', ok, i, h1, h2, _⟩ := c24_decides (env := 2) (cmd := 7) (variant := fun _ => none) (outputs := []) sample_sound
    (sample_read [4, 6, 8, 10] (by decide) (by decide)) sample_acyclic (by decide) (by intros; left; rfl) (by decide) (by decide)
  exact ⟨db', ok, i, h1, h2⟩

end Tup.Links
