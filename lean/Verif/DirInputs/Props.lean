import Verif.DirInputs.Lemmas

/-!
C91: when a Tupfile has been parsed, its directory depends on exactly the files that were read or looked for while it was
parsed, so that it is parsed again when one of them changes, appears or goes away.
-/

namespace Tup.DirInputs

open Tup.Db Tup.Links Tup.Lookup

variable {db db' : Db} {d vardt : Nat} {root : List Nat} {reads vars writes : List (List Str)}

theorem gather_input (h : Good db) (hr : Asc root) (a : Nat) :
    a ∈ gather (touched db vardt reads vars).1 root (touched db vardt reads vars).2 ↔
      Input (touched db vardt reads vars).1 vardt root reads vars a := by
  obtain ⟨t1, t2, t3, t4, t5, t6⟩ := touched_ok h vardt reads vars
  rw [(gather_ok _ _ root hr).2 a, t4 a]
  unfold Input Tracked gitignore Plain
  generalize ".gitignore".toList = g
  constructor
  · rintro (h | ⟨⟨hu, n, h1, h2⟩, hg⟩)
    · exact .inl h
    · rw [h1] at hg
      exact .inr ⟨hu, n, h1, h2.1, h2.2.1, h2.2.2, by simpa using hg⟩
  · rintro (h | ⟨hu, n, h1, h2, h3, h4, h5⟩)
    · exact .inl h
    · refine .inr ⟨⟨hu, n, h1, h2, h3, h4⟩, ?_⟩
      rw [h1]
      simpa using h5

theorem leads_node_eq {db1 : Db} (hn : db'.node = db1.node) {d a : Nat} {p : List Str} : Leads db' d p a ↔ Leads db1 d p a := by
  constructor
  · intro h
    induction h with
    | here d => exact .here d
    | down h1 _ ih => exact .down (by unfold At at *; rwa [← hn]) ih
  · intro h
    induction h with
    | here d => exact .here d
    | down h1 _ ih => exact .down (by unfold At at *; rwa [hn]) ih

theorem input_node_eq {db1 : Db} (hn : db'.node = db1.node) (a : Nat) :
    Input db' vardt root reads vars a ↔ Input db1 vardt root reads vars a := by
  unfold Input Used Tracked
  simp only [leads_node_eq hn, hn]

theorem made_node_eq {db1 : Db} (hn : db'.node = db1.node) (h : Made db vardt reads vars db1) : Made db vardt reads vars db' := by
  obtain ⟨⟨h1, h2⟩, h3, h4, h5⟩ := h
  refine ⟨⟨by rw [hn]; exact h1, by rw [hn]; exact h2⟩, ?_, ?_, ?_⟩
  · simpa only [leads_node_eq hn] using h3
  · simpa only [leads_node_eq hn] using h4
  · unfold OnWay at h5 ⊢
    simpa only [leads_node_eq hn, hn] using h5

/-- C91: the recorded inputs of the directory are exactly the files that were read or looked for, the variables that were
used and what the parser itself names; a name that has no node yet has got a ghost, so that it is one of them. -/
theorem c91_inputs (h : Good db) (hr : Asc root) (hp : afterParse db d vardt root reads vars writes = some db') :
    Made db vardt reads vars db' ∧ ∀ a, db'.normal a d = true ↔ Input db' vardt root reads vars a := by
  obtain ⟨t1, t2, t3, t4, t5, t6⟩ := touched_ok h vardt reads vars
  unfold afterParse at hp
  dsimp only at hp
  split at hp
  · obtain ⟨w1, w2, w3, w4, w5, w6, w7⟩ := write_ok t1.sound (gather_ok _ _ root hr).1 hp
    refine ⟨made_node_eq w1 (touched_made h vardt reads vars), fun a => ?_⟩
    rw [w4 a d, input_node_eq w1, gather_input h hr]
    simp
  · cases hp

/-- C91: nothing else changes: the links of other nodes and the directories that wait to be parsed stay; ghosts that are
no inputs any more are examined at the end of the transaction. -/
theorem c91_rest (h : Good db) (hr : Asc root) (hp : afterParse db d vardt root reads vars writes = some db') :
    (∀ a b, b ≠ d → db'.normal a b = db.normal a b) ∧ db'.sticky = db.sticky ∧ db'.create = db.create ∧
      ∀ a, db'.ghosts a = true ↔
        db.ghosts a = true ∨ (db.normal a d = true ∧ db'.normal a d = false ∧ db'.ghosty a = true) := by
  obtain ⟨t1, t2, t3, t4, t5, t6⟩ := touched_ok h vardt reads vars
  unfold afterParse at hp
  dsimp only at hp
  split at hp
  · obtain ⟨w1, w2, w3, w4, w5, w6, w7⟩ := write_ok t1.sound (gather_ok _ _ root hr).1 hp
    refine ⟨fun a b hb => ?_, w3.trans t2.sticky, w2.trans t2.create, fun a => ?_⟩
    · have := w4 a b
      simp only [hb, ne_eq, not_false_eq_true, true_and, false_and, or_false, t2.normal] at this
      exact Bool.eq_iff_iff.2 this
    · have hd := w4 a d
      simp only [ne_eq, not_true_eq_false, false_and, true_and, false_or] at hd
      have hg : db'.ghosty a = (touched db vardt reads vars).1.ghosty a := by unfold Db.ghosty Db.isKind; rw [w1]
      rw [w5 a, t2.gh, t2.normal, hg, ← hd]
      simp
  · cases hp

/-- C91: it is an error exactly if a file was written that has no node (also not one that was made for it because it was
looked for before), or if one of the inputs is a generated file that was not an input before. -/
theorem c91_error (h : Good db) (hr : Asc root) (hroot : ∀ a ∈ root, a ≠ d ∧ (db.node a).isSome)
    (hd : ∃ n, db.node d = some n ∧ n.kind = .dir) (hst : ∀ a, db.sticky a d = false) :
    ∃ db1, Made db vardt reads vars db1 ∧
      (afterParse db d vardt root reads vars writes = none ↔
        (∃ p ∈ writes, ∀ a, ¬ Leads db1 1 p a) ∨
        ∃ a, Input db1 vardt root reads vars a ∧ db1.isKind .generated a = true ∧ db.normal a d = false) := by
  obtain ⟨t1, t2, t3, t4, t5, t6⟩ := touched_ok h vardt reads vars
  refine ⟨_, touched_made h vardt reads vars, ?_⟩
  have hin := fun a => gather_input (vardt := vardt) (reads := reads) (vars := vars) h hr a
  have hasc := (gather_ok (touched db vardt reads vars).1 (touched db vardt reads vars).2 root hr).1
  obtain ⟨n, hn, hk⟩ := hd
  have hn' := t2.ghosts.kept d n hn
  unfold afterParse
  dsimp only
  generalize (touched db vardt reads vars) = r at *
  split
  · rename_i hw
    have hw' : ¬ ∃ p ∈ writes, ∀ a, ¬ Leads r.1 1 p a := by
      rintro ⟨p, hp, hno⟩
      obtain ⟨a, ha⟩ := (known_iff t1).1 (List.all_eq_true.1 hw p hp)
      exact hno a ha
    simp only [hw', false_or]
    constructor
    · intro hnone
      refine Classical.byContradiction fun hc => ?_
      obtain ⟨x, hx⟩ := write_total t1.sound hasc (d := d) (by have := (h.sound.node d n hn).1; omega) (by
          rw [hin d]
          rintro (hd | ⟨_, m, h1, h2, _⟩)
          · exact (hroot d hd).1 rfl
          · rw [hn'] at h1; cases h1; exact h2 hk) (by
          intro a ha
          rcases (hin a).1 ha with hd | ⟨_, m, h1, _⟩
          · obtain ⟨m, hm⟩ := Option.isSome_iff_exists.1 (hroot a hd).2
            rw [t2.ghosts.kept a m hm]; rfl
          · rw [h1]; rfl) (by rw [t2.sticky]; exact hst) (by
          rintro a ⟨h1, h2, h3⟩
          exact hc ⟨a, (hin a).1 h1, h2, by rw [← t2.normal]; exact h3⟩)
      rw [hx] at hnone; cases hnone
    · rintro ⟨a, h1, h2, h3⟩
      cases hx : writeDirInputs r.1 d (gather r.1 root r.2) with
      | none => rfl
      | some x =>
        exact absurd ⟨(hin a).2 h1, h2, by rw [t2.normal]; exact h3⟩ ((write_ok t1.sound hasc hx).2.2.2.2.2.1 a)
  · rename_i hw
    refine ⟨fun _ => .inl ?_, fun _ => rfl⟩
    refine Classical.byContradiction fun hc => hw (List.all_eq_true.2 fun p hp => ?_)
    refine (known_iff t1).2 (Classical.byContradiction fun hn => hc ⟨p, hp, fun a ha => hn ⟨a, ha⟩⟩)

/-- C91: reading a generated file while parsing is an error, unless it was read when it was not generated yet and the
dependency is still recorded. -/
theorem c91_generated (h : Good db) (hr : Asc root) {p : List Str} {a : Nat} {n : Node} (hp : p ∈ reads) (hne : p ≠ [])
    (hl : Leads db 1 p a) (ha : db.node a = some n) (hk : n.kind = .generated) (ht : n.mtime.1 ≠ 0)
    (hg : n.name ≠ ".gitignore".toList) (hno : db.normal a d = false) :
    afterParse db d vardt root reads vars writes = none := by
  obtain ⟨t1, t2, t3, t4, t5, t6⟩ := touched_ok h vardt reads vars
  have hin := gather_input (vardt := vardt) (reads := reads) (vars := vars) h hr a
  have hasc := (gather_ok (touched db vardt reads vars).1 (touched db vardt reads vars).2 root hr).1
  unfold afterParse
  dsimp only
  generalize (touched db vardt reads vars) = r at *
  split
  · cases hx : writeDirInputs r.1 d (gather r.1 root r.2) with
    | none => rfl
    | some x =>
      have hn' := t2.ghosts.kept a n ha
      refine absurd ⟨hin.2 (.inr ⟨.inl ⟨p, hp, hne, leads_mono t2 hl⟩, n, hn', ?_, ?_, ht, hg⟩), ?_, ?_⟩
        ((write_ok t1.sound hasc hx).2.2.2.2.2.1 a)
      · rw [hk]; simp
      · rw [hk]; simp
      · exact isKind_iff.2 ⟨n, hn', hk⟩
      · rw [t2.normal]; exact hno
  · rfl

/-- C91: writing a file with a name that is not known yet is an error, if no such name was looked for before. -/
theorem c91_write (h : Good db) {p : List Str} (hp : p ∈ writes) {name : Str} (hn : name ∈ p)
    (hnew : ∀ i n, db.node i = some n → n.name ≠ name) (hr : ∀ q ∈ reads, name ∉ q) (hv : ∀ q ∈ vars, name ∉ q) :
    afterParse db d vardt root reads vars writes = none := by
  obtain ⟨t1, t2, t3, t4, t5, t6⟩ := touched_ok h vardt reads vars
  have hm := touched_made h vardt reads vars
  unfold afterParse
  dsimp only
  generalize (touched db vardt reads vars) = r at *
  rw [if_neg]
  intro hw
  obtain ⟨a, hl⟩ := (known_iff t1).1 (List.all_eq_true.1 hw p hp)
  obtain ⟨i, n, h1, h2⟩ := leads_rows hl name hn
  cases hz : db.node i with
  | some m =>
    have := t2.ghosts.kept i m hz
    rw [h1] at this; cases this
    exact hnew i n hz h2
  | none =>
    rcases hm.way i (by rw [h1]; rfl) hz with ⟨q, hq, q1, q2, e1, e2, e3⟩ | ⟨q, hq, q1, q2, e1, e2, e3⟩
    · obtain ⟨m, g1, g2⟩ := leads_name e3 e2
      rw [h1] at g1; cases g1
      exact hr q hq (by rw [e1, ← h2]; exact List.mem_append_left _ g2)
    · obtain ⟨m, g1, g2⟩ := leads_name e3 e2
      rw [h1] at g1; cases g1
      exact hv q hq (by rw [e1, ← h2]; exact List.mem_append_left _ g2)

/-- But if the file was looked for before it was written, or has a node, nobody notices. -/
theorem c91_looked (h : Good db) (hw : ∀ p ∈ writes, p ∈ reads ∨ ∃ a, Leads db 1 p a) :
    afterParse db d vardt root reads vars writes = afterParse db d vardt root reads vars [] := by
  obtain ⟨t1, t2, t3, t4, t5, t6⟩ := touched_ok h vardt reads vars
  unfold afterParse
  dsimp only
  generalize (touched db vardt reads vars) = r at *
  rw [if_pos (List.all_eq_true.2 fun p hp => ?_), if_pos (by rfl)]
  refine (known_iff t1).2 ?_
  rcases hw p hp with h | ⟨a, ha⟩
  · exact t5 p h
  · exact ⟨a, leads_mono t2 ha⟩

theorem zero_none (h : Good db) (hr : Asc root) (hp : afterParse db d vardt root reads vars writes = some db') :
    db'.node 0 = none := by
  obtain ⟨t1, _⟩ := touched_ok h vardt reads vars
  unfold afterParse at hp
  dsimp only at hp
  split at hp
  · rw [(write_ok t1.sound (gather_ok _ _ root hr).1 hp).1]
    cases hz : (touched db vardt reads vars).1.node 0 with
    | none => rfl
    | some n => exact absurd (t1.sound.node 0 n hz).1 (by omega)
  · cases hp

/-- C91: when a file that was read or looked for changes (or appears, or goes away: then its node keeps its id), the
directory is parsed again. -/
theorem c91_reparse (h : Good db) (hroot : Rooted db) (hr : Asc root) (hp : afterParse db d vardt root reads vars writes = some db')
    (hd : db.isKind .dir d = true) {p : List Str} (hpr : p ∈ reads) (hne : p ≠ []) :
    ∃ a, Leads db' 1 p a ∧ (Tracked db' a → (db'.createByInput a).create d = true) ∧
      ((∀ b, ¬ Leads db 1 p b) → db'.isKind .ghost a = true) := by
  obtain ⟨hm, hi⟩ := c91_inputs h hr hp
  obtain ⟨a, ha⟩ := hm.read p hpr
  refine ⟨a, ha, fun ht => ?_, fun hno => ?_⟩
  · have : db'.normal a d = true := (hi a).2 (.inr ⟨.inl ⟨p, hpr, hne, ha⟩, ht⟩)
    obtain ⟨n, h1, h2⟩ := isKind_iff.1 hd
    have hk : db'.isKind .dir d = true := isKind_iff.2 ⟨n, hm.ghosts.kept d n h1, h2⟩
    simp only [Db.createByInput, this, hk, Bool.and_self, Bool.or_true]
  · obtain ⟨n, hn⟩ := leads_node ha hne
    refine isKind_iff.2 ⟨n, hn, ?_⟩
    cases hz : db.node a with
    | none => exact (hm.ghosts.new a n hn hz).1
    | some m => exact absurd (leads_old hroot hm.ghosts (zero_none h hr hp) ha hne m hz) (hno a)

/-! A project: directory 2 is `sub`, 3 is its Tupfile, 4 the file `rules.tup`, 5 the generated file `gen`, 6 a file
called .gitignore, 7 the tup.config with the variable `A` (8), 9 a ghost `old` that was looked for the last time. -/

def sampleRows : List (Nat × Node) := [
  (1, { dir := 0, kind := .dir, name := ".".toList }),
  (2, { dir := 1, kind := .dir, name := "sub".toList }),
  (3, { dir := 2, kind := .file, name := "Tupfile".toList, mtime := (5, 0) }),
  (4, { dir := 1, kind := .file, name := "rules.tup".toList, mtime := (6, 0) }),
  (5, { dir := 2, kind := .generated, name := "gen".toList, mtime := (7, 0) }),
  (6, { dir := 2, kind := .file, name := ".gitignore".toList, mtime := (8, 0) }),
  (7, { dir := 1, kind := .file, name := "tup.config".toList, mtime := (9, 0) }),
  (8, { dir := 7, kind := .var, name := "A".toList }),
  (9, { dir := 2, kind := .ghost, name := "old".toList })]

def sample : Db where
  node i := sampleRows.lookup i
  top := 10
  normal a b := decide ((a, b) ∈ [(3, 2), (9, 2)])
  sticky _ _ := false
  group _ _ _ := false
  vars _ := none
  config _ := false
  create _ := false
  modify _ := false
  variant _ := false
  transient _ := false
  ghosts _ := false

theorem sample_row {i : Nat} {n : Node} (h : sample.node i = some n) : (i, n) ∈ sampleRows := by
  have : sampleRows.lookup i = some n := h
  revert this
  generalize sampleRows = l
  induction l with
  | nil => intro h; cases h
  | cons x l ih =>
    obtain ⟨a, b⟩ := x
    intro h
    rw [List.lookup] at h
    split at h
    · rename_i he
      cases h
      rw [beq_iff_eq.1 he]
      exact List.mem_cons_self
    · exact List.mem_cons_of_mem _ (ih h)

theorem sample_good : Good sample := by
  refine ⟨⟨fun a n h => ?_, fun a b h => ?_, fun a b h => by cases h⟩, fun i j n m hn hm hd he => ?_⟩
  · have := sample_row h
    have key : ∀ x ∈ sampleRows, 0 < x.1 ∧ x.1 < 10 := by decide +kernel
    exact key _ this
  · have := of_decide_eq_true h
    have key : ∀ x ∈ [(3, 2), (9, 2)], (sample.node x.1).isSome ∧ (sample.node x.2).isSome := by decide +kernel
    exact key _ this
  · have key : ∀ x ∈ sampleRows, ∀ y ∈ sampleRows, x.2.dir = y.2.dir → x.2.name = y.2.name → x.1 = y.1 := by decide +kernel
    exact key _ (sample_row hn) _ (sample_row hm) hd he

theorem sample_rooted : Rooted sample := by
  intro i n h
  have key : ∀ x ∈ sampleRows, x.2.dir = 0 ∨ (sample.node x.2.dir).isSome := by decide +kernel
  exact key _ (sample_row h)

def sampleReads : List (List Str) := [["sub".toList, "Tupfile".toList], ["rules.tup".toList], ["sub".toList, ".gitignore".toList],
  ["sub".toList, "new".toList], []]

/-- The Tupfile of `sub` includes rules.tup, looks for `new`, reads .gitignore and uses `@(A)`. -/
theorem sample_parse : ∃ db', afterParse sample 2 7 [] sampleReads [["A".toList]] [["sub".toList, "new".toList]] = some db' := by
  have hx : afterParse sample 2 7 [] sampleReads [["A".toList]] [["sub".toList, "new".toList]] =
      writeDirInputs (touched sample 7 sampleReads [["A".toList]]).1 2 [3, 4, 8, 10] := by
    unfold afterParse
    dsimp only
    rw [if_pos (by decide +kernel)]
    have : gather (touched sample 7 sampleReads [["A".toList]]).1 [] (touched sample 7 sampleReads [["A".toList]]).2 = [3, 4, 8, 10] := by
      decide +kernel
    rw [this]
  rw [hx]
  refine write_total (touched_ok sample_good _ _ _).1.sound (by decide) (by decide) (by decide) (by decide +kernel)
    (fun a => ?_) (fun a ha => ?_)
  · rw [(touched_ok sample_good _ _ _).2.1.sticky]; rfl
  · have key : ∀ x ∈ [3, 4, 8, 10], (touched sample 7 sampleReads [["A".toList]]).1.isKind .generated x = false := by
      decide +kernel
    have := ha.2.1
    rw [key a ha.1] at this
    cases this

/-- The directory depends on its Tupfile, on rules.tup, on the variable and on the new ghost 10, and not on the ghost 9
any more. -/
example : ∃ db', afterParse sample 2 7 [] sampleReads [["A".toList]] [["sub".toList, "new".toList]] = some db' ∧
    db'.normal 9 2 = false ∧ ∃ a, Leads db' 1 ["sub".toList, "new".toList] a ∧ db'.isKind .ghost a = true := by
  obtain ⟨db', h⟩ := sample_parse
  obtain ⟨hm, hi⟩ := c91_inputs sample_good List.Pairwise.nil h
  have hi9 := hi 9
  obtain ⟨a, h1, _, h3⟩ := c91_reparse sample_good sample_rooted List.Pairwise.nil h (by decide +kernel)
    (p := ["sub".toList, "new".toList]) (by decide +kernel) (by decide)
  refine ⟨db', h, ?_, a, h1, h3 fun b hb => ?_⟩
  · have hn : db'.node 9 = some { dir := 2, kind := .ghost, name := "old".toList } := hm.ghosts.kept 9 _ (by decide +kernel)
    cases hc : db'.normal 9 2 with
    | false => rfl
    | true =>
      exfalso
      rcases hi9.1 hc with hx | ⟨⟨p, hp, hne, hl⟩ | ⟨p, hp, hne, hl⟩, _⟩
      · cases hx
      · obtain ⟨m, g1, g2⟩ := leads_name hl hne
        rw [hn] at g1; cases g1
        have key : ∀ p ∈ sampleReads, "old".toList ∉ p := by decide +kernel
        exact key p hp g2
      · obtain ⟨m, g1, g2⟩ := leads_name hl hne
        rw [hn] at g1; cases g1
        have key : ∀ p ∈ [["A".toList]], "old".toList ∉ p := by decide +kernel
        exact key p hp g2
  · obtain ⟨i, n, g1, g2⟩ := leads_rows hb "new".toList (by decide +kernel)
    have key : ∀ x ∈ sampleRows, x.2.name ≠ "new".toList := by decide +kernel
    exact key _ (sample_row g1) g2

/-- A run script that reads the generated file of the directory. -/
example : afterParse sample 2 7 [] (["sub".toList, "gen".toList] :: sampleReads) [] [] = none := by
  refine c91_generated sample_good List.Pairwise.nil (p := ["sub".toList, "gen".toList]) (a := 5)
    (n := { dir := 2, kind := .generated, name := "gen".toList, mtime := (7, 0) }) List.mem_cons_self (by decide)
    (.down (i := 2) ⟨{ dir := 1, kind := .dir, name := "sub".toList }, by decide +kernel, rfl, rfl⟩
      (.down (i := 5) ⟨{ dir := 2, kind := .generated, name := "gen".toList, mtime := (7, 0) }, by decide +kernel, rfl, rfl⟩ (.here _)))
    (by decide +kernel) rfl (by decide) (by decide +kernel) (by decide)

/-- A run script that writes `out`. -/
example : afterParse sample 2 7 [] sampleReads [] [["sub".toList, "out".toList]] = none := by
  refine c91_write sample_good List.mem_cons_self (name := "out".toList) (by decide +kernel) (fun i n h => ?_) (by decide +kernel) (by decide)
  have key : ∀ x ∈ sampleRows, x.2.name ≠ "out".toList := by decide +kernel
  exact key _ (sample_row h)

/-- The hypotheses of `c91_error` and `c91_looked`. -/
example : (∃ n, sample.node 2 = some n ∧ n.kind = .dir) ∧ (∀ a, sample.sticky a 2 = false) ∧
    ∀ p ∈ [["sub".toList, "new".toList], ["rules.tup".toList]], p ∈ sampleReads ∨ ∃ a, Leads sample 1 p a :=
  ⟨⟨{ dir := 1, kind := .dir, name := "sub".toList }, by decide +kernel, rfl⟩, fun _ => rfl, by
    have : ∀ p ∈ [["sub".toList, "new".toList], ["rules.tup".toList]], p ∈ sampleReads := by decide +kernel
    exact fun p hp => .inl (this p hp)⟩

end Tup.DirInputs
