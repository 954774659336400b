import Verif.Links.WriteTotal

/-! The property about the links that a rule declares (C25). -/

namespace Tup.Links

open Tup.Db

section

variable {db : Db} {excl : Nat} {r : Rule} {db' : Db}

/-- **C25** After a rule has been written its command writes to exactly the outputs, the exclusions and the group of the rule, and its
declared inputs are exactly those of the rule. -/
theorem c25_exact (hs : Sound db) (ht : Tidy db excl) (hr : RuleOk db excl r) (h : writeRule false excl r db = some db') :
    (∀ b, db'.normal r.cmd b = true ↔ Declared r b) ∧ (∀ a, db'.sticky a r.cmd = true ↔ a ∈ r.inputs) :=
  ⟨(ruleWritten hs ht hr h).outputs, (ruleWritten hs ht hr h).inputs⟩

/-- **C25** The files that the command writes are in the group of the rule and in no other group. -/
theorem c25_members (hs : Sound db) (ht : Tidy db excl) (hr : RuleOk db excl r) (hf : Free db excl r)
    (h : writeRule false excl r db = some db') {a g : Nat} (ha : a ∈ r.outputs) (hg : db.isKind .group g = true) :
    db'.normal a g = true ↔ r.group = some g := by
  have w := ruleWritten hs ht hr h
  have hk : ∀ k j, db'.isKind k j = db.isKind k j := w.nodes.kind
  have hn : db'.node = db.node := by
    have := w.nodes
    unfold SameNodes at this
    rw [this]
  obtain ⟨n, k1, k2, k3⟩ := hr.output a ha
  have hko : db.isKind .group a = false ∧ inDir db' excl a = false := by
    unfold inDir Db.isKind
    rw [hn, k1]
    simp [k2, k3]
  have hw : Writes db' excl r.cmd a := ⟨by rw [hk]; exact hr.cmd, (w.outputs a).2 (.inl ha), by rw [hk]; exact hko.1, hko.2⟩
  rw [(ruleWritten_tidy hs ht hr hf h).member r.cmd a g hw (by rw [hk]; exact hg), w.outputs]
  constructor
  · rintro (h | h | h)
    · obtain ⟨n, k1, k2, _⟩ := hr.output g h
      obtain ⟨m, l1, l2⟩ := isKind_iff.1 hg
      rw [k1] at l1; cases l1
      exact absurd l2 k2
    · obtain ⟨n, k1, k2, _⟩ := hr.exclusion g h
      obtain ⟨m, l1, l2⟩ := isKind_iff.1 hg
      rw [k1] at l1; cases l1
      exact absurd l2 k2
    · exact h
  · exact fun h => .inr (.inr h)

/-- **C25** What the command does not write any more, or does not put into its old group any more, is not in that group any more. -/
theorem c25_left (hs : Sound db) (ht : Tidy db excl) (hr : RuleOk db excl r) (h : writeRule false excl r db = some db') {a g : Nat}
    (ha : Writes db excl r.cmd a) (hg : db.isKind .group g = true) (hn : a ∉ r.outputs ∨ r.group ≠ some g) : db'.normal a g = false := by
  have w := ruleWritten hs ht hr h
  have hao : a ∈ oldOutputs db excl r.cmd := (mem_oldOutputs hs).2 ha.2
  have hno : ¬ (r.group = some g ∧ a ∈ r.outputs) := by
    rintro ⟨h1, h2⟩
    rcases hn with h | h
    · exact h h2
    · exact h h1
  cases hcg : db.normal r.cmd g with
  | true => exact w.left a g hcg hg hao hno
  | false =>
    have hac : a ≠ r.cmd := by
      rintro rfl
      have := ht.file _ _ ha.1 ha.2.1
      rw [hr.cmd] at this; cases this
    have hgc : g ≠ r.cmd := by
      rintro rfl
      rw [group_ne_cmd hr.cmd] at hg; cases hg
    rw [w.otherNormal a g hac hgc hno (fun h => by rw [hcg] at h; cases h.1), Bool.eq_false_iff]
    intro h
    have := (ht.member r.cmd a g ha hg).1 h
    rw [hcg] at this; cases this

/-- **C25** No other link changes: not those of other commands, not the members of other groups, not the nodes. -/
theorem c25_others (hs : Sound db) (ht : Tidy db excl) (hr : RuleOk db excl r) (h : writeRule false excl r db = some db') :
    db'.node = db.node ∧
    (∀ a b, a ≠ r.cmd → b ≠ r.cmd → ¬ (a ∈ r.outputs ∧ r.group = some b) → ¬ (Writes db excl r.cmd a ∧ db.isKind .group b = true) →
      db'.normal a b = db.normal a b) ∧
    (∀ a b, b ≠ r.cmd → db'.sticky a b = db.sticky a b) ∧
    (∀ x y z, z ≠ r.cmd → db'.group x y z = db.group x y z) := by
  have w := ruleWritten hs ht hr h
  refine ⟨?_, fun a b ha hb h1 h2 => w.otherNormal a b ha hb (fun h => h1 ⟨h.2, h.1⟩) (fun h => h2 ⟨⟨hr.cmd, (mem_oldOutputs hs).1 h.2.2⟩, h.2.1⟩),
    w.otherSticky, w.otherGroup⟩
  have := w.nodes
  unfold SameNodes at this
  rw [this]

/-- **C25** The dependencies that the last run of the command has recorded are kept, but for inputs that are not declared any more; if one
of these is a group all are forgotten.  A variable of the environment counts as used. -/
theorem c25_used (hs : Sound db) (ht : Tidy db excl) (hr : RuleOk db excl r) (h : writeRule false excl r db = some db')
    (hg : ∀ a, db.sticky a r.cmd = true → db.isKind .group a = true → a ∈ r.inputs) (a : Nat) :
    db'.normal a r.cmd = true ↔
      (db.normal a r.cmd = true ∧ (db.sticky a r.cmd = true → a ∈ r.inputs)) ∨ (a ∈ r.env ∧ db.sticky a r.cmd = false) := by
  rw [(ruleWritten hs ht hr h).used (by rintro ⟨a, h1, h2, h3⟩; exact h2 (hg a h1 h3))]
  unfold EnvAdded
  grind

/-- **C25** The command is scheduled iff the rule writes something else than before, or the string or the flags of the command are new, or
an input that was used or a group is not declared any more, or a variable of the environment is new. -/
theorem c25_scheduled (hs : Sound db) (ht : Tidy db excl) (hr : RuleOk db excl r) (h : writeRule false excl r db = some db') :
    db'.modify r.cmd = true ↔
      db.modify r.cmd = true ∨ OutputsChange db r ∨ (∃ a, InputTaken db r a) ∨ ∃ a, EnvAdded db r a := by
  rw [(ruleWritten hs ht hr h).modify]
  constructor
  · rintro (h | ⟨_, h⟩ | ⟨h, _⟩ | ⟨g, h, _⟩)
    · exact .inl h
    · exact .inr h
    · exact .inr (.inl h)
    · refine .inr (.inl (.inr ⟨g, fun hx => ?_⟩))
      rcases hx.1 h.1 with hd | hd | hd
      · obtain ⟨n, k1, k2, _⟩ := hr.output g hd
        obtain ⟨m, l1, l2⟩ := isKind_iff.1 h.2.1
        rw [k1] at l1; cases l1
        exact k2 l2
      · obtain ⟨n, k1, k2, _⟩ := hr.exclusion g hd
        obtain ⟨m, l1, l2⟩ := isKind_iff.1 h.2.1
        rw [k1] at l1; cases l1
        exact k2 l2
      · exact h.2.2 hd
  · rintro (h | h)
    · exact .inl h
    · exact .inr (.inl ⟨rfl, h⟩)

/-- **C25** If the command leaves a group then the commands that use its old outputs are scheduled, for they may have used them by way of
the group. -/
theorem c25_left_scheduled (hs : Sound db) (ht : Tidy db excl) (hr : RuleOk db excl r) (h : writeRule false excl r db = some db') {g a j : Nat}
    (hg : GroupLeft db r g) (ha : Writes db excl r.cmd a) (hj : db.isKind .cmd j = true) (hn : db.normal a j = true) : db'.modify j = true := by
  rw [(ruleWritten hs ht hr h).modify]
  refine .inr (.inr (.inr ⟨g, hg, .inr ⟨?_, a, (mem_oldOutputs hs).2 ha.2, hn, .inl hj⟩⟩))
  rintro rfl
  have := group_ne_cmd hj
  rw [hg.2.1] at this; cases this

/-- **C25** A rule is written if its outputs are free, it does not read its own group, and a variable of the environment that it adds was
not recorded before. -/
theorem c25_written (hs : Sound db) (ht : Tidy db excl) (hr : RuleOk db excl r) (hf : Free db excl r)
    (hg : ∀ g, r.group = some g → g ∉ r.inputs) (he : ∀ a, EnvAdded db r a → db.normal a r.cmd = false) :
    ∃ db', writeRule false excl r db = some db' := writeRule_total hs ht hr hf hg he

/-- **C25** A rule that is stored already changes nothing at all; so no command runs. -/
theorem c25_unchanged (hs : Sound db) (ht : Tidy db excl) (hr : RuleOk db excl r) (hu : Unchanged db r) (refactoring : Bool) :
    writeRule refactoring excl r db = some db := writeRule_unchanged hs ht hr hu refactoring

/-- **C25** To write a rule twice is the same as to write it once. -/
theorem c25_idempotent (hs : Sound db) (ht : Tidy db excl) (hr : RuleOk db excl r) (hf : Free db excl r)
    (h : writeRule false excl r db = some db') : writeRule false excl { r with modified := false } db' = some db' := by
  have w := ruleWritten hs ht hr h
  have hk : ∀ k j, db'.isKind k j = db.isKind k j := w.nodes.kind
  have hn : db'.node = db.node := by
    have := w.nodes
    unfold SameNodes at this
    rw [this]
  refine writeRule_unchanged (r := { r with modified := false }) (ruleWritten_sound hs hr h) (ruleWritten_tidy hs ht hr hf h) ⟨hr.outputs, hr.exclusions, hr.inputs, hr.env, hr.envInputs, ?_, ?_, ?_, ?_, ?_, ?_, ?_, ?_, ?_⟩
    ⟨rfl, w.outputs, w.inputs⟩ false
  · rw [hn]; exact hr.output
  · rw [hn]; exact hr.exclusion
  · rw [hn]; exact hr.group
  · rw [hn]; exact hr.input
  · rw [hk]; exact hr.cmd
  · rw [Bool.eq_false_iff]
    intro hc
    exact not_declared_self hr ((w.outputs _).1 hc)
  · simp only [hk]; exact hr.outputFile
  · simp only [hk]; exact hr.exclusionGhost
  · simp only [hk]; exact hr.inputFile

/-- **C25** `tup refactor` accepts a rule iff it is what is stored already, and changes nothing. -/
theorem c25_refactor (hs : Sound db) (ht : Tidy db excl) (hr : RuleOk db excl r) :
    (∃ db', writeRule true excl r db = some db') ↔ Unchanged db r := by
  constructor
  · rintro ⟨db', h⟩
    exact (writeRule_refactoring hs hr h).1
  · intro hu
    exact ⟨db, writeRule_unchanged hs ht hr hu true⟩

/-- **C25** What the stored rules have in common (`Tidy`), and that the tables refer to existing nodes, is kept. -/
theorem c25_kept (hs : Sound db) (ht : Tidy db excl) (hr : RuleOk db excl r) (hf : Free db excl r)
    (h : writeRule false excl r db = some db') : Sound db' ∧ Tidy db' excl :=
  ⟨ruleWritten_sound hs hr h, ruleWritten_tidy hs ht hr hf h⟩

end

/-! A case that meets the hypotheses: command 3 writes the files 4 and 5 into group 6, reads file 8 and group 9; command 13 reads file 4. -/

def ruleKinds : List Db.Kind := [.ghost, .dir, .dir, .cmd, .generated, .generated, .group, .group, .file, .group, .var, .dir, .generated, .cmd]

def ruleNormal : List (Nat × Nat) := [(3, 4), (3, 5), (3, 6), (4, 6), (5, 6), (8, 3), (4, 13)]

def ruleSticky : List (Nat × Nat) := [(8, 3), (9, 3), (4, 13)]

def ruleDb : Db where
  node i := if i = 0 then none else (ruleKinds[i]?).map fun k => { dir := if i = 10 then 11 else 1, kind := k, name := [Char.ofNat (96 + i)] }
  top := 14
  normal a b := decide ((a, b) ∈ ruleNormal)
  sticky a b := decide ((a, b) ∈ ruleSticky)
  group x y z := decide (x = 9) && decide (y = 6) && decide (z = 3)
  vars _ := none
  config _ := false
  create _ := false
  modify _ := false
  variant _ := false
  transient _ := false
  ghosts _ := false

/-- It now writes 4 and 12 into group 7, and reads 8 and a variable of the environment. -/
def newRule : Rule := { cmd := 3, inputs := [8, 10], env := [10], outputs := [4, 12], group := some 7 }

theorem ruleDb_kind (k : Db.Kind) (i : Nat) : ruleDb.isKind k i = true ↔ i ≠ 0 ∧ ruleKinds[i]? = some k := by
  rw [isKind_iff]
  show (∃ n, (if i = 0 then none else _) = some n ∧ _) ↔ _
  by_cases h : i = 0
  · simp [h]
  · rw [if_neg h]
    cases ruleKinds[i]? with
    | none => simp
    | some k' => simp [h]

theorem ruleDb_lt {i : Nat} {k : Db.Kind} (h : ruleKinds[i]? = some k) : i < 14 := by
  have := (List.getElem?_eq_some_iff.1 h).1
  simpa [ruleKinds] using this

theorem ruleDb_sound : Sound ruleDb := by
  refine ⟨fun a n h => ?_, fun a b h => ?_, fun a b h => ?_⟩
  · have hk := (ruleDb_kind n.kind a).1 (isKind_iff.2 ⟨n, h, rfl⟩)
    exact ⟨Nat.pos_of_ne_zero hk.1, ruleDb_lt hk.2⟩
  · simp only [ruleDb, ruleNormal, decide_eq_true_eq, List.mem_cons, Prod.mk.injEq, List.not_mem_nil, or_false] at h
    rcases h with ⟨rfl, rfl⟩ | ⟨rfl, rfl⟩ | ⟨rfl, rfl⟩ | ⟨rfl, rfl⟩ | ⟨rfl, rfl⟩ | ⟨rfl, rfl⟩ | ⟨rfl, rfl⟩ <;> decide
  · simp only [ruleDb, ruleSticky, decide_eq_true_eq, List.mem_cons, Prod.mk.injEq, List.not_mem_nil, or_false] at h
    rcases h with ⟨rfl, rfl⟩ | ⟨rfl, rfl⟩ | ⟨rfl, rfl⟩ <;> decide

theorem ruleDb_normal {a b : Nat} : ruleDb.normal a b = true ↔ (a, b) ∈ ruleNormal := by simp [ruleDb]

theorem ruleDb_writes {c a : Nat} (h : Writes ruleDb 2 c a) : c = 3 ∧ (a = 4 ∨ a = 5) := by
  obtain ⟨h1, h2, h3, h4⟩ := h
  rw [ruleDb_normal] at h2
  simp only [ruleNormal, List.mem_cons, Prod.mk.injEq, List.not_mem_nil, or_false] at h2
  rcases h2 with ⟨rfl, rfl⟩ | ⟨rfl, rfl⟩ | ⟨rfl, rfl⟩ | ⟨rfl, rfl⟩ | ⟨rfl, rfl⟩ | ⟨rfl, rfl⟩ | ⟨rfl, rfl⟩ <;> first | (revert h1 h3; decide) | (exact ⟨rfl, .inl rfl⟩) | (exact ⟨rfl, .inr rfl⟩)

theorem ruleDb_group {g : Nat} (h : ruleDb.isKind .group g = true) : g = 6 ∨ g = 7 ∨ g = 9 := by
  have hl := ruleDb_lt ((ruleDb_kind _ _).1 h).2
  have : ∀ g < 14, ruleDb.isKind .group g = true → g = 6 ∨ g = 7 ∨ g = 9 := by decide
  exact this g hl h

theorem ruleDb_cmd {g : Nat} (h : ruleDb.isKind .cmd g = true) : g = 3 ∨ g = 13 := by
  have hl := ruleDb_lt ((ruleDb_kind _ _).1 h).2
  have : ∀ g < 14, ruleDb.isKind .cmd g = true → g = 3 ∨ g = 13 := by decide
  exact this g hl h

theorem ruleDb_tidy : Tidy ruleDb 2 := by
  refine ⟨fun c a h h2 => ?_, fun c c' a h h' => ?_, fun c g g' h1 h2 h3 h4 h5 => ?_, fun c a g h1 h2 => ?_, fun x y z => ?_, fun y h1 _ z => ?_, fun a b h1 h2 => ?_⟩
  · rcases ruleDb_cmd h with rfl | rfl
    · rw [ruleDb_normal] at h2
      simp only [ruleNormal, List.mem_cons, Prod.mk.injEq, List.not_mem_nil, or_false] at h2
      have h2 : a = 4 ∨ a = 5 ∨ a = 6 := by omega
      rcases h2 with rfl | rfl | rfl <;> decide
    · rw [ruleDb_normal] at h2
      simp only [ruleNormal, List.mem_cons, Prod.mk.injEq, List.not_mem_nil, or_false] at h2
      omega
  · rw [(ruleDb_writes h).1, (ruleDb_writes h').1]
  · rcases ruleDb_cmd h1 with rfl | rfl <;> rcases ruleDb_group h4 with rfl | rfl | rfl <;> rcases ruleDb_group h5 with rfl | rfl | rfl <;>
      first | rfl | (revert h2 h3; decide)
  · obtain ⟨rfl, rfl | rfl⟩ := ruleDb_writes h1 <;> rcases ruleDb_group h2 with rfl | rfl | rfl <;> decide
  · constructor
    · intro h
      simp only [ruleDb, Bool.and_eq_true, decide_eq_true_eq] at h
      obtain ⟨⟨rfl, rfl⟩, rfl⟩ := h
      decide
    · rintro ⟨h1, h2, h3, h4, h5⟩
      rcases ruleDb_cmd h1 with rfl | rfl <;> rcases ruleDb_group h4 with rfl | rfl | rfl <;> rcases ruleDb_group h5 with rfl | rfl | rfl <;>
        first | rfl | (revert h2 h3; decide)
  · have hk := (ruleDb_kind _ _).1 h1
    have : ∀ g < 14, g ≠ 0 → ruleKinds[g]? ≠ some .ghost := by decide
    exact absurd hk.2 (this y (ruleDb_lt hk.2) hk.1)
  · rw [ruleDb_normal] at h2
    have : ∀ p ∈ ruleNormal, ruleDb.isKind .generated p.2 = true → ruleDb.isKind .cmd p.1 = true := by decide
    exact this _ h2 h1

theorem newRule_ok : RuleOk ruleDb 2 newRule := by
  refine ⟨by decide, by decide, by decide, by decide, by decide, ?_, ?_, ?_, by decide, by decide, by decide, by decide, by decide, by decide⟩
  · intro b hb
    simp only [newRule, List.mem_cons, List.not_mem_nil, or_false] at hb
    rcases hb with rfl | rfl
    · exact ⟨_, rfl, by decide, by decide⟩
    · exact ⟨_, rfl, by decide, by decide⟩
  · intro b hb; cases hb
  · intro g hg
    cases hg
    exact ⟨_, rfl, rfl⟩

theorem newRule_free : Free ruleDb 2 newRule := by
  refine ⟨fun a _ c h => (ruleDb_writes h).1, fun a ha hn g hg => ?_⟩
  simp only [newRule, List.mem_cons, List.not_mem_nil, or_false] at ha
  rcases ha with rfl | rfl <;> rcases ruleDb_group hg with rfl | rfl | rfl <;> first | decide | (revert hn; decide)

/-- All the hypotheses hold, so the rule is written; and the result is what the theorems say. -/
example : ∃ db', writeRule false 2 newRule ruleDb = some db' ∧ db'.modify 3 = true ∧ db'.normal 4 7 = true ∧ db'.normal 5 6 = false ∧
    db'.modify 13 = true ∧ Tidy db' 2 ∧ db' ≠ ruleDb := by
  obtain ⟨db', h⟩ := c25_written ruleDb_sound ruleDb_tidy newRule_ok newRule_free (by decide) (by
    rintro a ⟨h1, _⟩
    simp only [newRule, List.mem_cons, List.not_mem_nil, or_false] at h1
    subst h1; rfl)
  refine ⟨db', h, ?_, ?_, ?_, ?_, (c25_kept ruleDb_sound ruleDb_tidy newRule_ok newRule_free h).2, ?_⟩
  · show db'.modify newRule.cmd = true
    rw [c25_scheduled ruleDb_sound ruleDb_tidy newRule_ok h]
    exact .inr (.inr (.inr ⟨10, by decide, by decide⟩))
  · rw [c25_members ruleDb_sound ruleDb_tidy newRule_ok newRule_free h (by decide) (by decide)]; rfl
  · exact c25_left ruleDb_sound ruleDb_tidy newRule_ok h ⟨by decide, by decide, by decide, by decide⟩ (by decide) (.inl (by decide))
  · exact c25_left_scheduled ruleDb_sound ruleDb_tidy newRule_ok h (g := 6) (a := 4) ⟨by decide, by decide, by decide⟩
      ⟨by decide, by decide, by decide, by decide⟩ (by decide) (by decide)
  · rintro rfl
    have := (c25_exact ruleDb_sound ruleDb_tidy newRule_ok h).2 10
    exact absurd (this.2 (by decide)) (by decide)

/-- The result itself: the dependency on file 8 is forgotten, since a group is not read any more. -/
example : (writeRule false 2 newRule ruleDb).map (fun db => ((List.range 14).filter (fun a => db.normal a 3), (List.range 14).filter (fun b => db.normal 3 b),
      (List.range 14).filter (fun b => db.modify b), (List.range 14).filter (fun b => db.ghosts b))) =
    some ([10], [4, 7, 12], [3, 6, 7, 13], [6, 9]) := by decide +kernel

/-- The rule that is stored already. -/
def oldRule : Rule := { cmd := 3, inputs := [8, 9], outputs := [4, 5], group := some 6 }

theorem oldRule_ok : RuleOk ruleDb 2 oldRule := by
  refine ⟨by decide, by decide, by decide, by decide, by decide, ?_, ?_, ?_, by decide, by decide, by decide, by decide, by decide, by decide⟩
  · intro b hb
    simp only [oldRule, List.mem_cons, List.not_mem_nil, or_false] at hb
    rcases hb with rfl | rfl
    · exact ⟨_, rfl, by decide, by decide⟩
    · exact ⟨_, rfl, by decide, by decide⟩
  · intro b hb; cases hb
  · intro g hg
    cases hg
    exact ⟨_, rfl, rfl⟩

theorem oldRule_unchanged : Unchanged ruleDb oldRule := by
  refine ⟨rfl, fun b => ?_, fun a => ?_⟩
  · rw [ruleDb_normal]
    simp only [ruleNormal, oldRule, Declared, List.mem_cons, Prod.mk.injEq, List.not_mem_nil, or_false, Option.some.injEq]
    grind
  · simp only [ruleDb, ruleSticky, oldRule, decide_eq_true_eq, List.mem_cons, Prod.mk.injEq, List.not_mem_nil, or_false]
    grind

example : writeRule false 2 oldRule ruleDb = some ruleDb ∧ (∃ db', writeRule true 2 oldRule ruleDb = some db') ∧
    ¬ ∃ db', writeRule true 2 newRule ruleDb = some db' := by
  refine ⟨c25_unchanged ruleDb_sound ruleDb_tidy oldRule_ok oldRule_unchanged false,
    (c25_refactor ruleDb_sound ruleDb_tidy oldRule_ok).2 oldRule_unchanged, ?_⟩
  rw [c25_refactor ruleDb_sound ruleDb_tidy newRule_ok]
  intro h
  exact absurd ((h.inputs 9).1 (by decide)) (by decide)

/-- To declare one more input does not schedule the command. -/
theorem c25_added_input : ∃ r : Rule, RuleOk ruleDb 2 r ∧ 8 ∈ r.inputs ∧ 12 ∈ r.inputs ∧ ruleDb.sticky 12 r.cmd = false ∧
    (writeRule false 2 r ruleDb).map (fun db => db.modify r.cmd) = some false := by
  refine ⟨{ oldRule with inputs := [8, 9, 12] }, ?_, by decide, by decide, by decide, by decide +kernel⟩
  refine ⟨by decide, by decide, by decide, by decide, by decide, ?_, ?_, ?_, by decide, by decide, by decide, by decide, by decide, by decide⟩
  · intro b hb
    simp only [oldRule, List.mem_cons, List.not_mem_nil, or_false] at hb
    rcases hb with rfl | rfl
    · exact ⟨_, rfl, by decide, by decide⟩
    · exact ⟨_, rfl, by decide, by decide⟩
  · intro b hb; cases hb
  · intro g hg
    cases hg
    exact ⟨_, rfl, rfl⟩

end Tup.Links
