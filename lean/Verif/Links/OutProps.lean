import Verif.Links.OutRun
import Verif.Links.Props

/-! Properties of the check of the outputs (C23). -/

namespace Tup.Links

open Tup.Db

/-- What is assumed when the outputs are checked. -/
structure Setting (db : Db) (outputs : List Nat) (written : List Written) (maps : List Map) : Prop where
  bounded : Bounded db
  unique : Unique db
  paths : Paths written
  excludable : Excludable db written
  mapped : Mapped maps
  outputs : Asc outputs

/-- The files can be moved and their times can be read. -/
structure DiskOk (disk : Disk) (db : Db) (written : List Written) (maps : List Map) : Prop where
  stat : ∀ w ∈ written, Counts w → (nodeOf db w).isSome → (disk.stat w.path).isSome
  moved : ∀ m ∈ maps, disk.moved m.real = true

/-- Everything about the check in one place. -/
theorem write_info_spec {sort : List (Nat × Kind) → List (Nat × Kind)} {fuel : Nat} (hf : 0 < fuel) {disk : Disk} {u success : Bool}
    {outputs : List Nat} {written : List Written} {maps : List Map} {db : Db} (hs : Setting db outputs written maps)
    (hd : ∀ w ∈ written, Counts w → (nodeOf db w).isSome → (disk.stat w.path).isSome) :
    ∃ s, updateWriteInfo sort fuel disk u success outputs written maps db = some s ∧
      ((∀ m ∈ maps, disk.moved m.real = true) →
        (s.bork = true ↔ (∃ w, Stray db written w) ∨ (∃ i, Wrote db written i ∧ i ∉ outputs) ∨
          (success = true ∧ ∃ i ∈ outputs, ¬ Wrote db written i))) ∧
      (s.bork = false → (∀ w, ¬ Stray db written w) ∧ (∀ i, Wrote db written i → i ∈ outputs) ∧
        (success = true → ∀ i ∈ outputs, Wrote db written i)) ∧
      (∀ j, (db.modify j = true ∨ (u = true ∧ ∃ i, Wrote db written i ∧ i ∉ outputs ∧ db.isKind .generated i = true ∧ db.normal j i = true)) →
        s.db.modify j = true) ∧
      (∀ a ∈ s.acts, (u = true ∧ ∃ w, Stray db written w ∧ a = .unlink w.path) ∨
        (u = true ∧ ∃ i, Wrote db written i ∧ i ∉ outputs ∧ db.isKind .ghost i = true ∧ a = .deleteFile i) ∨
        (∃ m ∈ maps, m.tmp ≠ m.real ∧ a = .rename m.tmp m.real ∧
          ∀ w ∈ written, Counts w → w.path = m.real → ∃ i ∈ outputs, nodeOf db w = some i)) ∧
      (u = true → ∀ w, Stray db written w → .unlink w.path ∈ s.acts) ∧
      (u = true → ∀ i, Wrote db written i → i ∉ outputs → db.isKind .ghost i = true → .deleteFile i ∈ s.acts) ∧
      (∀ w ∈ written, Counts w → ∀ i ∈ outputs, nodeOf db w = some i → ∀ m ∈ maps, m.real = w.path → m.tmp ≠ m.real →
        .rename m.tmp m.real ∈ s.acts) := by
  obtain ⟨s1, h1, i1⟩ := writeLoop_spec (sort := sort) hf hs.paths _ written _ _ (Nat.le_refl _) (fun _ h => h)
    (fun _ h => h.elim) (loop_start u hs.bounded hs.unique hs.excludable hs.mapped)
  have i1 := i1.congr (W' := (· ∈ written)) fun w _ => by simp
  obtain ⟨s2, h2, i2⟩ := cmp_spec (u := u) (success := success) i1.asc hs.outputs (i1.distinct hs.paths fun _ h => h)
  have hleft : ∀ i, Ev.left i ∈ diff s1.root outputs ↔ Wrote db written i ∧ i ∉ outputs := by
    intro i
    rw [(mem_diff i1.asc hs.outputs).1]
    simp only [i1.root]
    rfl
  have hright : ∀ i, Ev.right i ∈ diff s1.root outputs ↔ i ∈ outputs ∧ ¬ Wrote db written i := by
    intro i
    rw [(mem_diff i1.asc hs.outputs).2]
    simp only [i1.root]
    rfl
  have hkind : ∀ k i, Wrote db written i → s1.db.isKind k i = db.isKind k i := fun k i hi => isKind_congr (i1.node i hi) k
  have hset : ∀ m ∈ s2.maps, ∀ i, m.node = some i → ∃ w ∈ written, Counts w ∧ w.path = m.real ∧ nodeOf db w = some i :=
    fun m hm i hi => i1.set m (i2.sub.mem hm) i hi
  obtain ⟨s3, h3, m3, b3, a3⟩ := move_spec (moved := disk.moved) (stat := disk.stat) s2.maps s2 (by
    intro m hm hi
    obtain ⟨i, hi⟩ := Option.isSome_iff_exists.1 hi
    obtain ⟨w, k1, k2, k3, k4⟩ := hset m hm i hi
    rw [← k3]
    exact hd w k1 k2 (by rw [k4]; rfl))
  have hb2 : s2.bork = true ↔ (∃ w, Stray db written w) ∨ (∃ i, Wrote db written i ∧ i ∉ outputs) ∨
          (success = true ∧ ∃ i ∈ outputs, ¬ Wrote db written i) := by
    rw [i2.bork, i1.bork]
    simp only [hleft, hright]
    rfl
  refine ⟨s3, ?_, ?_, ?_, ?_, ?_, ?_, ?_, ?_⟩
  · unfold updateWriteInfo
    rw [h1]
    show (match compare (extraOutput u) (missingOutput success) s1.root outputs s1 with | none => none | some s => moveMaps disk.moved disk.stat s.maps s) = _
    rw [h2]
    exact h3
  · intro hmv
    rw [b3, hb2]
    constructor
    · rintro (h | ⟨m, hm, hne, hmo⟩)
      · exact h
      · rcases i1.origin m (i2.sub.mem hm) with k | ⟨m0, k1, _, k3⟩
        · exact absurd k hne
        · rw [← k3, hmv m0 k1] at hmo; cases hmo
    · exact .inl
  · intro hb
    have hb2' : ¬ s2.bork = true := fun hc => by
      have := b3.2 (.inl hc)
      rw [hb] at this
      cases this
    rw [hb2] at hb2'
    refine ⟨fun w hw => hb2' (.inl ⟨w, hw⟩), fun i hi => ?_, fun hsu i hi => ?_⟩
    · exact Classical.byContradiction fun hc => hb2' (.inr (.inl ⟨i, hi, hc⟩))
    · exact Classical.byContradiction fun hc => hb2' (.inr (.inr ⟨hsu, i, hi, hc⟩))
  · intro j hj
    rw [m3, i2.modify]
    rcases hj with hj | ⟨hu, i, hi, hni, hg, hn⟩
    · exact .inl (i1.modify j hj)
    · refine .inr ⟨hu, i, (hleft i).2 ⟨hi, hni⟩, ?_, ?_⟩
      · rw [hkind _ i hi]; exact hg
      · rw [i1.normal]; exact hn
  · intro a ha
    rw [a3, i2.acts, i1.acts] at ha
    rcases ha with (⟨hu, w, k1, k2, k3, k4⟩ | ⟨hu, i, k1, k2, k3⟩) | ⟨m, hm, hne, rfl⟩
    · exact .inl ⟨hu, w, ⟨k1, k2, k3⟩, k4⟩
    · have k1 := (hleft i).1 k1
      rw [hkind _ i k1.1] at k2
      exact .inr (.inl ⟨hu, i, k1.1, k1.2, k2, k3⟩)
    · right; right
      have hm1 := i2.sub.mem hm
      rcases i1.origin m hm1 with k | ⟨m0, k1, k2, k3⟩
      · exact absurd k hne
      refine ⟨m0, k1, by rw [k2, k3]; exact hne, by rw [k2, k3], ?_⟩
      intro w hw hc hp
      rw [k3] at hp
      cases hn : m.node with
      | none => exact absurd hp ((i1.unset m hm1 hn).2 w hw hc)
      | some i =>
        obtain ⟨w', l1, l2, l3, l4⟩ := i1.set m hm1 i hn
        have : w = w' := hs.paths.same w hw w' l1 (by rw [hp, l3])
        subst this
        refine ⟨i, ?_, l4⟩
        refine Classical.byContradiction fun hni => i2.gone m hm i ((hleft i).2 ⟨⟨w, hw, hc, l4⟩, hni⟩) hn
  · rintro hu w ⟨k1, k2, k3⟩
    rw [a3, i2.acts, i1.acts]
    exact .inl (.inl ⟨hu, w, k1, k2, k3, rfl⟩)
  · intro hu i hi hni hg
    rw [a3, i2.acts]
    refine .inl (.inr ⟨hu, i, (hleft i).2 ⟨hi, hni⟩, ?_, rfl⟩)
    rw [hkind _ i hi]; exact hg
  · intro w hw hc i hi hno m0 hm0 hreal hne
    rw [a3]
    right
    obtain ⟨m, hm, hmr, hmt⟩ := i1.keep m0 hm0 fun w' hw' hc' hno' hp' => by
      have : w = w' := hs.paths.same w hw w' hw' (by rw [hp', hreal])
      subst this
      rw [hno] at hno'
      cases hno'
    refine ⟨m, i2.kept m hm ?_, by rw [hmr, hmt]; exact hne, by rw [hmr, hmt]⟩
    intro j hj hl
    obtain ⟨w', l1, l2, l3, l4⟩ := i1.set m hm j hj
    have : w = w' := hs.paths.same w hw w' l1 (by rw [l3, hmr, hreal])
    subst this
    rw [hno] at l4
    cases l4
    exact ((hleft _).1 hl).2 hi

/-- C41 fails for a directory that has the name of a group: the code that is to make the node calls itself without end,
whatever stack there is (`<g>` is an allowed name of a directory). -/
theorem c41_group_dir (sort : List (Nat × Kind) → List (Nat × Kind)) {db : Db} {d i : Nat} {name : Str} {n : Node}
    (hs : db.select d name = some i) (hn : db.node i = some n) (hg : n.kind = .group) (ht : n.name ≠ Scan.tupConfig)
    (src : Option Nat) (trans : Bool) : ∀ fuel, createNode sort fuel db d name .dir src trans = none :=
  createNode_group sort hs hn hg ht (by decide) src trans

/-- Here is such a group. -/
example : ∃ db : Db, ∃ n, db.select 1 ['<', 'g', '>'] = some 2 ∧ db.node 2 = some n ∧ n.kind = .group ∧ n.name ≠ Scan.tupConfig :=
  ⟨{ sample with node := fun i => if i = 2 then some { dir := 1, kind := .group, name := ['<', 'g', '>'] } else none, top := 3 }, _,
    by decide +kernel, rfl, rfl, by decide⟩

section

variable {sort : List (Nat × Kind) → List (Nat × Kind)} {fuel : Nat} {disk : Disk} {u success : Bool}
  {outputs : List Nat} {written : List Written} {maps : List Map} {db : Db}

/-- C23: for a command that was successful, the check of the outputs passes exactly if the written files are known and
are the declared outputs. -/
theorem c23_exact (hf : 0 < fuel) (hs : Setting db outputs written maps) (hd : DiskOk disk db written maps) :
    ∃ s, updateWriteInfo sort fuel disk u true outputs written maps db = some s ∧
      (s.bork = false ↔ (∀ w, ¬ Stray db written w) ∧ ∀ i, Wrote db written i ↔ i ∈ outputs) := by
  obtain ⟨s, h1, h2, h3, _⟩ := write_info_spec (sort := sort) (success := true) (u := u) hf hs hd.stat
  refine ⟨s, h1, ?_, ?_⟩
  · intro hb
    obtain ⟨k1, k2, k3⟩ := h3 hb
    exact ⟨k1, fun i => ⟨k2 i, k3 rfl i⟩⟩
  · rintro ⟨k1, k2⟩
    cases hb : s.bork with
    | false => rfl
    | true =>
      rcases (h2 hd.moved).1 hb with ⟨w, h⟩ | ⟨i, h, hn⟩ | ⟨_, i, h, hn⟩
      · exact absurd h (k1 w)
      · exact absurd ((k2 i).1 h) hn
      · exact absurd ((k2 i).2 h) hn

/-- C23: for a command that failed, only the files that it should not have written are reported. -/
theorem c23_failed (hf : 0 < fuel) (hs : Setting db outputs written maps) (hd : DiskOk disk db written maps) :
    ∃ s, updateWriteInfo sort fuel disk u false outputs written maps db = some s ∧
      (s.bork = false ↔ (∀ w, ¬ Stray db written w) ∧ ∀ i, Wrote db written i → i ∈ outputs) := by
  obtain ⟨s, h1, h2, h3, _⟩ := write_info_spec (sort := sort) (success := false) (u := u) hf hs hd.stat
  refine ⟨s, h1, ?_, ?_⟩
  · intro hb
    obtain ⟨k1, k2, k3⟩ := h3 hb
    exact ⟨k1, k2⟩
  · rintro ⟨k1, k2⟩
    cases hb : s.bork with
    | false => rfl
    | true =>
      rcases (h2 hd.moved).1 hb with ⟨w, h⟩ | ⟨i, h, hn⟩ | ⟨h, _⟩
      · exact absurd h (k1 w)
      · exact absurd (k2 i h) hn
      · cases h

theorem move_bork {moved : Str → Bool} {stat : Str → Option (Int × Int)} :
    ∀ (l : List Map) (s s' : Out), moveMaps moved stat l s = some s' → s'.bork = false → s.bork = false := by
  intro l
  induction l with
  | nil => intro s s' h hb; rw [moveMaps, Option.some.injEq] at h; subst h; exact hb
  | cons m l ih =>
    intro s s' h hb
    unfold moveMaps at h
    by_cases hr : m.tmp = m.real
    · simp only [if_pos hr] at h
      cases hn : m.node with
      | none => rw [hn] at h; exact ih _ _ h hb
      | some i =>
        rw [hn] at h
        cases ht : stat m.real with
        | none => simp only [ht] at h; cases h
        | some t =>
          simp only [ht] at h
          have := ih _ _ h hb
          exact this
    · simp only [if_neg hr] at h
      have key : ∀ s1 : Out, s1.bork = (s.bork || !moved m.real) → moveMaps moved stat l s1 = some s' → s.bork = false := by
        intro s1 e1 e2
        have := ih _ _ e2 hb
        rw [e1, Bool.or_eq_false_iff] at this
        exact this.1
      cases hn : m.node with
      | none => rw [hn] at h; exact key _ rfl h
      | some i =>
        rw [hn] at h
        cases ht : stat m.real with
        | none => simp only [ht] at h; cases h
        | some t => simp only [ht] at h; exact key _ rfl h

/-- C23, whatever the disk does: nothing passes but the declared outputs. -/
theorem c23_sound (hf : 0 < fuel) (hs : Setting db outputs written maps) {s : Out}
    (he : updateWriteInfo sort fuel disk u true outputs written maps db = some s) (hb : s.bork = false) :
    (∀ w, ¬ Stray db written w) ∧ ∀ i, Wrote db written i ↔ i ∈ outputs := by
  obtain ⟨s0, h1, h2, h3, _⟩ := write_info_spec (sort := sort) (success := true) (u := u)
    (disk := ⟨fun _ => true, fun _ => some (0, 0)⟩) hf hs (fun _ _ _ _ => rfl)
  have key : s0.bork = false := by
    unfold updateWriteInfo at he h1
    cases hw : writeLoop sort fuel u written ⟨db, maps, [], false, []⟩ with
    | none => rw [hw] at he; cases he
    | some s1 =>
      rw [hw] at he h1
      simp only at he h1
      cases hc : compare (extraOutput u) (missingOutput true) s1.root outputs s1 with
      | none => rw [hc] at he; cases he
      | some s2 =>
        rw [hc] at he h1
        simp only at he h1
        have hb2 := move_bork _ _ _ he hb
        obtain ⟨s3, k1, _, k3, _⟩ := move_spec (moved := fun _ => true) (stat := fun _ => some (0, 0)) s2.maps s2 (fun _ _ _ => rfl)
        rw [k1] at h1
        cases h1
        cases hb0 : s0.bork with
        | false => rfl
        | true =>
          rcases k3.1 hb0 with h | ⟨_, _, _, h⟩
          · rw [hb2] at h; cases h
          · cases h
  obtain ⟨k1, k2, k3⟩ := h3 key
  exact ⟨k1, fun i => ⟨k2 i, k3 rfl i⟩⟩

/-- C23: if the command has overwritten the output of another command, that command is scheduled. -/
theorem c23_rescheduled (hf : 0 < fuel) (hs : Setting db outputs written maps) (hd : DiskOk disk db written maps)
    {i : Nat} (hi : Wrote db written i) (hn : i ∉ outputs) (hg : db.isKind .generated i = true) {producer : Nat}
    (hp : db.normal producer i = true) :
    ∃ s, updateWriteInfo sort fuel disk true success outputs written maps db = some s ∧ s.bork = true ∧
      s.db.modify producer = true := by
  obtain ⟨s, h1, h2, h3, h4, _⟩ := write_info_spec (sort := sort) (success := success) (u := true) hf hs hd.stat
  exact ⟨s, h1, (h2 hd.moved).2 (.inr (.inl ⟨i, hi, hn⟩)), h4 _ (.inr ⟨rfl, i, hi, hn, hg, hp⟩)⟩

/-- C23: a file leaves the temporary directory only if it is a declared output of the command (or does not count). -/
theorem c23_no_leak (hf : 0 < fuel) (hs : Setting db outputs written maps) (hd : DiskOk disk db written maps) {s : Out}
    (he : updateWriteInfo sort fuel disk u success outputs written maps db = some s) {tmp real : Str}
    (ha : .rename tmp real ∈ s.acts) : ∀ w ∈ written, Counts w → w.path = real → ∃ i ∈ outputs, nodeOf db w = some i := by
  obtain ⟨s', h1, h2, h3, h4, h5, _⟩ := write_info_spec (sort := sort) (success := success) (u := u) hf hs hd.stat
  rw [he] at h1
  cases h1
  rcases h5 _ ha with ⟨_, w, _, h⟩ | ⟨_, i, _, _, _, h⟩ | ⟨m, _, _, h, k⟩
  · cases h
  · cases h
  · cases h; exact k

/-- C23: and the declared outputs that were written there are moved to their place. -/
theorem c23_moved (hf : 0 < fuel) (hs : Setting db outputs written maps) (hd : DiskOk disk db written maps) {s : Out}
    (he : updateWriteInfo sort fuel disk u success outputs written maps db = some s) {w : Written} (hw : w ∈ written) (hc : Counts w)
    {i : Nat} (hi : i ∈ outputs) (hn : nodeOf db w = some i) {m : Map} (hm : m ∈ maps) (hr : m.real = w.path) (ht : m.tmp ≠ m.real) :
    .rename m.tmp m.real ∈ s.acts := by
  obtain ⟨s', h1, h2, h3, h4, h5, h6, h7, h8⟩ := write_info_spec (sort := sort) (success := success) (u := u) hf hs hd.stat
  rw [he] at h1
  cases h1
  exact h8 w hw hc i hi hn m hm hr ht

/-- C23: the files that are removed are exactly those that the command wrote without being allowed to and that no
other command makes and the user does not own. -/
theorem c23_removed (hf : 0 < fuel) (hs : Setting db outputs written maps) (hd : DiskOk disk db written maps) {s : Out}
    (he : updateWriteInfo sort fuel disk u success outputs written maps db = some s) :
    (∀ p, .unlink p ∈ s.acts ↔ u = true ∧ ∃ w, Stray db written w ∧ w.path = p) ∧
    (∀ i, .deleteFile i ∈ s.acts ↔ u = true ∧ Wrote db written i ∧ i ∉ outputs ∧ db.isKind .ghost i = true) := by
  obtain ⟨s', h1, h2, h3, h4, h5, h6, h7, h8⟩ := write_info_spec (sort := sort) (success := success) (u := u) hf hs hd.stat
  rw [he] at h1
  cases h1
  refine ⟨fun p => ⟨fun ha => ?_, ?_⟩, fun i => ⟨fun ha => ?_, ?_⟩⟩
  · rcases h5 _ ha with ⟨hu, w, hw, h⟩ | ⟨_, i, _, _, _, h⟩ | ⟨m, _, _, h, k⟩
    · cases h; exact ⟨hu, w, hw, rfl⟩
    · cases h
    · cases h
  · rintro ⟨hu, w, hw, rfl⟩
    exact h6 hu w hw
  · rcases h5 _ ha with ⟨hu, w, hw, h⟩ | ⟨hu, i, k1, k2, k3, h⟩ | ⟨m, _, _, h, k⟩
    · cases h
    · cases h; exact ⟨hu, k1, k2, k3⟩
    · cases h
  · rintro ⟨hu, k1, k2, k3⟩
    exact h7 hu i k1 k2 k3

/-- C23: a command that is accepted has exited with status 0, has left no directory behind, and the files that it has
written (and not removed again) are its declared outputs. -/
theorem c23_accepted {env cmd : Nat} {variant : Nat → Option Nat} {ended : Ended} {t : Trace} (hf : 0 < fuel)
    (hs : Setting db outputs (t.written.filter fun w => decide (w.path ∉ t.unlinked)) t.maps)
    (ha : accepts sort fuel disk u env cmd variant outputs ended t db = true) :
    ended = .exited 0 ∧ (∀ d ∈ t.tmpdirs, d.2 = true) ∧
    (∀ w ∈ t.written, w.path ∉ t.unlinked → Counts w → ∃ i ∈ outputs, nodeOf db w = some i) ∧
    (∀ i ∈ outputs, ∃ w ∈ t.written, w.path ∉ t.unlinked ∧ Counts w ∧ nodeOf db w = some i) := by
  unfold accepts at ha
  split at ha
  case h_2 => cases ha
  simp only at ha
  by_cases hd : (handleUnlink t).tmpdirs.any (fun d => !d.2) = true
  · rw [if_pos hd] at ha; cases ha
  · rw [if_neg hd] at ha
    refine ⟨rfl, ?_, ?_⟩
    · intro d hdt
      cases hd2 : d.2 with
      | true => rfl
      | false => exact absurd (List.any_eq_true.2 ⟨d, hdt, by rw [hd2]; rfl⟩) hd
    · cases hw : updateWriteInfo sort fuel disk u true outputs (handleUnlink t).written (handleUnlink t).maps db with
      | none => rw [hw] at ha; cases ha
      | some s =>
        rw [hw] at ha
        simp only at ha
        cases hc : checkInputs s.db env cmd variant outputs (idSet ((handleUnlink t).read.map (·.2))) with
        | none => rw [hc] at ha; cases ha
        | some r =>
          obtain ⟨db', ok, imp⟩ := r
          rw [hc] at ha
          simp only [Bool.and_eq_true, Bool.not_eq_true'] at ha
          obtain ⟨k1, k2⟩ := c23_sound hf hs hw ha.1
          refine ⟨fun w h1 h2 h3 => ?_, fun i hi => ?_⟩
          · have hm : w ∈ t.written.filter fun w => decide (w.path ∉ t.unlinked) := List.mem_filter.2 ⟨h1, by simpa using h2⟩
            cases hno : nodeOf db w with
            | none => exact absurd ⟨hm, h3, hno⟩ (k1 w)
            | some i => exact ⟨i, (k2 i).1 ⟨w, hm, h3, hno⟩, rfl⟩
          · obtain ⟨w, h1, h2, h3⟩ := (k2 i).2 hi
            obtain ⟨h4, h5⟩ := List.mem_filter.1 h1
            exact ⟨w, h4, by simpa using h5, h2, h3⟩

/-- C23 with C24: and whether it is accepted depends on nothing else but the inputs. -/
theorem c23_accepts {env cmd : Nat} {variant : Nat → Option Nat} {t : Trace} (hf : 0 < fuel)
    (hs : Setting db outputs (t.written.filter fun w => decide (w.path ∉ t.unlinked)) t.maps)
    (hd : DiskOk disk db (t.written.filter fun w => decide (w.path ∉ t.unlinked)) t.maps) (hdirs : ∀ d ∈ t.tmpdirs, d.2 = true)
    (hw : ∀ w ∈ t.written, w.path ∉ t.unlinked → Counts w → ∃ i ∈ outputs, nodeOf db w = some i)
    (ho : ∀ i ∈ outputs, ∃ w ∈ t.written, w.path ∉ t.unlinked ∧ Counts w ∧ nodeOf db w = some i) :
    ∃ s, updateWriteInfo sort fuel disk u true outputs (t.written.filter fun w => decide (w.path ∉ t.unlinked)) t.maps db = some s ∧
      (accepts sort fuel disk u env cmd variant outputs (.exited 0) t db = true ↔
        ∃ db' important, checkInputs s.db env cmd variant outputs
          (idSet ((t.read.filter fun r => decide (r.1 ∉ t.unlinked)).map (·.2))) = some (db', true, important)) := by
  obtain ⟨s, h1, h2⟩ := c23_exact (sort := sort) (u := u) hf hs hd
  have hb : s.bork = false := by
    rw [h2]
    refine ⟨?_, fun i => ⟨?_, fun hi => ?_⟩⟩
    · rintro w ⟨k1, k2, k3⟩
      obtain ⟨k4, k5⟩ := List.mem_filter.1 k1
      obtain ⟨i, _, hi⟩ := hw w k4 (by simpa using k5) k2
      rw [k3] at hi; cases hi
    · rintro ⟨w, k1, k2, k3⟩
      obtain ⟨k4, k5⟩ := List.mem_filter.1 k1
      obtain ⟨j, hj, hi⟩ := hw w k4 (by simpa using k5) k2
      rw [k3] at hi; cases hi
      exact hj
    · obtain ⟨w, k1, k2, k3, k4⟩ := ho i hi
      exact ⟨w, List.mem_filter.2 ⟨k1, by simpa using k2⟩, k3, k4⟩
  refine ⟨s, h1, ?_⟩
  have hno : ¬ (handleUnlink t).tmpdirs.any (fun d => !d.2) = true := by
    rw [List.any_eq_true]
    rintro ⟨d, k1, k2⟩
    rw [hdirs d k1] at k2; cases k2
  unfold accepts
  simp only
  rw [if_neg hno]
  have h1' : updateWriteInfo sort fuel disk u true outputs (handleUnlink t).written (handleUnlink t).maps db = some s := h1
  rw [h1']
  simp only
  show _ ↔ ∃ db' important, checkInputs s.db env cmd variant outputs (idSet ((handleUnlink t).read.map (·.2))) = some (db', true, important)
  cases checkInputs s.db env cmd variant outputs (idSet ((handleUnlink t).read.map (·.2))) with
  | none => simp
  | some r =>
    obtain ⟨db', ok, imp⟩ := r
    simp [hb]

end

/-! ## An example

The command 5 of the example for the inputs has the output 6, which is called `f`.  It writes that file; a file `x`
that nobody knows; the file `d`, an output of the command 3; the file `k`, of which there was only a ghost; a file `log`
that matches an exclusion; and a hidden file. -/

def wroteF : Written := { path := ['f'], dir := some 1, name := ['f'] }
def wroteD : Written := { path := ['d'], dir := some 1, name := ['d'] }
def wroteK : Written := { path := ['k'], dir := some 1, name := ['k'] }
def wroteX : Written := { path := ['x'], dir := some 1, name := ['x'] }
def wroteLog : Written := { path := ['l', 'o', 'g'], dir := some 1, name := ['l', 'o', 'g'], excluded := true }
def wroteHidden : Written := { path := ['.', 'h'], dir := none, name := ['.', 'h'], hidden := true }

def bad : List Written := [wroteF, wroteX, wroteLog, wroteD, wroteHidden, wroteK, wroteF]
def good : List Written := [wroteLog, wroteF, wroteHidden]
def temp : List Map := [⟨['1'], ['f'], none⟩, ⟨['2'], ['x'], none⟩, ⟨['3'], ['l', 'o', 'g'], none⟩, ⟨['4'], ['d'], none⟩]
def fine : Disk := ⟨fun _ => true, fun _ => some (7, 0)⟩

/-- The file 6 and the excluded file are moved to their places, the unknown file and the file of the ghost are removed,
command 3 is scheduled. -/
example : (updateWriteInfo id 1 fine true true [6] bad temp sample).map (fun s =>
    (s.bork, s.acts, (List.range 12).filter s.db.modify)) =
    some (true, [.unlink ['x'], .deleteFile 11, .rename ['1'] ['f'], .rename ['3'] ['l', 'o', 'g']], [3]) := by
  decide +kernel

example : (updateWriteInfo id 1 fine true true [6] good temp sample).map (fun s => (s.bork, (s.db.node 6).map (·.mtime), (s.db.node 12).map (·.name))) =
    some (false, some (7, 0), some ['l', 'o', 'g']) := by
  decide +kernel

/-- Nothing written: an error if the command claims to have been successful, and none if it failed. -/
example : (updateWriteInfo id 1 fine true true [6] [] [] sample).map (·.bork) = some true ∧
    (updateWriteInfo id 1 fine true false [6] [] [] sample).map (·.bork) = some false := by
  decide +kernel

theorem sample_bounded : Bounded sample := by
  intro i hi
  cases h : sample.node i with
  | none => rfl
  | some n =>
    have := (sample_sound.node i n h).2
    omega

theorem sample_unique : Unique sample := by
  intro i j n m hi hj _ hname
  have h1 := sample_sound.node i n hi
  have h2 := sample_sound.node j m hj
  have key : ∀ i < 12, ∀ j < 12, (sample.node i).map (·.name) = (sample.node j).map (·.name) → (sample.node i).isSome → i = j := by decide
  exact key i h1.2 j h2.2 (by rw [hi, hj]; simp [hname]) (by rw [hi]; rfl)

theorem sample_setting (written : List Written) (h : ∀ w ∈ written, w ∈ bad) : Setting sample [6] written temp where
  bounded := sample_bounded
  unique := sample_unique
  paths := by
    have h1 : ∀ w ∈ bad, ∀ w' ∈ bad, w.path = w'.path → w = w' := by
      intro w hw w' hw'
      simp only [bad, List.mem_cons, List.not_mem_nil, or_false] at hw hw'
      rcases hw with rfl | rfl | rfl | rfl | rfl | rfl | rfl <;> rcases hw' with rfl | rfl | rfl | rfl | rfl | rfl | rfl <;>
        first | (intro _; rfl) | (intro h; exact absurd h (by decide))
    have h2 : ∀ w ∈ bad, w.path = w.name := by
      intro w hw
      simp only [bad, List.mem_cons, List.not_mem_nil, or_false] at hw
      rcases hw with rfl | rfl | rfl | rfl | rfl | rfl | rfl <;> rfl
    refine ⟨fun w hw w' hw' => h1 w (h w hw) w' (h w' hw'), fun w hw w' hw' _ _ hn => h1 w (h w hw) w' (h w' hw') ?_⟩
    rw [h2 w (h w hw), h2 w' (h w' hw'), hn]
  excludable := by
    intro w hw he _ d hd i n hs _
    have hw := h w hw
    simp only [bad, List.mem_cons, List.not_mem_nil, or_false] at hw
    rcases hw with rfl | rfl | rfl | rfl | rfl | rfl | rfl
    case inr.inr.inl =>
      cases hd
      rw [show sample.select 1 wroteLog.name = none by decide +kernel] at hs
      cases hs
    all_goals cases he
  mapped := ⟨by decide, by decide⟩
  outputs := by decide

theorem sample_disk (written : List Written) : DiskOk fine sample written temp := ⟨fun _ _ _ _ => rfl, fun _ _ => rfl⟩

/-- The hypotheses of the theorems hold there. -/
example : ∃ s, updateWriteInfo id 1 fine true true [6] bad temp sample = some s ∧ s.bork = true ∧ s.db.modify 3 = true :=
  c23_rescheduled (i := 4) (by decide) (sample_setting bad fun _ h => h) (sample_disk _)
    ⟨wroteD, by simp [bad], ⟨rfl, rfl⟩, by decide +kernel⟩ (by decide) (by decide) (by decide)

example : ∃ s, updateWriteInfo id 1 fine true true [6] good temp sample = some s ∧
    (s.bork = false ↔ (∀ w, ¬ Stray sample good w) ∧ ∀ i, Wrote sample good i ↔ i ∈ [6]) :=
  c23_exact (by decide) (sample_setting good (by intro w h; simp only [good, bad, List.mem_cons, List.not_mem_nil, or_false] at h ⊢; grind))
    (sample_disk _)

/-- Command 5 has read file 4, its declared input, and has written and removed a file `x`. -/
def trace : Trace := { written := wroteX :: good, unlinked := [['x']], maps := temp, read := [(['d'], 4)], tmpdirs := [] }

/-- The sample with 4 as the declared input of 5. -/
def declared : Db := { sample with sticky := fun a b => decide ((a, b) ∈ [(6, 7), (4, 5)]) }

example : accepts id 1 fine true 2 5 (fun _ => none) [6] (.exited 0) trace declared = true ∧
    accepts id 1 fine true 2 5 (fun _ => none) [6] (.exited 1) trace declared = false ∧
    accepts id 1 fine true 2 5 (fun _ => none) [6] .signalled trace declared = false ∧
    accepts id 1 fine true 2 5 (fun _ => none) [6] (.exited 0) { trace with unlinked := [] } declared = false ∧
    accepts id 1 fine true 2 5 (fun _ => none) [6] (.exited 0) { trace with tmpdirs := [(['t'], false)] } declared = false ∧
    accepts id 1 fine true 2 5 (fun _ => none) [6] (.exited 0) { trace with read := [(['d'], 4), (['j'], 10)] } declared = false := by
  decide +kernel

end Tup.Links
