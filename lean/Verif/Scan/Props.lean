import Verif.Scan.Mod

/-!
C41: a file that is new, has changed or is gone schedules what depends on it, and a file that has not changed
schedules nothing.
-/

namespace Tup.Scan

open Db

variable {sort : List (Nat × Kind) → List (Nat × Kind)} {fuel : Nat} {db : Db} {d i : Nat} {file : Str} {n : Node}
  {t : Int × Int} {force ign : Bool}

/-- A file that has the time it had before schedules nothing.  (`force` is used by the monitor only, and not for
generated files.) -/
theorem c41_same (hi : db.select d file = some i) (hn : db.node i = some n) (hk : n.kind = .file ∨ n.kind = .generated)
    (ht : n.mtime = t) (hf : force = false ∨ (ign = true ∧ n.kind = .generated)) :
    fileMod sort fuel db d file t force ign = some (db, i, false) := by
  have hch : differs n t force ign = false := by
    unfold differs
    rcases hf with hf | ⟨h1, h2⟩
    · simp [ht, hf]
    · simp [ht, h1, h2]
  rw [fileMod_file hi hn hk, hch]
  rfl

/-- A file that has changed: it is put on the list of modified files, the command that makes it (if it is generated)
is run again, the directories that read it are parsed again, the configurations that read it are read again, and so
is it itself if it is a `tup.config`.  Nothing else is scheduled, and nothing but its time changes. -/
theorem c41_changed (hi : db.select d file = some i) (hn : db.node i = some n) (hk : n.kind = .file ∨ n.kind = .generated)
    (ht : n.mtime ≠ t ∨ (force = true ∧ ¬ (ign = true ∧ n.kind = .generated))) :
    ∃ db', fileMod sort fuel db d file t force ign = some (db', i, true) ∧ SameRest db db' ∧
      (∀ j, db'.node j = if j = i then some { n with mtime := t } else db.node j) ∧
      (∀ j, db'.modify j = true ↔ db.modify j = true ∨ j = i ∨ (n.kind = .generated ∧ db.normal j i = true)) ∧
      (∀ j, db'.create j = true ↔ db.create j = true ∨ (db.normal i j = true ∧ db.isKind .dir j = true)) ∧
      (∀ j, db'.config j = true ↔ db.config j = true ∨ (db.normal i j = true ∧ db.isKind .file j = true) ∨
        (j = i ∧ file = "tup.config".toList)) := by
  have hch : differs n t force ign = true := by
    unfold differs
    rcases ht with ht | ⟨h1, h2⟩
    · simp [ht]
    · rw [h1]
      cases ign <;> simp_all
  obtain ⟨y, y1, y2, _, y3, y4, y5, y6⟩ := finish_spec db file i t
  refine ⟨y, by rw [fileMod_file hi hn hk, hch, y1], y2, fun j => ?_, fun j => ?_, y5, y6⟩
  · rw [y3]
    by_cases h : j = i
    · rw [if_pos h, if_pos h, h, hn]; rfl
    · rw [if_neg h, if_neg h]
  · rw [y4]
    have : db.isKind .generated i = true ↔ n.kind = .generated := by
      simp only [Db.isKind, hn, decide_eq_true_eq]
    rw [this]

/-- A file that others looked for, and that is now there: it is on the list of modified files, its directory is parsed
(if it has been made by the user), and if its time differs from what was stored (for a name that never was there, it
does), those that read it are scheduled as for any changed file. -/
theorem c41_appears (hi : db.select d file = some i) (hn : db.node i = some n) (hk : n.kind = .ghost)
    (ht : n.mtime ≠ t ∨ force = true) :
    ∃ db', fileMod sort fuel db d file t force ign = some (db', i, true) ∧ SameRest db db' ∧
      (∀ j, db'.node j = if j = i then some { n with kind := .file, mtime := t } else db.node j) ∧
      (∀ j, db'.modify j = true ↔ db.modify j = true ∨ j = i) ∧
      (∀ j, db'.create j = true ↔ db.create j = true ∨
        ((j = n.dir ∨ db.normal i j = true) ∧ j ≠ i ∧ db.isKind .dir j = true)) ∧
      (∀ j, j ≠ i → (db'.config j = true ↔ db.config j = true ∨ (db.normal i j = true ∧ db.isKind .file j = true))) ∧
      (file = "tup.config".toList → db'.config i = true) := by
  have hch : differs n t force ign = true := by
    unfold differs
    rcases ht with ht | h1
    · simp [ht]
    · simp [h1, hk]
  obtain ⟨x, x1, x2, _, x3, x4, x5, x6⟩ := ghost_spec (d := n.dir) hn
  obtain ⟨y, y1, y2, _, y3, y4, y5, y6⟩ := finish_spec x file i t
  have xki : x.isKind .dir i = false ∧ x.isKind .generated i = false := by
    simp only [Db.isKind, x3]
    simp
  have xkind : ∀ k j, j ≠ i → x.isKind k j = db.isKind k j :=
    fun k j hj => isKind_congr (by rw [x3, if_neg hj]) k
  refine ⟨y, by rw [fileMod_ghost hi hn hk, hch, ← x1, y1], ?_, fun j => ?_, fun j => ?_, fun j => ?_, fun j hj => ?_, fun hf => ?_⟩
  · obtain ⟨a1, a2, a3, a4, a5, a6⟩ := y2
    obtain ⟨b1, b2, b3, b4, b5, b6⟩ := x2
    exact ⟨a1.trans b1, a2.trans b2, a3.trans b3, a4.trans b4, a5.trans b5, a6.trans b6⟩
  · rw [y3, x3]
    by_cases h : j = i
    · rw [if_pos h, if_pos h, if_pos h]; rfl
    · rw [if_neg h, if_neg h, if_neg h]
  · rw [y4, x4, xki.2]
    grind
  · rw [y5, x5, x2.1]
    by_cases h : j = i
    · rw [h, xki.1]
      grind
    · rw [xkind _ _ h]
      grind
  · rw [y6, x6, x2.1, xkind _ _ hj]
    grind
  · rw [y6]
    exact .inr (.inr ⟨rfl, hf⟩)

/-- A file that nothing in the database knows of: it is recorded with its time, and its directory is parsed again,
because a pattern in a Tupfile may match it.  Nothing is run.  Directories around it that only tup had made become
ordinary ones. -/
theorem c41_new {r : Nat → Nat} (hb : Bounded db) (hr : Ranked r db) (hro : Rooted db) (hf : r d < fuel) (hd : (db.node d).isSome)
    (hi : db.select d file = none) :
    ∃ db' i, fileMod sort fuel db d file t force ign = some (db', i, true) ∧ db.node i = none ∧
      db'.node i = some { dir := d, kind := .file, name := file, mtime := t } ∧ SameRest db db' ∧
      db'.create d = true ∧ (∀ j, db.create j = true → db'.create j = true) ∧ db'.modify = db.modify ∧
      (∀ j, db'.config j = true ↔ db.config j = true ∨ (j = i ∧ file = "tup.config".toList)) ∧
      db'.isKind .generatedDir d = false ∧
      (∀ j, j ≠ i → db'.node j = db.node j ∨
        ∃ n, db.node j = some n ∧ n.kind = .generatedDir ∧ db'.node j = some { n with kind := .dir }) := by
  rw [show "tup.config".toList = tupConfig from rfl]
  obtain ⟨y, i, y1, y2, y3, y4, y5, y6, y7, y8, y9, y10⟩ := createNameFile_spec (file := file) (t := t) hb hr hro hf hd
  refine ⟨configFlag y file i true, i, ?_, y2, ?_⟩
  · unfold fileMod
    rw [hi]
    simp only [y1]
  unfold configFlag
  by_cases hfile : file = tupConfig
  · rw [if_pos (by simp [hfile])]
    refine ⟨y3, y4, y8, y7, y5, fun j => ?_, y9, y10⟩
    show (y.config j || decide (j = i)) = true ↔ _
    rw [y6]
    simp [hfile]
  · rw [if_neg (by simp [hfile])]
    refine ⟨y3, y4, y8, y7, y5, fun j => ?_, y9, y10⟩
    rw [y6]
    simp [hfile]

/-- A file that is gone: the commands that read it are run, the directories that read it and the directory that it was
in are parsed, the configurations that read it are read again, and only a ghost or nothing is left of it.  Nothing
else is scheduled, and no other entry changes. -/
theorem c41_removed (hn : db.node i = some n) (hk : n.kind = .file) (hx : n.name ≠ "tup.config".toList) :
    ∃ db', fileMissing sort (fuel + 1) db i = some db' ∧ Gone db' i ∧
      (∀ j, j ≠ i → db'.node j = db.node j) ∧
      (∀ j, j ≠ i → (db'.modify j = true ↔ db.modify j = true ∨
        (db.normal i j = true ∧ (db.isKind .cmd j = true ∨ db.isKind .group j = true)))) ∧
      (∀ j, j ≠ i → (db'.create j = true ↔ db.create j = true ∨ j = n.dir ∨
        (db.normal i j = true ∧ db.isKind .dir j = true))) ∧
      (∀ j, j ≠ i → (db'.config j = true ↔ db.config j = true ∨ (db.normal i j = true ∧ db.isKind .file j = true))) ∧
      (∀ a b, db'.normal a b = true ↔ db.normal a b = true ∧ a ≠ i ∧ b ≠ i) := by
  rw [show "tup.config".toList = tupConfig from rfl] at hx
  refine ⟨delFile db i n .file false, ?_, (eff_delFile db i n .file false).2, ?_⟩
  · unfold fileMissing
    rw [hn]
    simp only
    rw [del, hn]
    simp only
    rw [if_neg hx, hk]
  unfold delFile
  simp only [if_true, Bool.false_eq_true, if_false]
  generalize hxx : ((db.dependentFlags i).modifyByInput i).addCreate n.dir = x
  have hnx : x.node i = some n := by rw [← hxx]; exact hn
  obtain ⟨s1, s2, s3, s4, _, _, _, s8, _⟩ := deleteNameFile_spec hnx (by rw [hk]; decide) (by rw [hk]; decide)
  refine ⟨fun j hj => ?_, fun j hj => ?_, fun j hj => ?_, fun j hj => ?_, fun a b => ?_⟩
  · rw [s8 j hj, ← hxx]; rfl
  · rw [s2, ← hxx]
    show ((db.modify j || (db.normal i j && (db.isKind .cmd j || db.isKind .group j))) && _) = true ↔ _
    simp [hj]
  · rw [s1, ← hxx]
    show (((db.create j || (db.normal i j && db.isKind .dir j)) || decide (j = n.dir)) && _) = true ↔ _
    simp [hj]
    grind
  · rw [s3, ← hxx]
    show ((db.config j || (db.normal i j && db.isKind .file j)) && _) = true ↔ _
    simp [hj]
  · rw [s4, ← hxx]
    show (db.normal a b && _ && _) = true ↔ _
    simp
    grind

/-- A generated file that is gone: the command that makes it is run again; it is not deleted from the database, and
nothing else is scheduled. -/
theorem c41_removed_generated (hn : db.node i = some n) (hk : n.kind = .generated) (hx : n.name ≠ "tup.config".toList)
    (hg : n.name ≠ ".gitignore".toList) :
    ∃ db', fileMissing sort (fuel + 1) db i = some db' ∧ SameRest db db' ∧ db'.node = db.node ∧ db'.create = db.create ∧
      db'.config = db.config ∧
      (∀ j, db'.modify j = true ↔ j ≠ i ∧ (db.modify j = true ∨ db.normal j i = true)) := by
  rw [show "tup.config".toList = tupConfig from rfl] at hx
  rw [show ".gitignore".toList = gitignore from rfl] at hg
  refine ⟨(db.modifyByOutput i).unflagModify i, ?_, ⟨rfl, rfl, rfl, rfl, rfl, rfl⟩, rfl, rfl, rfl, fun j => ?_⟩
  · unfold fileMissing
    rw [hn]
    simp only
    rw [del, hn]
    simp only
    rw [if_neg hx, hk]
    simp only [Bool.false_eq_true, if_false, missingGenerated, if_neg hg]
  · show ((db.modify j || db.normal j i) && !decide (j = i)) = true ↔ _
    simp
    grind

/-- The `.gitignore` that tup has written is gone: the directory is parsed again. -/
theorem c41_removed_gitignore (hn : db.node i = some n) (hk : n.kind = .generated) (hg : n.name = ".gitignore".toList) :
    fileMissing sort (fuel + 1) db i = some (db.addCreate n.dir) := by
  rw [show ".gitignore".toList = gitignore from rfl] at hg
  have hx : n.name ≠ tupConfig := by rw [hg]; decide
  unfold fileMissing
  rw [hn]
  simp only
  rw [del, hn]
  simp only
  rw [if_neg hx, hk]
  simp only [Bool.false_eq_true, if_false, missingGenerated, if_pos hg]

/-- The `tup.config` is gone: only a ghost is left of it, and the configuration is read again. -/
theorem c41_removed_config (hn : db.node i = some n) (hx : n.name = "tup.config".toList) :
    ∃ db', fileMissing sort (fuel + 1) db i = some db' ∧ db'.node i = some { n with kind := .ghost } ∧
      db'.config i = true := by
  rw [show "tup.config".toList = tupConfig from rfl] at hx
  refine ⟨(db.setKind i .ghost).addConfig i, ?_, ?_, ?_⟩
  · unfold fileMissing
    rw [hn]
    simp only
    rw [del, hn]
    simp only
    rw [if_pos hx]
  · show (if i = i then (db.node i).map _ else _) = _
    rw [if_pos rfl, hn]
    rfl
  · show (_ || decide (i = i)) = true
    simp

/-- A directory is gone, with all that is in it: nothing outside of it changes except that more is scheduled, and
* of the files and directories in it only ghosts or nothing is left;
* the commands outside that read a file of it are run, and the directories outside that read one are parsed;
* the directory outside whose Tupfile makes a file in it is parsed again, so that either the file is made again
  somewhere or the command is deleted; if the directory itself was only made by tup, and so were those between it and
  the file, then the command outside that makes it is run again instead;
* the directory that it was in is parsed.
See `Claim` for each of these. -/
theorem c41_removed_dir (hsort : ∀ l, (sort l).Perm l) {r : Nat → Nat} {M : Nat} (hr : Ranked r db) (hb : Bounded db)
    (hM : ∀ j m, db.node j = some m → r j < M) (hn : db.node i = some n) (hf : M ≤ fuel + r i) :
    ∃ db', fileMissing sort fuel db i = some db' ∧ Eff (Below db i) db db' ∧
      ∀ b f m, Inside db i b f → db.node f = some m → m.name ≠ "tup.config".toList → Claim (Below db i) db db' i f m b := by
  obtain ⟨db', h1, h2, h3⟩ := del_spec hsort (r := r) (M := M) fuel db i n false hr hb hM hn hf
  refine ⟨db', ?_, h2, ?_⟩
  · unfold fileMissing
    rw [hn]
    exact h1
  · intro b f m hin hm hx
    have := h3 b f m hin hm hx
    rw [Bool.false_or] at this
    exact this

/-- A file is where there was a directory: it is recorded with its time, its directory is parsed, and all that read
something in the old directory is scheduled as if the directory were gone. -/
theorem c41_replaced (hsort : ∀ l, (sort l).Perm l) {r : Nat → Nat} {M : Nat} (hr : Ranked r db) (hb : Bounded db)
    (hro : Rooted db) (hu : Unique db) (hM : ∀ j m, db.node j = some m → r j < M) (hf : M ≤ fuel)
    (hi : db.select d file = some i) (hn : db.node i = some n) (hk : n.kind = .dir ∨ n.kind = .generatedDir)
    (hd : db.isKind .dir d = true) (hx : file ≠ "tup.config".toList) (ht : n.mtime ≠ t) :
    ∃ db' j, fileMod sort fuel db d file t force ign = some (db', j, true) ∧
      (∃ m, db'.node j = some m ∧ m.kind = .file ∧ m.dir = d ∧ m.name = file ∧ m.mtime = t) ∧ db'.create d = true ∧
      ∀ b f m, Inside db i b f → db.node f = some m → m.name ≠ "tup.config".toList →
        (m.kind = .file ∨ m.kind = .generated → ReadersRun (Below db i) db db' f) ∧
        (m.kind = .file ∨ m.kind = .dir → ReadersParsed (Below db i) db db' f) ∧
        (m.kind = .generated → SourceParsed (Below db i) db db' m) := by
  rw [show "tup.config".toList = tupConfig from rfl] at hx
  obtain ⟨n0, g1, g2, g3⟩ := select_some hi
  rw [hn] at g1
  cases g1
  obtain ⟨db1, h1, h2, h3⟩ := del_spec hsort (r := r) (M := M) fuel db i n true hr hb hM hn (by omega)
  have hdi : ¬ Below db i d := by
    intro h
    have h4 := hr i n hn
    rw [g2] at h4
    rcases h.rank hr with h5 | h5
    · rw [h5] at h4; omega
    · omega
  have hd1 : db1.isKind .dir d = true := by rw [h2.kind hdi]; exact hd
  obtain ⟨nd, hnd, _⟩ := isKind_iff.1 hd1
  obtain ⟨nd0, hnd0, _⟩ := isKind_iff.1 hd
  -- it is enough that what is scheduled stays scheduled
  have claims : ∀ db' : Db, (∀ j, db1.create j = true → db'.create j = true) → (∀ j, db1.modify j = true → db'.modify j = true) →
      (∀ j, db1.config j = true → db'.config j = true) →
      ∀ b f m, Inside db i b f → db.node f = some m → m.name ≠ tupConfig →
        (m.kind = .file ∨ m.kind = .generated → ReadersRun (Below db i) db db' f) ∧
        (m.kind = .file ∨ m.kind = .dir → ReadersParsed (Below db i) db db' f) ∧
        (m.kind = .generated → SourceParsed (Below db i) db db' m) := by
    intro db' c1 c2 c3 b f m hin hm hmx
    have hc := h3 b f m hin hm hmx
    refine ⟨fun hmk j hj hl hkj => c2 j (hc.runs ?_ j hj hl hkj), fun hmk => ⟨fun j hj hl hkj => c1 j ((hc.parses hmk).1 j hj hl hkj),
      fun j hj hl hkj => c3 j ((hc.parses hmk).2 j hj hl hkj)⟩, fun hmk s hs hBs hds => c1 s (hc.source hmk rfl ?_ s hs hBs hds)⟩
    · rcases hmk with hmk | hmk
      · exact .inl hmk
      · exact .inr ⟨hmk, rfl⟩
    · rintro rfl
      rw [hn] at hm
      cases hm
      rw [hmk] at hk
      rcases hk with hk | hk <;> cases hk
  have hch : (decide (n.mtime ≠ t) || (force && !(ign && decide (n.kind = .generated)))) = true := by simp [ht]
  have hres : fileMod sort fuel db d file t force ign = (match db1.select d file with
          | none =>
            match createNameFile fuel db1 d file t with
            | none => none
            | some (db, j) => some (configFlag (changedFile db j t) file j true, j, true)
          | some j =>
            if db1.isKind .ghost j then some (finish (ghostToFile db1 j d) file j t true)
            else none) := by
    unfold fileMod
    rw [hi]
    simp only [hn]
    rcases hk with hk | hk <;> rw [hk] at h1 hch ⊢ <;> simp only [h1, hch, if_true] <;> rfl
  rw [hres]
  cases hs : db1.select d file with
  | none =>
    simp only
    obtain ⟨y, j, y1, y2, y3, y4, y5, y6, y7, y8, y9, y10⟩ := createNameFile_spec (file := file) (t := t) (fuel := fuel)
      (h2.bounded hb) (h2.ranked hr) (h2.rooted hb hro) (Nat.lt_of_lt_of_le (hM d nd0 hnd0) hf) (by rw [hnd]; rfl)
    rw [y1]
    simp only
    obtain ⟨z, z1, _, _, z3, z4, z5, z6⟩ := finish_spec y file j t
    have hz : configFlag (changedFile y j t) file j true = z := congrArg (·.1) z1
    rw [hz]
    refine ⟨z, j, rfl, ⟨{ dir := d, kind := .file, name := file, mtime := t }, ?_, rfl, rfl, rfl, rfl⟩, ?_, ?_⟩
    · rw [z3, if_pos rfl, y3]
      rfl
    · exact (z5 d).2 (.inl y8)
    · exact claims z (fun j h => (z5 j).2 (.inl (y7 j h))) (fun j h => (z4 j).2 (.inl (by rw [y5]; exact h)))
        (fun j h => (z6 j).2 (.inl (by rw [y6]; exact h)))
  | some j =>
    obtain ⟨m1, m2, m3, m4⟩ := select_some hs
    obtain ⟨m0, k1, k2, k3, _⟩ := h2.sub j m1 m2
    have hji : j = i := hu j i m0 n k1 hn (by rw [← k2, m3, g2]) (by rw [← k3, m4, g3])
    subst hji
    have hg : db1.isKind .ghost j = true := by
      refine isKind_iff.2 ⟨m1, m2, (h3 false j n .refl hn (by rw [g3]; exact hx)).gone (.inr ⟨?_, rfl⟩) m1 m2⟩
      rcases hk with hk | hk <;> rw [hk] <;> decide
    simp only
    rw [if_pos hg]
    obtain ⟨x, x1, x2, _, x3, x4, x5, x6⟩ := ghost_spec (d := d) m2
    obtain ⟨z, z1, _, _, z3, z4, z5, z6⟩ := finish_spec x file j t
    rw [← x1, z1]
    refine ⟨z, j, rfl, ⟨{ m1 with kind := .file, mtime := t }, ?_, rfl, m3, m4, rfl⟩, ?_, ?_⟩
    · rw [z3, if_pos rfl, x3, if_pos rfl]
      rfl
    · exact (z5 d).2 (.inl ((x5 d).2 (.inr ⟨rfl, fun h => hdi (h ▸ .refl), hd1⟩)))
    · exact claims z (fun j h => (z5 j).2 (.inl ((x5 j).2 (.inl h)))) (fun j h => (z4 j).2 (.inl ((x4 j).2 (.inl h))))
        (fun j h => (z6 j).2 (.inl (by rw [x6]; exact h)))

/-- A file with the name of a group cannot be recorded: the scan fails.  (`<g>` is an allowed file name.) -/
theorem c41_group_name (hi : db.select d file = some i) (hn : db.node i = some n) (hk : n.kind = .group) (hx : n.name ≠ "tup.config".toList) :
    fileMod sort fuel db d file t force ign = none := by
  rw [show "tup.config".toList = tupConfig from rfl] at hx
  unfold fileMod
  rw [hi]
  simp only [hn]
  rw [hk]
  simp only
  cases fuel with
  | zero => rfl
  | succ fuel =>
    have : del sort (fuel + 1) db i .group true = some db := by
      rw [del, hn]
      simp only
      rw [if_neg hx]
    rw [this]
    simp only [hi]
    have : db.isKind .ghost i = false := by simp only [Db.isKind, hn, hk]; rfl
    rw [this]
    rfl

/-! ### A concrete case -/

/-- A project: directory `.` (1) with `sub` (2), which holds `a.c` (3) and `lib` (4) made by the Tupfile of `.`
(which is 1); a command (5) reads `a.c` and makes `lib`; another command (6), in `.`, reads `lib`; `.` itself reads
`sub/a.c` (for instance with `include`).  A generated directory `out` (7) holds `x` (8), which command 6 makes. -/
def sample : Db where
  node := fun i =>
    if i = 1 then some { dir := 0, kind := .dir, name := ['.'] }
    else if i = 2 then some { dir := 1, kind := .dir, name := ['s'] }
    else if i = 3 then some { dir := 2, kind := .file, name := ['a'], mtime := (5, 0) }
    else if i = 4 then some { dir := 2, kind := .generated, name := ['l'], mtime := (6, 0), src := some 1 }
    else if i = 5 then some { dir := 1, kind := .cmd, name := ['c', '1'] }
    else if i = 6 then some { dir := 1, kind := .cmd, name := ['c', '2'] }
    else if i = 7 then some { dir := 1, kind := .generatedDir, name := ['o'] }
    else if i = 8 then some { dir := 7, kind := .generated, name := ['x'], mtime := (7, 0), src := some 1 }
    else none
  top := 9
  normal := fun a b => decide ((a, b) ∈ [(3, 5), (5, 4), (4, 6), (3, 1), (6, 8)])
  sticky := fun _ _ => false
  group := fun _ _ _ => false
  vars := fun _ => none
  config := fun _ => false
  create := fun _ => false
  modify := fun _ => false
  variant := fun _ => false
  transient := fun _ => false
  ghosts := fun _ => false

def show' (r : Option Db) : Option (List Nat × List Nat × List Nat) :=
  r.map fun db => ((List.range 9).filter fun i => (db.node i).isSome, (List.range 9).filter db.create, (List.range 9).filter db.modify)

/-- `sub` is gone: its files and itself are gone, `.` is parsed, both commands that read something in it run. -/
example : show' (fileMissing id 9 sample 2) = some ([1, 5, 6, 7, 8], [1], [5, 6]) := by decide

/-- The generated directory is gone: nothing is deleted, the command that makes the file in it runs. -/
example : show' (fileMissing id 9 sample 7) = some ([1, 2, 3, 4, 5, 6, 7, 8], [], [6]) := by decide

/-- `a.c` has changed, and `lib` has not. -/
example : show' ((fileMod id 9 sample 2 ['a'] (9, 0) false false).map (·.1)) = some ([1, 2, 3, 4, 5, 6, 7, 8], [1], [3]) ∧
    show' ((fileMod id 9 sample 2 ['l'] (6, 0) false false).map (·.1)) = some ([1, 2, 3, 4, 5, 6, 7, 8], [], []) ∧
    show' ((fileMod id 9 sample 2 ['l'] (7, 0) false false).map (·.1)) = some ([1, 2, 3, 4, 5, 6, 7, 8], [], [4, 5]) := by decide

/-- The hypotheses of `c41_removed_dir` and `c41_replaced` hold for it. -/
example : ∃ r M, Ranked r sample ∧ Bounded sample ∧ Rooted sample ∧ Unique sample ∧
    (∀ j m, sample.node j = some m → r j < M) ∧ Inside sample 2 true 4 ∧ Inside sample 7 false 8 := by
  have hlt : ∀ j m, sample.node j = some m → j < 9 := by
    intro j m h
    by_cases hj : j < 9
    · exact hj
    · exfalso
      have : sample.node j = none := by
        simp only [sample]
        repeat rw [if_neg (by omega)]
      rw [this] at h
      cases h
  refine ⟨fun i => i, 9, ?_, ?_, ?_, ?_, hlt, ?_, ?_⟩
  · intro j m h
    have hj := hlt j m h
    have : ∀ j < 9, ∀ m ∈ sample.node j, m.dir < j := by decide
    exact this j hj m h
  · intro j hj
    cases h : sample.node j with
    | none => rfl
    | some m =>
      have h1 := hlt j m h
      have h2 : 9 ≤ j := hj
      omega
  · intro j m h
    have : ∀ j < 9, ∀ m ∈ sample.node j, m.dir = 0 ∨ (sample.node m.dir).isSome := by decide
    exact this j (hlt j m h) m h
  · intro a b m m' h h' hd hn
    have : ∀ a < 9, ∀ b < 9, ∀ m ∈ sample.node a, ∀ m' ∈ sample.node b, m.dir = m'.dir → m.name = m'.name → a = b := by decide
    exact this a (hlt a m h) b (hlt b m' h') m h m' h' hd hn
  · exact .dir (n := { dir := 2, kind := .generated, name := ['l'], mtime := (6, 0), src := some 1 }) rfl .refl rfl rfl (by decide)
  · exact .generated (n := { dir := 7, kind := .generated, name := ['x'], mtime := (7, 0), src := some 1 }) rfl .refl rfl rfl (by decide)

end Tup.Scan
