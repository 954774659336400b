import Verif.FullScan.Located

/-!
C60: a full scan brings the database in step with the disk.

In all theorems `sort` and `order` are arbitrary orders in which entries are taken, `fuel` is the bound on the depth of the
recursion, and `h` says that the scan of the disk `l` has led from `db` to `db'`.
-/

namespace Tup.FullScan

open Tup.Db Tup.Scan

variable {sort : List (Nat × Kind) → List (Nat × Kind)} {order : List Nat → List Nat} {db db' : Db} {l : Listing} {fuel : Nat}
  {p : List Str} {f : Nat} {n : Node}

/-- The scan comes to an end, and the database is sound again. -/
theorem c60_ends (hsort : ∀ l, (sort l).Perm l) (horder : ∀ l, (order l).Perm l) (hs : Start db l) :
    ∃ db' F, Good db' ∧ Top db' ∧ ∀ fuel, F ≤ fuel → scan sort order fuel db l = some db' := by
  obtain ⟨m, m1, m2, m3, m4⟩ := hs.top
  obtain ⟨x, ⟨F, hF⟩, s, _⟩ := scan_lim hsort horder hs.good m1 m2 hs.distinct hs.free
  obtain ⟨h1, h2, _⟩ := scan_spec hsort horder hs (hF F (Nat.le_refl _))
  exact ⟨x, F, h1, h2, hF⟩

/-- Every file on the disk is recorded under its path, with its time. -/
theorem c60_files (hsort : ∀ l, (sort l).Perm l) (horder : ∀ l, (order l).Perm l) (hs : Start db l)
    (h : scan sort order fuel db l = some db') {t : Int × Int} (hd : l.Has p (.file t)) (hi : ∀ a ∈ p, Pel.ignored a = false) :
    ∃ f n, At db' 1 p f ∧ db'.node f = some n ∧ (n.kind = .file ∨ n.kind = .generated) ∧ n.mtime = t :=
  (has_at hd (scan_spec hsort horder hs h).2.2.2.1 hi).1 t rfl

/-- Every directory on the disk is recorded under its path. -/
theorem c60_dirs (hsort : ∀ l, (sort l).Perm l) (horder : ∀ l, (order l).Perm l) (hs : Start db l)
    (h : scan sort order fuel db l = some db') (hd : l.Has p .dir) (hi : ∀ a ∈ p, Pel.ignored a = false) :
    ∃ f n, At db' 1 p f ∧ db'.node f = some n ∧ (n.kind = .dir ∨ n.kind = .generatedDir) :=
  (has_at hd (scan_spec hsort horder hs h).2.2.2.1 hi).2 rfl

/-- Every source file or directory of the user that is recorded is on the disk, and is there what it is recorded as.  This does
not hold for what lies in a `tup.config`, for what the scan passes over, and for the directories that are never on the disk. -/
theorem c60_only (hsort : ∀ l, (sort l).Perm l) (horder : ∀ l, (order l).Perm l) (hs : Start db l)
    (h : scan sort order fuel db l = some db') (hat : At db' 1 p f) (hn : db'.node f = some n) (hp : p ≠ [])
    (hc : tupConfig ∉ p) (hpass : ¬ Passed l p) (hv : ¬ Virtual p) :
    (n.kind = .file → l.Has p (.file n.mtime)) ∧ (n.kind = .dir → l.Has p .dir) := by
  obtain ⟨hg, ht, _, hr, ho⟩ := scan_spec hsort horder hs h
  have hnc := not_config hg ht hat hc
  have hx : n.name ≠ tupConfig := fun e => hnc ⟨f, n, .refl, hn, e⟩
  have h1 : (db'.node 1).isSome := by obtain ⟨m, m1, _⟩ := ht; rw [m1]; rfl
  refine ⟨fun hk => ?_, fun hk => ?_⟩
  · rcases located hg ht hn (.inl hk) hnc p 1 l hr ho h1 hat hp with ⟨t, a, _, b⟩ | ⟨_, a⟩ | a | ⟨_, a⟩ | ⟨i, b, a1, a2⟩
    · rw [b]; exact a
    · rcases a with a | a <;> rw [hk] at a <;> cases a
    · exact absurd a hpass
    · exact absurd a hv
    · exact absurd hk (a1 b f n a2 hn hx).1
  · rcases located hg ht hn (.inr (.inr (.inl hk))) hnc p 1 l hr ho h1 hat hp with ⟨t, _, a, _⟩ | ⟨a, _⟩ | a | ⟨_, a⟩ | ⟨i, b, a1, a2⟩
    · rcases a with a | a <;> rw [hk] at a <;> cases a
    · exact a
    · exact absurd a hpass
    · exact absurd a hv
    · exact absurd hk (a1 b f n a2 hn hx).2.1

/-- A generated file that is recorded is on the disk with the time that is recorded, or the commands that make it are going to
run. -/
theorem c60_missing (hsort : ∀ l, (sort l).Perm l) (horder : ∀ l, (order l).Perm l) (hs : Start db l)
    (h : scan sort order fuel db l = some db') (hat : At db' 1 p f) (hn : db'.node f = some n) (hk : n.kind = .generated)
    (hc : tupConfig ∉ p) (hpass : ¬ Passed l p) (hv : ¬ Virtual p) (hgi : n.name ≠ gitignore) :
    l.Has p (.file n.mtime) ∨
      ∀ c, db'.isKind .cmd c = true → ¬ InConfig db' c → db'.normal c f = true → db'.modify c = true := by
  obtain ⟨hg, ht, _, hr, ho⟩ := scan_spec hsort horder hs h
  have hnc := not_config hg ht hat hc
  have hx : n.name ≠ tupConfig := fun e => hnc ⟨f, n, .refl, hn, e⟩
  have hp : p ≠ [] := by
    rintro rfl
    obtain ⟨m, m1, m2, _⟩ := ht
    rw [hat.root, m1] at hn
    cases hn
    rcases m2 with e | e <;> rw [hk] at e <;> cases e
  have h1 : (db'.node 1).isSome := by obtain ⟨m, m1, _⟩ := ht; rw [m1]; rfl
  rcases located hg ht hn (.inr (.inl hk)) hnc p 1 l hr ho h1 hat hp with ⟨t, a, _, b⟩ | ⟨_, a⟩ | a | ⟨_, a⟩ | ⟨i, b, a1, a2⟩
  · left; rw [b]; exact a
  · rcases a with a | a <;> rw [hk] at a <;> cases a
  · exact absurd a hpass
  · exact absurd a hv
  · exact .inr ((a1 b f n a2 hn hx).2.2 hk hgi)

/-- If a generated file has been changed by someone else, the commands that make it are going to run. -/
theorem c60_overwritten (hsort : ∀ l, (sort l).Perm l) (horder : ∀ l, (order l).Perm l) (hs : Start db l)
    (h : scan sort order fuel db l = some db') {n' : Node} (hn : db.node f = some n) (hn' : db'.node f = some n')
    (hk : n'.kind = .generated) (ht : n'.mtime ≠ n.mtime) {c : Nat} (hc : db'.isKind .cmd c = true) (hl : db'.normal c f = true) :
    db'.modify c = true :=
  (scan_spec hsort horder hs h).2.2.1.made f n n' hn hn' hk ht c hc hl

/-- If a source file is not there any more, or has another time, then a command that reads it is going to run: it is scheduled, or
the file is on the list of modified files. -/
theorem c60_readers (hsort : ∀ l, (sort l).Perm l) (horder : ∀ l, (order l).Perm l) (hs : Start db l)
    (h : scan sort order fuel db l = some db') (hat : At db 1 p f) (hn : db.node f = some n) (hk : n.kind = .file)
    (hc : tupConfig ∉ p) (hpass : ¬ Passed l p) (hv : ¬ Virtual p) (hd : ¬ l.Has p (.file n.mtime)) {j : Nat}
    (hj : db'.isKind .cmd j = true) (hl : db.normal f j = true) :
    db'.modify j = true ∨ (db'.modify f = true ∧ db'.isKind .file f = true ∧ db'.normal f j = true) := by
  obtain ⟨hg, ht, hsi, _, _⟩ := scan_spec hsort horder hs h
  have hp : p ≠ [] := by
    rintro rfl
    obtain ⟨m, m1, m2, _⟩ := hs.top
    rw [hat.root, m1] at hn
    cases hn
    rcases m2 with e | e <;> rw [hk] at e <;> cases e
  have hx : n.name ≠ tupConfig := fun e => (not_config hs.good hs.top hat hc) ⟨f, n, .refl, hn, e⟩
  rcases hsi.link f n j hn hk hx hj hl with a | ⟨a1, _, a3, m, a4, a5, _, a7⟩
  · exact .inl a
  · rcases a7 with a7 | a7
    · have := (c60_only hsort horder hs h (a3 1 p hat) a4 hp hc hpass hv).1 a5
      rw [a7] at this
      exact absurd this hd
    · exact .inr ⟨a7, isKind_iff.2 ⟨m, a4, a5⟩, a1⟩

/-- If there was no file under this path, the new file is on the list of modified files, or its directory is going to be parsed. -/
theorem c60_new (hsort : ∀ l, (sort l).Perm l) (horder : ∀ l, (order l).Perm l) (hs : Start db l)
    (h : scan sort order fuel db l = some db') {t : Int × Int} (hd : l.Has p (.file t)) (hi : ∀ a ∈ p, Pel.ignored a = false)
    (hc : tupConfig ∉ p) (hno : ∀ f n, At db 1 p f → db.node f = some n → n.kind ≠ .file ∧ n.kind ≠ .generated) :
    ∃ f n, At db' 1 p f ∧ db'.node f = some n ∧ n.kind = .file ∧ (db'.modify f = true ∨ db'.create n.dir = true) := by
  obtain ⟨hg, ht, hsi, _, _⟩ := scan_spec hsort horder hs h
  obtain ⟨f, n, h1, h2, h3, _⟩ := c60_files hsort horder hs h hd hi
  rcases h3 with h3 | h3
  · refine ⟨f, n, h1, h2, h3, ?_⟩
    rcases hsi.new f n h2 h3 (not_config hg ht h1 hc) with ⟨q, q1, q2, _, _, q5, _⟩ | a
    · exact absurd q2 (hno f q (q5 1 p h1) q1).1
    · exact a
  · obtain ⟨q, q1, q2, _, _, q5⟩ := hsi.gen f n h2 h3
    exact absurd q2 (hno f q (q5 1 p h1) q1).2

/-- If the database is what is on the disk, the scan leaves it as it is. -/
theorem c60_exact (horder : ∀ l, (order l).Perm l) (hg : Good db) (he : Exact db 1 l []) : scan sort order (fuel + 1) db l = some db := by
  have hnil : order [] = [] := List.Perm.eq_nil (horder [])
  have hstrike : ∀ {d : Nat} {a : Str} {seen : List Str} {root : List Nat},
      (∀ i ∈ root, ∃ n, db.node i = some n ∧ n.dir = d ∧ isVirtual n = false ∧
        (n.kind = .file ∨ n.kind = .dir ∨ n.kind = .generated ∨ n.kind = .generatedDir) ∧ n.name ∉ seen) →
      ∀ i ∈ strike db d a root, ∃ n, db.node i = some n ∧ n.dir = d ∧ isVirtual n = false ∧
        (n.kind = .file ∨ n.kind = .dir ∨ n.kind = .generated ∨ n.kind = .generatedDir) ∧ n.name ∉ a :: seen := by
    intro d a seen root hroot i hi
    have hmem : i ∈ root ∧ db.select d a ≠ some i := by
      unfold strike at hi
      cases hs : db.select d a with
      | none => rw [hs] at hi; exact ⟨hi, by simp⟩
      | some j =>
        rw [hs] at hi
        simp only [List.mem_filter, decide_eq_true_eq] at hi
        exact ⟨hi.1, fun e => hi.2 (Option.some.inj e).symm⟩
    obtain ⟨n, h1, h2, h3, h4, h5⟩ := hroot i hmem.1
    refine ⟨n, h1, h2, h3, h4, fun hx => ?_⟩
    rcases List.mem_cons.1 hx with e | e
    · have := select_eq hg.bounded hg.unique h1
      rw [h2, e] at this
      exact hmem.2 this
    · exact h5 e
  have key : ∀ (l : Listing) (d : Nat) (seen : List Str) (root : List Nat), Exact db d l seen →
      (∀ i ∈ root, ∃ n, db.node i = some n ∧ n.dir = d ∧ isVirtual n = false ∧
        (n.kind = .file ∨ n.kind = .dir ∨ n.kind = .generated ∨ n.kind = .generatedDir) ∧ n.name ∉ seen) →
      watch sort order (fuel + 1) db d root l = some (db, []) := by
    intro l
    induction l with
    | nil =>
      intro d seen root he hroot
      rw [watch]
      cases root with
      | nil => rfl
      | cons i root =>
        obtain ⟨n, h1, h2, h3, h4, h5⟩ := hroot i (.head _)
        exact absurd (he i n h1 h2 h3 h4) h5
    | file a t rest ih =>
      intro d seen root he hroot
      rw [watch]
      have hrest := ih d (a :: seen) (strike db d a root) he.2 (hstrike hroot)
      split
      · exact hrest
      · rename_i hi
        obtain ⟨x, n, h1, h2, h3, h4, h5⟩ := he.1.resolve_left hi
        have hs := select_eq hg.bounded hg.unique h1
        rw [h2, h3] at hs
        rw [fileMod_file hs h1 h4]
        have : differs n t false false = false := by unfold differs; simp [h5]
        rw [this, finish_same]
        exact hrest
    | dir a sub rest ih1 ih2 =>
      intro d seen root he hroot
      rw [watch]
      have hrest := ih2 d (a :: seen) (strike db d a root) he.2 (hstrike hroot)
      split
      · exact hrest
      · rename_i hi
        obtain ⟨x, n, h1, h2, h3, h4, h5, h6⟩ := he.1.resolve_left hi
        have hs := select_eq hg.bounded hg.unique h1
        rw [h2, h3] at hs
        have hset : Links.setTransient db x false = db := by
          unfold Links.setTransient
          have : (fun j => if j = x then (db.node j).map fun n => { n with transient := false } else db.node j) = db.node := by
            funext j
            by_cases hj : j = x
            · rw [if_pos hj, hj, h1]
              simp only [Option.map_some, Option.some.injEq]
              cases n
              cases h5
              rfl
            · rw [if_neg hj]
          rw [this]
        have hcr : Links.createNode sort (fuel + 1) db d a .dir none false = some (db, x) := by
          rw [Links.createNode, hs]
          simp only [h1]
          rw [if_neg (by rcases h4 with e | e <;> rw [e] <;> decide), if_neg, hset]
          rintro ⟨e1, e2⟩
          rcases h4 with e | e
          · exact e1 e
          · exact e2 ⟨e, trivial⟩
        rw [hcr]
        simp only
        rw [ih1 x [] (dirTree db x) h6 fun i hi => by
          obtain ⟨q, q1, q2, q3, q4⟩ := (mem_dirTree hg).1 hi
          exact ⟨q, q1, q2, q3, q4, List.not_mem_nil⟩]
        simp only [hnil, missing]
        exact hrest
    | other a rest ih =>
      intro d seen root he hroot
      rw [watch]
      exact ih d (a :: seen) (strike db d a root) he (hstrike hroot)
  unfold scan
  rw [key l 1 [] (dirTree db 1) he fun i hi => by
    obtain ⟨q, q1, q2, q3, q4⟩ := (mem_dirTree hg).1 hi
    exact ⟨q, q1, q2, q3, q4, List.not_mem_nil⟩]
  simp only [hnil, missing]

/-! ### A project with some changes -/

/-- Files `a`, `b`, `s/x`, `p`, the command `c` that reads `a`, `b` and `s/x` and writes `o`, the command `e` that reads `p`, and the
command `f` that writes `q`. -/
def sample : Db where
  node := fun i =>
    if i = 1 then some { dir := 0, kind := .dir, name := ['.'] }
    else if i = 2 then some { dir := 1, kind := .file, name := ['a'], mtime := (5, 0) }
    else if i = 3 then some { dir := 1, kind := .cmd, name := ['c'] }
    else if i = 4 then some { dir := 1, kind := .generated, name := ['o'], mtime := (6, 0), src := some 1 }
    else if i = 5 then some { dir := 1, kind := .file, name := ['b'], mtime := (5, 0) }
    else if i = 6 then some { dir := 1, kind := .dir, name := ['s'] }
    else if i = 7 then some { dir := 6, kind := .file, name := ['x'], mtime := (5, 0) }
    else if i = 8 then some { dir := 1, kind := .file, name := ['p'], mtime := (5, 0) }
    else if i = 9 then some { dir := 1, kind := .cmd, name := ['e'] }
    else if i = 10 then some { dir := 1, kind := .generated, name := ['q'], mtime := (6, 0), src := some 1 }
    else if i = 11 then some { dir := 1, kind := .cmd, name := ['f'] }
    else none
  top := 12
  normal := fun a b => decide ((a, b) ∈ [(2, 3), (5, 3), (7, 3), (3, 4), (8, 9), (11, 10)])
  sticky := fun _ _ => false
  group := fun _ _ _ => false
  vars := fun _ => none
  config := fun _ => false
  create := fun _ => false
  modify := fun _ => false
  variant := fun _ => false
  transient := fun _ => false
  ghosts := fun _ => false

/-- The names, types, times and flags of the rows. -/
def rows (db : Db) : List (Nat × Nat × Str) × List (Kind × Int) × List Nat × List Nat :=
  let l := (List.range db.top).filterMap fun i => (db.node i).map fun n => (i, n)
  (l.map fun r => (r.1, r.2.dir, r.2.name), l.map fun r => (r.2.kind, r.2.mtime.1), (List.range db.top).filter db.create,
    (List.range db.top).filter db.modify)

/-- `a` and `o` have changed, `b`, `s` and `q` are gone, there is a new file `n/y`, and `p` is a named pipe now. -/
def disk : Listing :=
  .file ['a'] (9, 0) (.dir ['n'] (.file ['y'] (1, 0) .nil) (.file ['o'] (7, 0) (.other ['p'] .nil)))

/-- The same things as in the database. -/
def old : Listing :=
  .dir ['s'] (.file ['x'] (5, 0) .nil) (.file ['a'] (5, 0) (.file ['b'] (5, 0) (.file ['o'] (6, 0) (.file ['p'] (5, 0)
    (.file ['q'] (6, 0) .nil)))))

theorem sample_lt : ∀ j m, sample.node j = some m → j < 12 := by
  intro j m h
  by_cases hj : j < 12
  · exact hj
  · exfalso
    have : sample.node j = none := by
      simp only [sample]
      repeat rw [if_neg (by omega)]
    rw [this] at h
    cases h

theorem sample_good : Good sample := by
  refine ⟨?_, ?_, ?_, ⟨fun i => i, ?_⟩, rfl, ?_⟩
  · intro j hj
    cases h : sample.node j with
    | none => rfl
    | some m =>
      have h1 := sample_lt j m h
      have h2 : 12 ≤ j := hj
      omega
  · intro j m h
    have : ∀ j < 12, ∀ m ∈ sample.node j, m.dir = 0 ∨ (sample.node m.dir).isSome := by decide
    exact this j (sample_lt j m h) m h
  · intro a b m m' h h' hd hn
    have : ∀ a < 12, ∀ b < 12, ∀ m ∈ sample.node a, ∀ m' ∈ sample.node b, m.dir = m'.dir → m.name = m'.name → a = b := by decide
    exact this a (sample_lt a m h) b (sample_lt b m' h') m h m' h' hd hn
  · intro j m h
    have : ∀ j < 12, ∀ m ∈ sample.node j, m.dir < j := by decide
    exact this j (sample_lt j m h) m h
  · intro j m h _
    have : ∀ j < 12, ∀ m ∈ sample.node j, (m.kind = .dir ∧ m.dir = 0) ∨ (m.dir = 1 ∨ m.dir = 6) := by decide
    rcases this j (sample_lt j m h) m h with ⟨a, b⟩ | b | b
    · exact .inl ⟨.inl a, b⟩
    · rw [b]; exact .inr (.inr ⟨_, rfl, .inl rfl⟩)
    · rw [b]; exact .inr (.inr ⟨_, rfl, .inl rfl⟩)

theorem sample_start : Start sample disk := by
  refine ⟨sample_good, ⟨_, rfl, .inl rfl, rfl, by decide⟩, ?_, ?_⟩
  · simp [disk, Listing.Distinct, Listing.names]
  · intro j n hn hk
    have : ∀ j < 12, ∀ m ∈ sample.node j, m.kind ≠ .group := by decide
    exact absurd hk (this j (sample_lt j n hn) n hn)

set_option synthInstance.maxSize 500 in
/-- The command `c` (3) is going to run because of `o`, `b` and `s/x`, and `a` (2) is on the list of modified files; `f` (11) runs
because `q` is gone.  The new files and directories take free ids.  `p` (8) has not been touched. -/
example : (scan id id 9 sample disk).map rows = some (
    [(1, 0, ['.']), (2, 1, ['a']), (3, 1, ['c']), (4, 1, ['o']), (8, 1, ['p']), (9, 1, ['e']), (10, 1, ['q']), (11, 1, ['f']),
      (12, 1, ['n']), (13, 12, ['y'])],
    [(.dir, -1), (.file, 9), (.cmd, -1), (.generated, 7), (.file, 5), (.cmd, -1), (.generated, 6), (.cmd, -1), (.dir, -1), (.file, 1)],
    [1, 12], [2, 3, 4, 11]) := by decide

/-- The hypotheses of the theorems hold: `n/y` is a new file, `b` (read by the command 3) is gone. -/
example : disk.Has [['n'], ['y']] (.file (1, 0)) ∧ disk.Has [['n']] .dir ∧ Pel.ignored ['n'] = false ∧ Pel.ignored ['y'] = false ∧
    At sample 1 [['b']] 5 ∧ sample.isKind .file 5 = true ∧ sample.normal 5 3 = true ∧ ¬ disk.Has [['b']] (.file (5, 0)) := by
  refine ⟨.afterFile (.inside .file), .afterFile .dir, by decide, by decide, ?_, by decide, by decide, ?_⟩
  · exact At.cons (db := sample) (k := 5) (n := { dir := 1, kind := .file, name := ['b'], mtime := (5, 0) }) rfl .nil
  · intro h
    cases h with
    | afterFile h => cases h with
      | afterDir h => cases h with
        | afterFile h => cases h with
          | afterOther h => cases h

set_option synthInstance.maxSize 500 in
/-- The hypotheses of `c60_exact` hold for the project before the changes. -/
example : Exact sample 1 old [] := by
  have hrow : ∀ i n, sample.node i = some n → i < 12 := sample_lt
  refine ⟨.inr ⟨6, _, rfl, rfl, rfl, .inl rfl, rfl, .inr ⟨7, _, rfl, rfl, rfl, .inl rfl, rfl⟩, ?_⟩, .inr ⟨2, _, rfl, rfl, rfl, .inl rfl, rfl⟩,
    .inr ⟨5, _, rfl, rfl, rfl, .inl rfl, rfl⟩, .inr ⟨4, _, rfl, rfl, rfl, .inr rfl, rfl⟩, .inr ⟨8, _, rfl, rfl, rfl, .inl rfl, rfl⟩,
    .inr ⟨10, _, rfl, rfl, rfl, .inr rfl, rfl⟩, ?_⟩
  · intro i n hn hd _ _
    have : ∀ j < 12, ∀ m ∈ sample.node j, m.dir = 6 → m.name ∈ [['x']] := by decide
    exact this i (hrow i n hn) n hn hd
  · intro i n hn hd _ hk
    have : ∀ j < 12, ∀ m ∈ sample.node j, m.dir = 1 → m.kind ≠ .cmd →
        m.name ∈ [['q'], ['p'], ['o'], ['b'], ['a'], ['s']] := by decide
    exact this i (hrow i n hn) n hn hd (by rcases hk with e | e | e | e <;> rw [e] <;> decide)

/-- What the scan does not see: a file that has been replaced by something that is neither a file nor a directory (a socket, a
named pipe) is still recorded with its old time, and the command that reads it is not going to run. -/
theorem c60_replaced : ∃ (db db' : Db) (l : Listing) (p : List Str) (f j : Nat) (n : Node), Start db l ∧ scan id id 9 db l = some db' ∧
    At db 1 p f ∧ db.node f = some n ∧ n.kind = .file ∧ db.isKind .cmd j = true ∧ db.normal f j = true ∧ (∀ t, ¬ l.Has p (.file t)) ∧
    db'.node f = some n ∧ db'.modify f = false ∧ db'.modify j = false := by
  have hs : (scan id id 9 sample disk).map (fun db' => (db'.node 8, db'.modify 8, db'.modify 9)) =
      some (sample.node 8, false, false) := by decide
  cases h : scan id id 9 sample disk with
  | none => rw [h] at hs; cases hs
  | some db' =>
    rw [h] at hs
    simp only [Option.map_some, Option.some.injEq, Prod.mk.injEq] at hs
    refine ⟨sample, db', disk, [['p']], 8, 9, _, sample_start, h, ?_, rfl, rfl, by decide, by decide, ?_, hs.1, hs.2.1, hs.2.2⟩
    · exact At.cons (db := sample) (k := 8) (n := { dir := 1, kind := .file, name := ['p'], mtime := (5, 0) }) rfl .nil
    · intro t ht
      cases ht with
      | afterFile ht =>
        cases ht with
        | afterDir ht =>
          cases ht with
          | afterFile ht =>
            cases ht with
            | afterOther ht => cases ht

end Tup.FullScan
