import Verif.External.Drop

/-!
C77: with `updater.full_deps`, tup notices changes of files outside of the project.
-/

namespace Tup.External

open Tup.Db

/-- The scan brings what is recorded about outside paths in step with the disk, whatever has changed there since it
was in step, and schedules exactly the commands (and groups), directories and `tup.config` files that have a changed
path as input.  It always comes to its end, in spite of its one list and the recursion, and changes nothing else. -/
theorem c77_scan {sort : List Nat → List Nat} (hs : ∀ l, (sort l).Perm l) {db : Db} {slash : Nat} {d d' : Disk}
    (h : Sound db slash d) (hh : Honest d d') (hr : d'.may d'.root = true) :
    ∃ db', scanFullDeps d' sort true slash db = some db' ∧ Sound db' slash d' ∧
      (∀ j, db'.modify j = true ↔ db.modify j = true ∨
        ((db.isKind .cmd j = true ∨ db.isKind .group j = true) ∧ Reads db slash d' j)) ∧
      (∀ j, db'.create j = true ↔ db.create j = true ∨ (db.isKind .dir j = true ∧ Reads db slash d' j)) ∧
      (∀ j, db'.config j = true ↔ db.config j = true ∨ (db.isKind .file j = true ∧ Reads db slash d' j)) ∧
      (∀ i, (∀ p, Below db slash i p → p = []) → db'.node i = db.node i) ∧ Alike db db' ∧
      db'.normal = db.normal ∧ db'.sticky = db.sticky ∧ db'.group = db.group ∧ db'.vars = db.vars ∧
      db'.variant = db.variant ∧ db'.transient = db.transient ∧ db'.ghosts = db.ghosts := by
  obtain ⟨db', he, h1⟩ := scanFullDeps_spec (d := d') hs h.wf h.here hr
  have hset := settled_of h.step hh
  refine ⟨db', he, ⟨h1.alike.wf h1.top h.wf, ?_, ?_, instep_of h.wf h1 hset⟩, ?_, ?_, ?_, ?_, h1.alike, h1.normal,
    h1.sticky, h1.group, h1.vars, h1.variant, h1.transient, h1.ghosts⟩
  · obtain ⟨n, hn⟩ := Option.isSome_iff_exists.1 h.here
    obtain ⟨m, hm, _⟩ := h1.alike.to hn
    rw [hm]; rfl
  · intro i p n hb hp hn
    obtain ⟨m, hm, _, _, hk⟩ := h1.alike.symm.to hn
    rw [← hk]
    exact h.ghosts i p m (h1.alike.symm.below hb) hp hm
  · intro j; rw [h1.modify, reads_iff hset]
  · intro j; rw [h1.create, reads_iff hset]
  · intro j; rw [h1.config, reads_iff hset]
  · intro i hi
    exact h1.miss i (.inr fun q hq => hq.path.1 (hi q hq.path.2))

/-- In any state, the scan comes to its end, and what it records afterwards is in step with the disk exactly if
nothing was recorded below paths that are no directories and have not changed: these are not looked at. -/
theorem c77_exact {sort : List Nat → List Nat} (hs : ∀ l, (sort l).Perm l) {db : Db} {slash : Nat} {d : Disk}
    (hw : Wf db) (hsl : (db.node slash).isSome) (hr : d.may d.root = true) :
    ∃ db', scanFullDeps d sort true slash db = some db' ∧ (InStep db' slash d ↔ Settled db slash d) := by
  obtain ⟨db', he, h1⟩ := scanFullDeps_spec (d := d) hs hw hsl hr
  exact ⟨db', he, settled_iff hw h1⟩

/-- Any change of the disk keeps the scan right if no symbolic link outside led to a directory before. -/
theorem c77_honest {d d' : Disk} (hn : NoDirLinks d) (h' : RealTimes d') : Honest d d' := by
  intro p hd hd' heq
  have hp : p ≠ [] := by rintro rfl; cases hd'
  obtain ⟨q, name, rfl⟩ : ∃ q name, p = q ++ [name] := ⟨_, _, (List.dropLast_concat_getLast hp).symm⟩
  unfold Disk.dir at hd hd'
  unfold Disk.time at heq
  rw [dirAt_snoc] at hd hd'
  rw [timeAt_snoc, timeAt_snoc] at heq
  cases hl : d.leads d.root q with
  | none => rw [hl] at hd; cases hd
  | some k =>
    rw [hl] at hd heq
    simp only at hd heq
    unfold Disk.isDir at hd
    cases hj : d.lookup k name with
    | none => rw [hj] at hd; cases hd
    | some j =>
      rw [hj] at hd heq
      simp only at hd heq
      have hobj : d.obj j = .dir := by
        unfold Disk.follow at hd
        cases ho : d.obj j with
        | dir => rfl
        | file t => rw [ho] at hd; simp [ho] at hd
        | link t =>
          rw [ho] at hd
          simp only at hd
          cases ht : d.target j with
          | none => rw [ht] at hd; cases hd
          | some k' =>
            rw [ht] at hd
            exact absurd (by simpa using hd) (hn j t k' ho ht)
      rw [hobj] at heq
      cases hl' : d'.leads d'.root q with
      | none => rw [hl'] at heq; exact absurd (show dirTime = gone from heq) (by decide)
      | some k' =>
        rw [hl'] at heq hd'
        simp only at heq hd'
        unfold Disk.isDir at hd'
        cases hj' : d'.lookup k' name with
        | none => rw [hj'] at heq; exact absurd (show dirTime = gone from heq) (by decide)
        | some j' =>
          rw [hj'] at heq hd'
          simp only at heq hd'
          cases ho' : d'.obj j' with
          | dir => simp [Disk.follow, ho'] at hd'
          | file t => rw [ho'] at heq; exact (h' j' t (.inl ho')).1 heq.symm
          | link t => rw [ho'] at heq; exact (h' j' t (.inr ho')).1 heq.symm

/-- When a command has read an outside path, entries for it and its directories are made, in step with the disk; what
was there stays.  The path becomes an input of the command unless its time has zero seconds, as directories have. -/
theorem c77_add {db db' : Db} {slash : Nat} {d : Disk} {path : List Str} {r : Option Nat} (h : Sound db slash d)
    (hp : path ≠ []) (he : addNode d true slash db path = some (db', r)) :
    Sound db' slash d ∧ Grows db db' ∧ ∃ i, Below db' slash i path ∧ (db'.node i).isSome ∧
      ((d.time path).1 = 0 → r = none) ∧ ((d.time path).1 ≠ 0 → r = some i) := by
  unfold addNode at he
  rw [if_pos rfl] at he
  cases path with
  | nil => exact absurd rfl hp
  | cons name path =>
    simp only at he
    cases ha : addElements d db slash [] (name :: path) with
    | none => rw [ha] at he; cases he
    | some x =>
      obtain ⟨db₁, i⟩ := x
      obtain ⟨h1, h2, h3, h4⟩ := addElements_sound _ h .top h.here ha
      obtain ⟨n, hn⟩ := Option.isSome_iff_exists.1 h4
      simp only [ha, hn] at he
      have hk := h1.ghosts i _ n h3 hp hn
      have ht := h1.step i _ n h3 hp hn
      rw [hk, ht] at he
      simp only [List.nil_append] at he h3
      by_cases h0 : (d.time (name :: path)).1 = 0
      · rw [if_pos (.inr (.inr h0))] at he
        cases he
        exact ⟨h1, h2, i, h3, h4, fun _ => rfl, fun h => absurd h0 h⟩
      · rw [if_neg (by simpa using h0)] at he
        cases he
        exact ⟨h1, h2, i, h3, h4, fun h => absurd h h0, fun _ => rfl⟩

/-- It can only fail when some directory on the way exists and cannot be opened: never if everything can be. -/
theorem c77_add_works {db : Db} {slash : Nat} {d : Disk} (hm : ∀ i, d.may i = true) (h : Sound db slash d)
    (path : List Str) : (addNode d true slash db path).isSome := by
  have hopen : ∀ i p, openPath d i p ≠ .denied := by
    intro i p
    induction p generalizing i with
    | nil => intro h; cases h
    | cons m p ih =>
      simp only [openPath]
      have hat : d.openat i m ≠ .denied := by
        unfold Disk.openat
        cases d.lookup i m with
        | none => intro h; cases h
        | some j =>
          simp only
          cases d.follow j with
          | none => intro h; cases h
          | some k => simp only; rw [if_pos (hm k)]; intro h; cases h
      cases ho : d.openat i m with
      | denied => exact absurd ho hat
      | absent => intro h; cases h
      | fd k => exact ih k
  have hout : ∀ p name, outsideMtime d p name ≠ none := by
    intro p name
    unfold outsideMtime
    rw [if_pos (hm _)]
    cases ho : openPath d d.root p with
    | denied => exact absurd ho (hopen _ _)
    | absent => intro h; cases h
    | fd k =>
      simp only
      cases d.lookup k name <;> (intro h; cases h)
  have helem : ∀ db cur p name, addElement d db cur p name ≠ none := by
    intro db cur p name
    unfold addElement
    cases db.select cur name with
    | some i => intro h; cases h
    | none =>
      simp only
      cases ho : outsideMtime d p name with
      | none => exact absurd ho (hout p name)
      | some t => intro h; cases h
  have hall : ∀ p db cur parent, (addElements d db cur parent p).isSome := by
    intro p
    induction p with
    | nil => intros; rfl
    | cons name p ih =>
      intro db cur parent
      simp only [addElements]
      cases he : addElement d db cur parent name with
      | none => exact absurd he (helem _ _ _ _)
      | some x => exact ih _ _ _
  unfold addNode
  rw [if_pos rfl]
  cases path with
  | nil => rfl
  | cons name path =>
    simp only
    obtain ⟨⟨db', i⟩, he⟩ := Option.isSome_iff_exists.1 (hall (name :: path) db slash [])
    obtain ⟨_, _, _, h4⟩ := addElements_sound _ h .top h.here he
    obtain ⟨n, hn⟩ := Option.isSome_iff_exists.1 h4
    simp only [he, hn]
    split <;> rfl

/-- What can happen to the outside part of the database, together with the disk as it was last looked at: it begins
empty, is scanned after the disk has changed, is added to while the disk stays as it is, and loses entries or stays
the same when other things happen. -/
inductive Reach (sort : List Nat → List Nat) (slash : Nat) : Db → Disk → Prop
  | start {db d} : Wf db → (db.node slash).isSome → (∀ i n, db.node i = some n → n.dir ≠ slash) →
      Reach sort slash db d
  | scan {db db' d d'} : Reach sort slash db d → Honest d d' → scanFullDeps d' sort true slash db = some db' →
      Reach sort slash db' d'
  | add {db db' d path r} : Reach sort slash db d → addNode d true slash db path = some (db', r) →
      Reach sort slash db' d
  | other {db db' d} : Reach sort slash db d → Wf db' → (db'.node slash).isSome →
      (∀ i p n, Below db' slash i p → p ≠ [] → db'.node i = some n → Below db slash i p ∧ db.node i = some n) →
      Reach sort slash db' d

/-- So what is recorded is always what was there when the disk was last looked at. -/
theorem c77_reach {sort : List Nat → List Nat} (hs : ∀ l, (sort l).Perm l) {slash : Nat} {db : Db} {d : Disk}
    (h : Reach sort slash db d) : Sound db slash d := by
  induction h with
  | @start db d hw hsl hno =>
    have hemp : ∀ i p, Below db slash i p → p = [] := by
      intro i p hb
      induction hb with
      | top => rfl
      | @sub i a p n ha hn hd ih =>
        have := ha.nil ih
        exact absurd (hd.trans this) (hno i n hn)
    exact ⟨hw, hsl, fun i p _ hb hp => absurd (hemp i p hb) hp, fun i p _ hb hp => absurd (hemp i p hb) hp⟩
  | @scan db db' d d' _ hh he ih =>
    have hr : d'.may d'.root = true := by
      unfold scanFullDeps at he
      rw [if_pos rfl] at he
      by_cases h : d'.may d'.root = true
      · exact h
      · rw [if_neg h] at he; cases he
    obtain ⟨db'', he', h1, _⟩ := c77_scan hs ih hh hr
    rw [he] at he'
    cases he'
    exact h1
  | @add db db' d path r _ he ih =>
    by_cases hp : path = []
    · subst hp
      cases he
      exact ih
    · exact (c77_add ih hp he).1
  | other _ hw hsl hsub ih =>
    refine ⟨hw, hsl, ?_, ?_⟩
    · intro i p n hb hp hn
      obtain ⟨h1, h2⟩ := hsub i p n hb hp hn
      exact ih.ghosts i p n h1 hp h2
    · intro i p n hb hp hn
      obtain ⟨h1, h2⟩ := hsub i p n hb hp hn
      exact ih.step i p n h1 hp h2

/-- Switching the option on schedules every command, so that all outside inputs become known, and nothing else. -/
theorem c77_on {sort : List Nat → List Nat} {slash : Nat} {db : Db} :
    ∃ db', checkFullDeps sort slash db 0 true = some (db', 1) ∧
      (∀ j, db'.modify j = true ↔ db.modify j = true ∨ db.isKind .cmd j = true) ∧
      db'.node = db.node ∧ db'.normal = db.normal ∧ db'.sticky = db.sticky ∧ db'.create = db.create := by
  refine ⟨rebuildAll db, rfl, fun j => ?_, rfl, rfl, rfl, rfl⟩
  show (db.modify j || db.isKind .cmd j) = true ↔ _
  rw [Bool.or_eq_true]

/-- Switching it off removes every outside path with its links, and keeps all else; nothing is scheduled. -/
theorem c77_off {sort : List Nat → List Nat} (hs : ∀ l, (sort l).Perm l) {slash : Nat} {db : Db} {d : Disk}
    (h : Sound db slash d) (hk : db.isKind .dir slash = true) :
    ∃ db', checkFullDeps sort slash db 1 false = some (db', 0) ∧ Wf db' ∧
      (∀ i p, Below db' slash i p → p = []) ∧
      (∀ i, (∀ p, Below db slash i p → p = []) → db'.node i = db.node i) ∧
      (∀ a b, db'.normal a b = true ↔ db.normal a b = true ∧ (∀ p, ¬ Below db slash a p) ∧ ∀ p, ¬ Below db slash b p) ∧
      db'.modify = db.modify ∧ db'.create = db.create ∧ db'.config = db.config := by
  obtain ⟨n, hn⟩ := Option.isSome_iff_exists.1 h.here
  obtain ⟨db', he, h1⟩ := dropTree_spec hs (db.top + 1) db slash h.wf (by omega) (lt_top h.wf.bounded hn)
    (by
      unfold Db.isKind at hk ⊢
      rw [hn] at hk ⊢
      simp only [decide_eq_true_eq] at hk
      simp [hk])
    (by
      intro j m hu hne hm
      obtain ⟨p, hp, hp'⟩ := under_below hu
      exact h.ghosts j p m hp (hp' hne) hm)
  have hB : ∀ a, (¬ Under db slash a) ↔ ∀ p, ¬ Below db slash a p := by
    intro a
    constructor
    · intro hu p hp; exact hu hp.under
    · intro hb hu
      obtain ⟨p, hp, _⟩ := under_below hu
      exact hb p hp
  refine ⟨db', ?_, h1.wf h.wf, ?_, ?_, ?_, h1.modify, h1.create, h1.config⟩
  · unfold checkFullDeps
    rw [if_neg (by decide), if_pos (by decide), he]
    rfl
  · intro i p hb
    by_cases hp : p = []
    · exact hp
    · exfalso
      obtain ⟨m, hm⟩ := hb.row hp
      have hu : Under db slash i := h1.under_back hb.under
      have hne : i ≠ slash := by have := hb.lt (h1.wf h.wf) hp; omega
      rw [h1.out i ⟨hu, hne⟩] at hm
      cases hm
  · intro i hi
    refine h1.keep i ?_
    rintro ⟨hu, hne⟩
    obtain ⟨p, hp, hp'⟩ := under_below hu
    exact hp' hne (hi p hp)
  · intro a b
    rw [h1.normal, hB, hB]

/-- Without the option nothing outside is looked at or recorded. -/
theorem c77_without {d : Disk} {sort : List Nat → List Nat} {slash : Nat} {db : Db} (path : List Str) :
    scanFullDeps d sort false slash db = some db ∧ addNode d false slash db path = some (db, none) :=
  ⟨rfl, rfl⟩

/-! ### Examples -/

/-- `/usr` with the file `h` (time 5.0), and `/lib`, a symbolic link (time 7.0) to `/usr`. -/
def exDisk : Disk where
  root := 0
  entry i name :=
    if i = 0 ∧ name = ['u'] then some 1 else if i = 1 ∧ name = ['h'] then some 2
    else if i = 0 ∧ name = ['l'] then some 3 else none
  obj i := if i = 2 then .file (5, 0) else if i = 3 then .link (7, 0) else .dir
  target i := if i = 3 then some 1 else none
  may _ := true

/-- `h` has been changed. -/
def exChanged : Disk := { exDisk with obj := fun i => if i = 2 then .file (9, 0) else exDisk.obj i }

/-- `/usr` has been removed, and the link leads nowhere. -/
def exDangling : Disk := { exDisk with
  entry := fun i name => if i = 0 ∧ name = ['l'] then some 3 else none
  target := fun _ => none }

/-- A project with the virtual directory `/` (2) and a command (3); nothing is known about outside files. -/
def exDb : Db where
  node i :=
    if i = 1 then some { dir := 0, kind := .dir, name := ['.'] }
    else if i = 2 then some { dir := 1, kind := .dir, name := ['/'] }
    else if i = 3 then some { dir := 1, kind := .cmd, name := ['c'] } else none
  top := 4
  normal _ _ := false
  sticky _ _ := false
  group _ _ _ := false
  vars _ := none
  config _ := false
  create _ := false
  modify _ := false
  variant _ := false
  transient _ := false
  ghosts _ := false

theorem exDb_wf : Wf exDb := by
  constructor
  · intro i hi
    have hi : 4 ≤ i := hi
    show (if i = 1 then _ else if i = 2 then _ else if i = 3 then _ else none) = none
    rw [if_neg (by omega), if_neg (by omega), if_neg (by omega)]
  · intro i n hn
    have hn : (if i = 1 then some { dir := 0, kind := .dir, name := ['.'] }
      else if i = 2 then some { dir := 1, kind := .dir, name := ['/'] }
      else if i = 3 then some { dir := 1, kind := .cmd, name := ['c'] } else none : Option Node) = some n := hn
    split at hn
    · cases hn; show 0 < i; omega
    · split at hn
      · cases hn; show 1 < i; omega
      · split at hn
        · cases hn; show 1 < i; omega
        · cases hn

theorem exDb_start (d : Disk) : Reach id 2 exDb d := by
  refine .start exDb_wf rfl ?_
  intro i n hn
  have hn : (if i = 1 then some { dir := 0, kind := .dir, name := ['.'] }
    else if i = 2 then some { dir := 1, kind := .dir, name := ['/'] }
    else if i = 3 then some { dir := 1, kind := .cmd, name := ['c'] } else none : Option Node) = some n := hn
  split at hn
  · cases hn; show 0 ≠ 2; omega
  · split at hn
    · cases hn; show 1 ≠ 2; omega
    · split at hn
      · cases hn; show 1 ≠ 2; omega
      · cases hn

/-- The command reads `/u/h`: entries 4 (`u`) and 5 (`h`) are made, and 5 is an input, so that a link is recorded. -/
def exRead : Db := match addNode exDisk true 2 exDb [['u'], ['h']] with
  | some (db, _) => { db with normal := fun a b => decide (a = 5 ∧ b = 3) }
  | none => exDb

example : (addNode exDisk true 2 exDb [['u'], ['h']]).map (·.2) = some (some 5) := by decide

example : (exRead.node 5).map (·.mtime) = some (5, 0) ∧ (exRead.node 4).map (·.mtime) = some (0, 0) := by decide

/-- The scan notices that the file has been changed, and schedules the command; and no scan without a change does. -/
example : ((scanFullDeps exChanged id true 2 exRead).map fun db => ((db.node 5).map (·.mtime), db.modify 3)) =
    some (some (9, 0), true) := by decide

example : ((scanFullDeps exDisk id true 2 exRead).map fun db => ((db.node 5).map (·.mtime), db.modify 3)) =
    some (some (5, 0), false) := by decide

/-- And that the whole directory is gone. -/
example : ((scanFullDeps exDangling id true 2 exRead).map fun db =>
    ((db.node 4).map (·.mtime), (db.node 5).map (·.mtime), db.modify 3)) =
    some (some (-1, 0), some (-1, 0), true) := by decide

/-- Recording the input of the command changes nothing outside. -/
theorem exLinked {db : Db} {path : List Str} {r : Option Nat} (h : addNode exDisk true 2 exDb path = some (db, r))
    (f : Nat → Nat → Bool) : Reach id 2 { db with normal := f } exDisk := by
  have h1 := Reach.add (exDb_start exDisk) h
  have h2 := c77_reach (sort := id) (fun l => .refl l) h1
  refine .other h1 ⟨h2.wf.bounded, h2.wf.down⟩ h2.here ?_
  intro i p n hb _ hn
  have key : ∀ {i p}, Below { db with normal := f } 2 i p → Below db 2 i p := by
    intro i p hb
    induction hb with
    | top => exact .top
    | sub _ hn hd ih => exact .sub ih hn hd
  exact ⟨key hb, hn⟩

/-- The premises of `c77_scan` hold here. -/
theorem exRead_reach : Reach id 2 exRead exDisk := by
  unfold exRead
  cases h : addNode exDisk true 2 exDb [['u'], ['h']] with
  | none => exact exDb_start _
  | some x => exact exLinked h _

theorem exHonest : Honest exDisk exChanged := by
  have hobj : ∀ i, exChanged.obj i = .dir ↔ exDisk.obj i = .dir := by
    intro i
    show (if i = 2 then Obj.file (9, 0) else exDisk.obj i) = .dir ↔ _
    split
    · rename_i h; subst h; decide
    · exact Iff.rfl
  have hfol : ∀ i, exChanged.follow i = exDisk.follow i := by
    intro i
    by_cases h : i = 2
    · subst h; decide
    · have : exChanged.obj i = exDisk.obj i := if_neg h
      unfold Disk.follow
      rw [this]
      rfl
  have hlook : ∀ i m, exChanged.lookup i m = exDisk.lookup i m := by
    intro i m
    unfold Disk.lookup
    by_cases h : exDisk.obj i = .dir
    · rw [if_pos h, if_pos ((hobj i).2 h)]; rfl
    · rw [if_neg h, if_neg fun h' => h ((hobj i).1 h')]
  have hdir : ∀ i m, exChanged.isDir i m = exDisk.isDir i m := by
    intro i m
    unfold Disk.isDir
    rw [hlook]
    cases exDisk.lookup i m with
    | none => rfl
    | some j =>
      simp only [hfol]
      cases exDisk.follow j with
      | none => rfl
      | some k => simp only; rw [Bool.eq_iff_iff, decide_eq_true_eq, decide_eq_true_eq]; exact hobj k
  have hopen : ∀ i m, exChanged.openat i m = exDisk.openat i m := by
    intro i m
    unfold Disk.openat
    rw [hlook]
    cases exDisk.lookup i m with
    | none => rfl
    | some j => simp only [hfol]; rfl
  have hat : ∀ p i, exChanged.dirAt i p = exDisk.dirAt i p := by
    intro p
    induction p with
    | nil => intro i; rfl
    | cons m p ih =>
      intro i
      cases p with
      | nil => exact hdir i m
      | cons m' p =>
        simp only [Disk.dirAt, Disk.enter, hdir, hopen]
        split
        · rfl
        · exact ih _
  intro p h1 h2
  rw [show exChanged.dir p = exDisk.dir p from hat p 0, h1] at h2
  cases h2

example : Sound exRead 2 exDisk ∧ Honest exDisk exChanged ∧ exChanged.may exChanged.root = true :=
  ⟨c77_reach (fun l => .refl l) exRead_reach, exHonest, rfl⟩

/-- The command reads the same file as `/l/h`, through the symbolic link. -/
def exLink : Db := match addNode exDisk true 2 exDb [['l'], ['h']] with
  | some (db, _) => { db with normal := fun a b => decide (a = 5 ∧ b = 3) }
  | none => exDb

theorem exLink_reach : Reach id 2 exLink exDisk := by
  unfold exLink
  cases h : addNode exDisk true 2 exDb [['l'], ['h']] with
  | none => exact exDb_start _
  | some x => exact exLinked h _

theorem exLink_below : Below exLink 2 5 [['l'], ['h']] := by
  have h4 : exLink.node 4 = some { dir := 2, kind := .ghost, name := ['l'], mtime := (7, 0) } := by decide
  have h5 : exLink.node 5 = some { dir := 4, kind := .ghost, name := ['h'], mtime := (5, 0) } := by decide
  exact .sub (p := [['l']]) (.sub (p := []) .top h4 rfl) h5 rfl

theorem exLink_scan : (scanFullDeps exDangling id true 2 exLink).isSome := by decide

/-- The database after the scan. -/
def exStale : Db := (scanFullDeps exDangling id true 2 exLink).get exLink_scan

/-- In general the scan misses a change: a command has read a file through a symbolic link to a directory; the
directory is removed, while the link stays as it is; then the file is still recorded as existing, and the command
is not scheduled. -/
theorem c77_stale : ∃ (slash : Nat) (d d' : Disk) (db db' : Db) (i c : Nat) (p : List Str) (t : Time),
    Reach id slash db d ∧ RealTimes d' ∧ scanFullDeps d' id true slash db = some db' ∧
    Below db slash i p ∧ db.normal i c = true ∧ db.isKind .cmd c = true ∧
    d.time p = t ∧ d'.time p = gone ∧ t ≠ gone ∧ (db'.node i).map (·.mtime) = some t ∧ db'.modify c = false := by
  refine ⟨2, exDisk, exDangling, exLink, exStale, 5, 3, [['l'], ['h']], (5, 0), exLink_reach, ?_,
    (Option.some_get _).symm, exLink_below, by decide, by decide, by decide, by decide, by decide, by decide, by decide⟩
  intro i t h
  have hobj : exDangling.obj i = if i = 2 then .file (5, 0) else if i = 3 then .link (7, 0) else .dir := rfl
  rw [hobj] at h
  split at h
  · rcases h with h | h <;> cases h
    decide
  · split at h
    · rcases h with h | h <;> cases h
      decide
    · rcases h with h | h <;> cases h

/-- Switching the option off removes the two entries, and the link to the command. -/
example : ((checkFullDeps id 2 exRead 1 false).map fun r =>
    (r.1.node 4 == none, r.1.node 5 == none, (r.1.node 3).isSome, r.1.normal 5 3, r.1.modify 3, r.2)) =
    some (true, true, true, false, false, 0) := by decide

end Tup.External
