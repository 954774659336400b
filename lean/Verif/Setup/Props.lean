import Verif.Setup.Lemmas

/-!
C111: what a command sees when it starts.
-/

namespace Tup.Setup

/-- The path is not one of /dev and /proc. -/
def Usual (p : Path) : Prop := ¬ dev <+: p ∧ ¬ proc <+: p

theorem usual_prefix {a p : Path} (h : Usual p) (ha : a <+: p) : Usual a := ⟨fun e => h.1 (e.trans ha), fun e => h.2 (e.trans ha)⟩

theorem chroot_walk {c : Cfg} {p : Path} {w : Path} (h : Usual (w ++ p)) :
    walk ((.fuse proc, .real proc) :: (.fuse dev, .real dev) :: ms0 c) (.fuse w) p = .fuse (w ++ p) := by
  rw [walk_plain]
  · rfl
  · intro a _ hp
    have hu : Usual (w ++ a) := usual_prefix h ((List.prefix_append_right_inj w).2 hp)
    rw [Place.add, lookup_two, if_neg, lookup_two, if_neg, ms0, lookup_two, if_neg (by simp)]
    · rfl
    · intro e; injection e with e; exact hu.1 (e ▸ List.prefix_rfl)
    · intro e; injection e with e; exact hu.2 (e ▸ List.prefix_rfl)

theorem fuse_walk {c : Cfg} {p w : Path} : walk ((.real c.top, .fuse c.top) :: ms0 c) (.fuse w) p = .fuse (w ++ p) := by
  rw [walk_plain]
  · rfl
  · intro a _ _
    rw [Place.add, lookup_two, if_neg (by simp), ms0, lookup_two, if_neg (by simp)]; rfl

theorem fuse_walk0 {c : Cfg} {p w : Path} : walk (ms0 c) (.fuse w) p = .fuse (w ++ p) := by
  rw [walk_plain]
  · rfl
  · intro a _ _
    rw [Place.add, ms0, lookup_two, if_neg (by simp)]; rfl

theorem top_walk {c : Cfg} {q : Path} (ht : c.top ≠ []) : walk ((.real c.top, .fuse c.top) :: ms0 c) (.real []) (c.top ++ q) = .fuse (c.top ++ q) := by
  rw [walk_append, walk_mount _ c.top (.fuse c.top) _ ht, fuse_walk]
  · intro a _ hp hne
    rw [Place.add, List.nil_append, lookup_two, if_neg (by simpa using hne), ms0, lookup_two, if_neg]
    · rfl
    · rw [real_inj]; exact not_top_job hp.length_le
  · rw [Place.add, List.nil_append, lookup_two, if_pos rfl]

theorem outside_walk {c : Cfg} {p : Path} (h : ¬ c.top <+: p) : walk ((.real c.top, .fuse c.top) :: ms0 c) (.real []) p = .real p := by
  rw [walk_plain]
  · rfl
  · intro a _ hp
    rw [Place.add, List.nil_append, lookup_two, if_neg, ms0, lookup_two, if_neg]
    · rfl
    · rw [real_inj]; intro e; exact h (((List.prefix_append c.top c.job).trans (e ▸ List.prefix_rfl)).trans hp)
    · rw [real_inj]; intro e; exact h (e ▸ hp)

theorem real_walk {c : Cfg} {p : Path} (h : ¬ c.top ++ c.job <+: p) : walk (ms0 c) (.real []) p = .real p := by
  rw [walk_plain]
  · rfl
  · intro a _ hp
    rw [Place.add, List.nil_append, ms0, lookup_two, if_neg]
    · rfl
    · rw [real_inj]; intro e; exact h (e ▸ hp)

/-- C111: a command starts in its directory of the project, and what it reaches from there goes through tup's file system, with the path of the
real file. This is so in all modes; in the mode without mounts it needs that the change to the job's directory succeeded. -/
theorem c111_relative {c : Cfg} {fds : Nat → Option Out} {p : Proc} (h : setup c (start c fds) = some p) (ht : c.top ≠ []) (q : Path)
    (hu : Usual (c.top ++ c.sub ++ q)) (hj : c.namespacing = true ∨ c.doChroot = true ∨ c.can .chdirJob = true) :
    p.rel q = .fuse (c.top ++ c.sub ++ q) := by
  obtain ⟨p1, p2, _, h2, rfl⟩ := setup_spec h
  have hd : Usual c.dir := usual_prefix hu (List.prefix_append _ _)
  obtain ⟨_, _, ⟨_, a, b, d⟩ | ⟨_, _, a, b, d⟩ | ⟨e1, e2, a, b, d⟩⟩ := view_spec rfl h2
  · have : p2.rel c.dir = .fuse c.dir := by
      rw [Proc.rel, a, d, chroot_walk (by simpa using hd)]; simp
    show walk p2.mounts (p2.rel c.dir) q = _
    rw [this, a]; exact chroot_walk hu
  · have : p2.rel c.dir = .fuse c.dir := by
      rw [Proc.rel, a, d, Cfg.dir, top_walk ht]
    show walk p2.mounts (p2.rel c.dir) q = _
    rw [this, a, fuse_walk]; rfl
  · have hc : c.can .chdirJob = true := by
      rcases hj with h | h | h
      · rw [e2] at h; cases h
      · rw [e1] at h; cases h
      · exact h
    rw [if_pos hc] at d
    have : p2.rel c.dir = .fuse c.dir := by
      rw [Proc.rel, a, d, fuse_walk0]; simp
    show walk p2.mounts (p2.rel c.dir) q = _
    rw [this, a, fuse_walk0]; rfl

/-- C111: with a namespace of its own, or in a chroot, all that the command reaches in the project by absolute paths goes through tup's file
system too. -/
theorem c111_absolute {c : Cfg} {fds : Nat → Option Out} {p : Proc} (h : setup c (start c fds) = some p) (ht : c.top ≠ []) (q : Path)
    (hu : Usual (c.top ++ q)) (hm : c.namespacing = true ∨ c.doChroot = true) : p.abs (c.top ++ q) = .fuse (c.top ++ q) := by
  obtain ⟨p1, p2, _, h2, rfl⟩ := setup_spec h
  obtain ⟨_, _, ⟨_, a, b, d⟩ | ⟨_, _, a, b, d⟩ | ⟨e1, e2, a, b, d⟩⟩ := view_spec rfl h2
  · show walk p2.mounts p2.root _ = _
    rw [a, b, chroot_walk (by simpa using hu)]; simp
  · show walk p2.mounts p2.root _ = _
    rw [a, b, top_walk ht]
  · rcases hm with h | h
    · rw [e2] at h; cases h
    · rw [e1] at h; cases h

/-- C111: a command that asks for it (^c) either is not run or has this. -/
theorem c111_need {c : Cfg} {fds : Nat → Option Out} {p : Proc} (h : setup c (start c fds) = some p) (ht : c.top ≠ []) (hn : c.need = true) (q : Path)
    (hu : Usual (c.top ++ q)) : p.abs (c.top ++ q) = .fuse (c.top ++ q) := by
  obtain ⟨p1, p2, _, h2, rfl⟩ := setup_spec h
  obtain ⟨_, hor, _⟩ := view_spec rfl h2
  refine c111_absolute h ht q hu ?_
  cases hns : c.namespacing
  · right
    rcases hor hn with h | h
    · rw [hns] at h; cases h
    · unfold Cfg.doChroot
      simp [hn, h, hns]
  · exact Or.inl rfl

/-- C111: with updater.full_deps everything goes through tup's file system, in the project or not, but for /dev and /proc, which are those
of the system. -/
theorem c111_full {c : Cfg} {fds : Nat → Option Out} {p : Proc} (h : setup c (start c fds) = some p) (hf : c.full = true) (q : Path) :
    (Usual q → p.abs q = .fuse q) ∧ (∀ r, ¬ c.top ++ c.job <+: dev ++ r → p.abs (dev ++ r) = .real (dev ++ r)) ∧
    (∀ r, ¬ c.top ++ c.job <+: proc ++ r → p.abs (proc ++ r) = .real (proc ++ r)) := by
  obtain ⟨p1, p2, _, h2, rfl⟩ := setup_spec h
  have hc : c.doChroot = true := by unfold Cfg.doChroot; simp [hf]
  obtain ⟨_, _, ⟨_, a, b, d⟩ | ⟨e, _⟩ | ⟨e, _⟩⟩ := view_spec rfl h2
  · have hreal : ∀ w r : Path, ¬ c.top ++ c.job <+: w ++ r → walk p2.mounts (.real w) r = .real (w ++ r) := by
      intro w r hr
      rw [a, walk_plain]
      · rfl
      · intro x _ hp
        rw [Place.add, lookup_two, if_neg (by simp), lookup_two, if_neg (by simp), ms0, lookup_two, if_neg]
        · rfl
        · rw [real_inj]
          intro e
          exact hr (e ▸ (List.prefix_append_right_inj w).2 hp)
    refine ⟨fun hu => ?_, fun r hr => ?_, fun r hr => ?_⟩
    · show walk p2.mounts p2.root _ = _
      rw [a, b, chroot_walk (by simpa using hu)]; simp
    · show walk p2.mounts p2.root _ = _
      have : walk p2.mounts (.fuse []) dev = .real dev := by
        rw [a]
        rfl
      rw [b, walk_append, this, hreal _ _ hr]
    · show walk p2.mounts p2.root _ = _
      have : walk p2.mounts (.fuse []) proc = .real proc := by
        rw [a]
        rfl
      rw [b, walk_append, this, hreal _ _ hr]
  · rw [hc] at e; cases e
  · rw [hc] at e; cases e

/-- C111: without full_deps and without a chroot, what is outside of the project is seen as it is, unnoticed. In the mode without mounts the
same holds for absolute paths into the project, other than through the job's directory. -/
theorem c111_outside {c : Cfg} {fds : Nat → Option Out} {p : Proc} (h : setup c (start c fds) = some p) (hf : c.doChroot = false) (q : Path) :
    (¬ c.top <+: q → p.abs q = .real q) ∧ (c.namespacing = false → ¬ c.top ++ c.job <+: q → p.abs q = .real q) := by
  obtain ⟨p1, p2, _, h2, rfl⟩ := setup_spec h
  obtain ⟨_, _, ⟨e, _⟩ | ⟨_, e2, a, b, d⟩ | ⟨e1, e2, a, b, d⟩⟩ := view_spec rfl h2
  · rw [hf] at e; cases e
  · refine ⟨fun hq => ?_, fun hn => ?_⟩
    · show walk p2.mounts p2.root _ = _
      rw [a, b, outside_walk hq]
    · rw [e2] at hn; cases hn
  · have key : ¬ c.top ++ c.job <+: q → walk p2.mounts p2.root q = .real q := by
      intro hq
      rw [a, b, real_walk hq]
    exact ⟨fun hq => key (fun e => hq ((List.prefix_append _ _).trans e)), fun _ hq => key hq⟩

/-- C111: what the command writes to its standard output and error goes to the files that are made for it, or to one for both, and no other
descriptor is left over or changed. With streaming none is changed. -/
theorem c111_outputs {c : Cfg} {fds : Nat → Option Out} {p : Proc} (h : setup c (start c fds) = some p)
    (h1 : fds 1 ≠ none) (h2 : fds 2 ≠ none) (ho : fds c.ofd = none) (he : fds c.efd = none ∧ c.efd ≠ c.ofd) :
    (c.streaming = true → p.fds = fds) ∧
    (c.streaming = false → p.fds 1 = some .output ∧ p.fds 2 = some (if c.single then .output else .errors) ∧ ∀ n, n ≠ 1 → n ≠ 2 → p.fds n = fds n) := by
  obtain ⟨p1, p2, hp1, hp2, rfl⟩ := setup_spec h
  obtain ⟨hfd, _⟩ := view_spec rfl hp2
  show (c.streaming = true → p2.fds = fds) ∧ _
  have o1 : c.ofd ≠ 1 := fun e => h1 (e ▸ ho)
  have o2 : c.ofd ≠ 2 := fun e => h2 (e ▸ ho)
  have e1 : c.efd ≠ 1 := fun e => h1 (e ▸ he.1)
  have e2 : c.efd ≠ 2 := fun e => h2 (e ▸ he.1)
  rw [hfd]
  unfold outputs at hp1
  constructor
  · intro hs
    rw [if_pos hs] at hp1
    cases hp1
    rfl
  · intro hs
    rw [if_neg (by simp [hs])] at hp1
    simp only [Option.bind_eq_bind, Option.bind_eq_some_iff] at hp1
    obtain ⟨q1, g1, q2, g2, q3, g3, q4, g4, q5, g5, q6, g6, g7⟩ := hp1
    obtain ⟨-, rfl⟩ := call_some g1
    obtain ⟨-, rfl⟩ := call_some g2
    obtain ⟨-, rfl⟩ := call_some g4
    obtain ⟨-, rfl⟩ := call_some g5
    obtain ⟨-, rfl⟩ := call_some g6
    unfold errorFile at g3
    by_cases hsi : c.single = true
    · rw [if_pos hsi] at g3 g7
      cases g3
      cases g7
      simp only [hsi, if_true, setFd, id, start]
      refine ⟨by simp [o1.symm], by simp [o2.symm, o1], ?_⟩
      intro n n1 n2
      by_cases hn : n = c.ofd
      · simp [hn, ho]
      · simp [hn, n1, n2]
    · rw [if_neg hsi] at g3 g7
      simp only [Option.bind_eq_some_iff] at g3
      obtain ⟨q7, g8, g9⟩ := g3
      obtain ⟨-, rfl⟩ := call_some g8
      obtain ⟨-, rfl⟩ := call_some g9
      obtain ⟨-, rfl⟩ := call_some g7
      simp only [hsi, setFd, id, start]
      refine ⟨by simp [o1.symm, e1.symm, he.2.symm], by simp [o2.symm, e2.symm, e1], ?_⟩
      intro n n1 n2
      by_cases hn : n = c.efd
      · simp [hn, he.1]
      · by_cases hn' : n = c.ofd
        · simp [hn', ho]
        · simp [hn, hn', n1, n2]

/-- C111, what goes wrong: when tup is started with its standard output closed, and the kernel gives that number to the file for the output,
the file is closed again, and the command has no standard output. -/
theorem c111_closed {c : Cfg} {fds : Nat → Option Out} {p : Proc} (h : setup c (start c fds) = some p) (hs : c.streaming = false) (hsi : c.single = true)
    (ho : c.ofd = 1) : p.fds 1 = none := by
  obtain ⟨p1, p2, hp1, hp2, rfl⟩ := setup_spec h
  obtain ⟨hfd, _⟩ := view_spec rfl hp2
  show p2.fds 1 = none
  rw [hfd]
  unfold outputs at hp1
  rw [if_neg (by simp [hs])] at hp1
  simp only [Option.bind_eq_bind, Option.bind_eq_some_iff] at hp1
  obtain ⟨q1, g1, q2, g2, q3, g3, q4, g4, q5, g5, q6, g6, g7⟩ := hp1
  rw [if_pos hsi] at g7
  cases g7
  obtain ⟨-, rfl⟩ := call_some g6
  simp [setFd, ho]

/-- C111, what goes wrong: in the mode without mounts, if the change to the job's directory fails, the process goes on; when there is a directory
below the project that has the path of the command's directory, the command is run there, and what it does is not noticed. -/
theorem c111_unseen {c : Cfg} {fds : Nat → Option Out} {p : Proc} (h : setup c (start c fds) = some p) (hc : c.doChroot = false) (hn : c.namespacing = false)
    (hj : c.can .chdirJob = false) (q : Path) (hq : ¬ c.job <+: c.dir ++ q) : p.rel q = .real (c.top ++ c.dir ++ q) := by
  obtain ⟨p1, p2, _, h2, rfl⟩ := setup_spec h
  obtain ⟨_, _, ⟨e, _⟩ | ⟨_, e, _⟩ | ⟨_, _, a, b, d⟩⟩ := view_spec rfl h2
  · rw [hc] at e; cases e
  · rw [hn] at e; cases e
  · rw [hj, if_neg (by simp)] at d
    show walk p2.mounts (walk p2.mounts p2.cwd c.dir) q = _
    rw [← walk_append, a, d, walk_plain, Place.add, List.append_assoc]
    intro x _ hp
    rw [Place.add, ms0, lookup_two, if_neg]
    · rfl
    · rw [real_inj]
      intro e
      exact hq (List.append_cancel_left e ▸ hp)

/-! Cases that meet the hypotheses: a command in `sub` of the project /home/p. -/

def sample : Cfg where
  top := [['h', 'o', 'm', 'e'], ['p']]
  name := ['@', 'j', '5']
  sub := [['s', 'u', 'b']]
  streaming := false
  single := true
  need := false
  namespacing := true
  privileged := false
  full := false
  can := fun _ => true
  ofd := 5
  efd := 6

/-- Standard input, output and error, and a socket. -/
def open4 : Nat → Option Out := fun n => if n < 4 then some (.other n) else none

/-- What is reached: from the directory, by an absolute path in the project, by one outside of it, and by one in /dev. -/
def seen (c : Cfg) : Option (Place × Place × Place × Place) :=
  (setup c (start c open4)).map fun p => (p.rel [['a']], p.abs (c.top ++ [['a']]), p.abs [['u', 's', 'r']], p.abs [['d', 'e', 'v'], ['x']])

/-- `c111_relative`, `c111_absolute`, `c111_outside`: with a namespace. -/
example : seen sample = some (.fuse [['h', 'o', 'm', 'e'], ['p'], ['s', 'u', 'b'], ['a']], .fuse [['h', 'o', 'm', 'e'], ['p'], ['a']],
    .real [['u', 's', 'r']], .real [['d', 'e', 'v'], ['x']]) := by decide +kernel

/-- `c111_full`. -/
example : seen { sample with full := true } = some (.fuse [['h', 'o', 'm', 'e'], ['p'], ['s', 'u', 'b'], ['a']], .fuse [['h', 'o', 'm', 'e'], ['p'], ['a']],
    .fuse [['u', 's', 'r']], .real [['d', 'e', 'v'], ['x']]) := by decide +kernel

/-- `c111_outside`: without mounts. -/
example : seen { sample with namespacing := false } = some (.fuse [['h', 'o', 'm', 'e'], ['p'], ['s', 'u', 'b'], ['a']], .real [['h', 'o', 'm', 'e'], ['p'], ['a']],
    .real [['u', 's', 'r']], .real [['d', 'e', 'v'], ['x']]) := by decide +kernel

/-- `c111_need`: not run, or in a chroot. -/
example : seen { sample with namespacing := false, need := true } = none ∧
    seen { sample with namespacing := false, need := true, privileged := true } = seen { sample with full := true } := by decide +kernel

/-- `c111_unseen`. -/
example : seen { sample with namespacing := false, can := fun k => k != .chdirJob } =
    some (.real [['h', 'o', 'm', 'e'], ['p'], ['h', 'o', 'm', 'e'], ['p'], ['s', 'u', 'b'], ['a']], .real [['h', 'o', 'm', 'e'], ['p'], ['a']],
    .real [['u', 's', 'r']], .real [['d', 'e', 'v'], ['x']]) := by decide +kernel

/-- `c111_outputs`: one file for both, or two. -/
example : (setup sample (start sample open4)).map (fun p => [0, 1, 2, 3, 4, 5, 6].map p.fds) =
      some [some (.other 0), some .output, some .output, some (.other 3), none, none, none] ∧
    (setup { sample with single := false } (start sample open4)).map (fun p => [0, 1, 2, 3, 4, 5, 6].map p.fds) =
      some [some (.other 0), some .output, some .errors, some (.other 3), none, none, none] := by decide +kernel

/-- `c111_closed`. -/
example : (setup { sample with ofd := 1 } (start sample fun n => if n = 1 then none else open4 n)).map (fun p => [0, 1, 2, 3].map p.fds) =
      some [some (.other 0), none, some .output, some (.other 3)] := by decide +kernel

end Tup.Setup
