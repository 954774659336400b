import Verif.Setup.Model

/-! Walking along paths, and what the parts of `setup` do. -/

namespace Tup.Setup

theorem add_nil (w : Place) : w.add [] = w := by cases w <;> simp [Place.add]

theorem add_add (w : Place) (a b : Path) : (w.add a).add b = w.add (a ++ b) := by cases w <;> simp [Place.add]

/-- Where there is no mount point on the way. -/
theorem walk_plain (ms : Mounts) (q : Path) : ∀ w : Place, (∀ a, a ≠ [] → a <+: q → ms.lookup (w.add a) = none) → walk ms w q = w.add q := by
  induction q with
  | nil => intro w _; rw [walk, add_nil]
  | cons n q ih =>
    intro w h
    have h1 := h [n] (by simp) ⟨q, rfl⟩
    rw [walk, h1]
    simp only
    rw [ih, add_add]
    · rfl
    · intro a ha hp
      rw [add_add]
      exact h _ (by simp) (by obtain ⟨t, rfl⟩ := hp; exact ⟨t, rfl⟩)

theorem walk_append (ms : Mounts) (a b : Path) : ∀ w, walk ms w (a ++ b) = walk ms (walk ms w a) b := by
  induction a with
  | nil => intro w; rfl
  | cons n a ih => intro w; rw [List.cons_append, walk, walk, ih]

/-- The first mount point on the way is at its end. -/
theorem walk_mount (ms : Mounts) (q : Path) (t : Place) : ∀ w : Place, q ≠ [] → (∀ a, a ≠ [] → a <+: q → a ≠ q → ms.lookup (w.add a) = none) →
    ms.lookup (w.add q) = some t → walk ms w q = t := by
  induction q with
  | nil => intro w h; exact absurd rfl h
  | cons n q ih =>
    intro w _ h1 h2
    by_cases hq : q = []
    · subst hq
      rw [walk, h2]
      rfl
    · rw [walk, h1 [n] (by simp) ⟨q, rfl⟩ (by intro e; injection e with _ e; exact hq e.symm)]
      simp only
      apply ih _ hq
      · intro a ha hp hne
        rw [add_add]
        exact h1 _ (by simp) (by obtain ⟨t, rfl⟩ := hp; exact ⟨t, rfl⟩) (by intro e; injection e with _ e; exact hne e)
      · rw [add_add]
        exact h2

theorem real_inj {a b : Path} : Place.real a = .real b ↔ a = b := by simp

theorem call_some {c : Cfg} {k : Call} {f : Proc → Proc} {p p' : Proc} (h : call c k f p = some p') : c.can k = true ∧ p' = f p := by
  unfold call at h
  split at h
  · rename_i hc; cases h; exact ⟨hc, rfl⟩
  · cases h

/-- The mounts at the beginning. -/
def ms0 (c : Cfg) : Mounts := [(.real (c.top ++ c.job), .fuse [])]

theorem lookup_two (a x : Place) (b : Place) (ms : Mounts) : List.lookup x ((a, b) :: ms) = if x = a then some b else ms.lookup x := by
  rw [List.lookup_cons]
  by_cases h : x = a
  · simp [h]
  · have : (x == a) = false := by simpa using h
    simp [h, this]

theorem job_len (c : Cfg) : c.job.length = 3 := rfl

theorem not_top_job {c : Cfg} {p : Path} (h : p.length ≤ c.top.length) : ¬ p = c.top ++ c.job := by
  intro e
  have := congrArg List.length e
  rw [List.length_append, job_len] at this
  omega

/-- From the project into the job's file system. -/
theorem into_job {c : Cfg} (ms : Mounts) (hf : ∀ t ∈ ms, ∃ q, t.1 = .fuse q) : walk (ms ++ ms0 c) (.real c.top) c.job = .fuse [] := by
  have hl : ∀ p, (ms ++ ms0 c).lookup (.real p) = (ms0 c).lookup (.real p) := by
    intro p
    induction ms with
    | nil => rfl
    | cons t ms ih =>
      obtain ⟨q, hq⟩ := hf t (by simp)
      obtain ⟨t1, t2⟩ := t
      simp only at hq
      subst hq
      rw [List.cons_append, lookup_two, if_neg (by simp)]
      exact ih (fun t ht => hf t (List.mem_cons_of_mem _ ht))
  apply walk_mount _ _ _ _ (by simp [Cfg.job])
  · intro a _ hp hne
    rw [Place.add, hl, ms0, lookup_two, if_neg]
    · rfl
    · intro e
      rw [real_inj] at e
      exact hne (List.append_cancel_left e)
  · rw [Place.add, hl, ms0, lookup_two, if_pos rfl]

theorem into_job0 {c : Cfg} : walk (ms0 c) (.real c.top) c.job = .fuse [] := into_job [] (by simp)

theorem view_spec {c : Cfg} {fds : Nat → Option Out} {p p' : Proc} (hp : p = start c fds) (h : view c p = some p') :
    p'.fds = fds ∧ (c.need = true → c.namespacing = true ∨ c.privileged = true) ∧
    ((c.doChroot = true ∧ p'.mounts = (.fuse proc, .real proc) :: (.fuse dev, .real dev) :: ms0 c ∧ p'.root = .fuse [] ∧ p'.cwd = .fuse []) ∨
     (c.doChroot = false ∧ c.namespacing = true ∧ p'.mounts = (.real c.top, .fuse c.top) :: ms0 c ∧ p'.root = .real [] ∧ p'.cwd = .real []) ∨
     (c.doChroot = false ∧ c.namespacing = false ∧ p'.mounts = ms0 c ∧ p'.root = .real [] ∧ p'.cwd = if c.can .chdirJob then .fuse [] else .real c.top)) := by
  unfold view at h
  have hns : ownMounts c p = some p ∨ ownMounts c p = none := by
    unfold ownMounts
    split
    · unfold call
      by_cases h1 : c.can .unshare = true <;> by_cases h2 : c.can .makePrivate = true <;> simp [h1, h2]
    · exact Or.inl rfl
  rcases hns with e | e
  case inr => rw [e] at h; cases h
  rw [e] at h
  simp only [Option.bind_eq_bind, Option.bind_some] at h
  by_cases hneed : (c.need && !c.namespacing && !c.privileged) = true
  · rw [if_pos hneed] at h; cases h
  rw [if_neg hneed] at h
  have hn : c.need = true → c.namespacing = true ∨ c.privileged = true := by
    intro h
    cases h1 : c.namespacing <;> cases h2 : c.privileged <;> simp [h, h1, h2] at hneed ⊢
  by_cases hch : c.doChroot = true
  · rw [if_pos hch] at h
    simp only [Option.bind_eq_some_iff] at h
    obtain ⟨p1, h1, p2, h2, p3, h3, h4⟩ := h
    obtain ⟨-, rfl⟩ := call_some h1
    obtain ⟨-, rfl⟩ := call_some h2
    obtain ⟨-, rfl⟩ := call_some h3
    obtain ⟨-, rfl⟩ := call_some h4
    subst hp
    have d1 : walk (ms0 c) (.real c.top) (c.job ++ dev) = .fuse dev := by
      rw [walk_append, into_job0, walk_plain]
      · rfl
      · intro a _ _
        rw [Place.add, ms0, lookup_two, if_neg (by simp)]; rfl
    have d2 : walk (ms0 c) (.real []) dev = .real dev := by
      rw [walk_plain]
      · rfl
      · intro a _ hp
        rw [Place.add, ms0, lookup_two, if_neg]
        · rfl
        · intro e
          rw [real_inj] at e
          have h1 := congrArg List.length e
          have h2 := hp.length_le
          simp only [List.length_append, job_len, List.length_nil] at h1
          simp only [dev, List.length_cons, List.length_nil] at h2
          omega
    have d3 : walk ((.fuse dev, .real dev) :: ms0 c) (.real c.top) (c.job ++ proc) = .fuse proc := by
      rw [walk_append, show ((.fuse dev, .real dev) :: ms0 c) = [(.fuse dev, .real dev)] ++ ms0 c from rfl, into_job _ (by simp), walk_plain]
      · rfl
      · intro a ha hp
        have : a = proc := by
          have h2 := hp.length_le
          cases a with
          | nil => exact absurd rfl ha
          | cons x a =>
            obtain ⟨t, ht⟩ := hp
            simp [proc] at ht h2 ⊢
            exact ⟨ht.1, ht.2.1⟩
        subst this
        rw [Place.add, List.singleton_append, lookup_two, if_neg (by decide), ms0, lookup_two, if_neg (by simp)]; rfl
    have d4 : walk ((.fuse dev, .real dev) :: ms0 c) (.real []) proc = .real proc := by
      rw [walk_plain]
      · rfl
      · intro a _ hp
        rw [Place.add, lookup_two, if_neg (by simp), ms0, lookup_two, if_neg]
        · rfl
        · intro e
          rw [real_inj] at e
          have h1 := congrArg List.length e
          have h2 := hp.length_le
          simp only [List.length_append, job_len, List.length_nil] at h1
          simp only [proc, List.length_cons, List.length_nil] at h2
          omega
    have m1 : (start c fds).rel (c.job ++ dev) = .fuse dev := d1
    have m2 : (start c fds).abs dev = .real dev := d2
    refine ⟨rfl, hn, Or.inl ⟨hch, ?_, ?_, ?_⟩⟩
    · show (walk (((start c fds).rel (c.job ++ dev), (start c fds).abs dev) :: ms0 c) (.real c.top) (c.job ++ proc), walk (((start c fds).rel (c.job ++ dev), (start c fds).abs dev) :: ms0 c) (.real []) proc) :: ((start c fds).rel (c.job ++ dev), (start c fds).abs dev) :: ms0 c = _
      rw [m1, m2, d3, d4]
    all_goals
      show walk ((walk (((start c fds).rel (c.job ++ dev), (start c fds).abs dev) :: ms0 c) (.real c.top) (c.job ++ proc), walk (((start c fds).rel (c.job ++ dev), (start c fds).abs dev) :: ms0 c) (.real []) proc) :: ((start c fds).rel (c.job ++ dev), (start c fds).abs dev) :: ms0 c) (.real c.top) c.job = .fuse []
      rw [m1, m2, d3, d4]
      exact into_job [(.fuse proc, .real proc), (.fuse dev, .real dev)] (by simp)
  · rw [if_neg hch] at h
    have hch' : c.doChroot = false := by simpa using hch
    by_cases hnsp : c.namespacing = true
    · rw [if_pos hnsp] at h
      simp only [Option.bind_eq_some_iff] at h
      obtain ⟨p1, h1, h4⟩ := h
      obtain ⟨-, rfl⟩ := call_some h1
      obtain ⟨-, rfl⟩ := call_some h4
      subst hp
      have t1 : walk (ms0 c) (.real []) c.top = .real c.top := by
        rw [walk_plain]
        · rfl
        · intro a _ hp
          rw [Place.add, ms0, lookup_two, if_neg]
          · rfl
          · rw [real_inj]
            exact not_top_job (by simpa using hp.length_le)
      have t2 : walk (ms0 c) (.real c.top) (c.job ++ c.top) = .fuse c.top := by
        rw [walk_append, into_job0, walk_plain]
        · rfl
        · intro a _ _
          rw [Place.add, ms0, lookup_two, if_neg (by simp)]; rfl
      refine ⟨rfl, hn, Or.inr (Or.inl ⟨hch', hnsp, ?_, rfl, rfl⟩)⟩
      show (walk (ms0 c) (.real []) c.top, walk (ms0 c) (.real c.top) (c.job ++ c.top)) :: ms0 c = _
      rw [t1, t2]
    · rw [if_neg hnsp] at h
      subst hp
      refine ⟨?_, hn, Or.inr (Or.inr ⟨hch', by simpa using hnsp, ?_⟩)⟩
      · split at h <;> cases h <;> rfl
      · split at h
        · rename_i hc
          cases h
          exact ⟨rfl, rfl, by rw [if_pos hc]; exact into_job [] (by simp)⟩
        · rename_i hc
          cases h
          exact ⟨rfl, rfl, by rw [if_neg hc]; rfl⟩

theorem outputs_view {c : Cfg} {p p' : Proc} (h : outputs c p = some p') : p'.mounts = p.mounts ∧ p'.root = p.root ∧ p'.cwd = p.cwd := by
  unfold outputs at h
  split at h
  · cases h; exact ⟨rfl, rfl, rfl⟩
  simp only [Option.bind_eq_bind, Option.bind_eq_some_iff] at h
  obtain ⟨p1, h1, p2, h2, p3, h3, p4, h4, p5, h5, p6, h6, h7⟩ := h
  obtain ⟨-, rfl⟩ := call_some h1
  obtain ⟨-, rfl⟩ := call_some h2
  obtain ⟨-, rfl⟩ := call_some h4
  obtain ⟨-, rfl⟩ := call_some h5
  obtain ⟨-, rfl⟩ := call_some h6
  unfold errorFile at h3
  by_cases hs : c.single = true
  · rw [if_pos hs] at h3 h7
    cases h3
    cases h7
    exact ⟨rfl, rfl, rfl⟩
  · rw [if_neg hs] at h3 h7
    simp only [Option.bind_eq_some_iff] at h3
    obtain ⟨p7, h8, h9⟩ := h3
    obtain ⟨-, rfl⟩ := call_some h8
    obtain ⟨-, rfl⟩ := call_some h9
    obtain ⟨-, rfl⟩ := call_some h7
    exact ⟨rfl, rfl, rfl⟩

/-- What is set up when it succeeds. -/
theorem setup_spec {c : Cfg} {fds : Nat → Option Out} {p' : Proc} (h : setup c (start c fds) = some p') :
    ∃ p1 p2, outputs c (start c fds) = some p1 ∧ view c (start c p1.fds) = some p2 ∧ p' = { p2 with cwd := p2.rel c.dir } := by
  unfold setup at h
  simp only [Option.bind_eq_bind, Option.bind_eq_some_iff] at h
  obtain ⟨p1, h1, p2, h2, p3, h3, h4⟩ := h
  obtain ⟨-, rfl⟩ := call_some h3
  obtain ⟨-, rfl⟩ := call_some h4
  obtain ⟨a, b, d⟩ := outputs_view h1
  have : p1 = start c p1.fds := by
    cases p1
    simp only [start] at a b d ⊢
    rw [a, b, d]
  exact ⟨p1, _, h1, this ▸ h2, rfl⟩

end Tup.Setup
