import Verif.Top.Lemmas

/-! Property theorems for C88. -/

namespace Tup.Top

open Tup (Str)

/-- A file system for the examples: `/home/u/proj/src/lib`, with `.tup` in the project. -/
def src : Dir := ["lib".toList, "src".toList, "proj".toList, "u".toList, "home".toList]
def proj : Dir := ["proj".toList, "u".toList, "home".toList]
def exW : World := ⟨fun _ => true, fun d => d = proj, fun _ => false⟩

theorem src_ok : DirOk src := by
  intro c hc
  have : c = "lib".toList ∨ c = "src".toList ∨ c = "proj".toList ∨ c = "u".toList ∨ c = "home".toList := by simpa [src] using hc
  rcases this with rfl | rfl | rfl | rfl | rfl <;> exact ⟨by decide, by decide, by decide, by decide⟩

/-- **C88 (the project).** If a directory from the current one upwards has `.tup`, the innermost of them is the project: tup goes there, its path is what `get_tup_top` gives, and `get_sub_dir` is the path from there to the current directory, `.` if
they are the same.  The root directory is one of those only if tup is started in it. -/
theorem c88_find {w : World} {r p : Dir} (ok : DirOk (r ++ p)) (h : Project w (r ++ p) p) :
    ∃ f, find w (r ++ p) = .found f ∧ f.dir = p ∧ f.topPath = getcwd p ∧ f.subDir = (if r = [] then ".".toList else join r.reverse) ∧ f.sub = (join r.reverse).length := by
  rcases find_spec (w := w) ok with ⟨r', p', e, hp, hf⟩ | ⟨hn, _⟩
  · have := project_unique h hp
    subst this
    have := List.append_cancel_right e
    subst this
    refine ⟨_, hf, rfl, ?_, ?_, rfl⟩
    · show (getcwd (r ++ p)).take (getcwd p).length = getcwd p
      by_cases hd : p = []
      · subst hd
        have : r = [] := by simpa using (project_looked h).1.choose_spec.2 rfl
        subst this
        rfl
      · rw [show getcwd (r ++ p) = slashed (r ++ p) from if_neg (by simp [hd]), show getcwd p = slashed p from if_neg hd, slashed_append, List.take_left]
    · unfold Found.subDir foundAt
      by_cases hr : r = []
      · rw [if_pos hr, if_pos hr]
        simp
      · have hd : p ≠ [] := fun hd => hr (by
          subst hd
          simpa using (project_looked h).1.choose_spec.2 rfl)
        have hj : join r.reverse ≠ [] := by
          have okr : DirOk r := fun x hx => ok x (List.mem_append_left _ hx)
          cases hx : r.reverse with
          | nil => exact absurd (List.reverse_eq_nil_iff.mp hx) hr
          | cons x l =>
            have hm : x ∈ r := by
              rw [← List.mem_reverse, hx]
              exact List.mem_cons_self
            obtain ⟨y, t, e, _⟩ := join_head (l := l) (okr x hm)
            rw [e]
            simp
        have e1 : (getcwd (r ++ p)).drop ((getcwd p).length + 1) = join r.reverse := by
          rw [show getcwd (r ++ p) = slashed (r ++ p) from if_neg (by simp [hd]), show getcwd p = slashed p from if_neg hd, slashed_append, ← List.drop_drop, List.drop_left, slashed_join r hr]
          rfl
        dsimp only
        rw [if_neg hr, if_neg (show ¬ (getcwd p).length + 1 = (getcwd p).length by omega), e1, if_neg hr, if_neg hj]
  · obtain ⟨h1, h2⟩ := project_looked h
    rw [hn p h1] at h2
    cases h2

example : Project exW src proj ∧ find exW src = .found ⟨proj, "/home/u/proj/src/lib".toList, 12, 13, 7⟩ := by
  refine ⟨?_, by decide +kernel⟩
  refine ⟨["lib".toList, "src".toList], rfl, fun h => (by cases h), by decide, fun r1 r2 e hr => ?_⟩
  have : r2 ++ proj ≠ proj := fun h => hr (List.append_left_eq_self.mp h)
  exact decide_eq_false this

/-- **C88 (no project).** tup finds no project exactly if none of these directories has `.tup`; the search always ends. -/
theorem c88_not_found {w : World} {d : Dir} (ok : DirOk d) : find w d = .notFound ↔ ∀ p, Looked d p → w.tup p = false := by
  rcases find_spec (w := w) ok with ⟨r, p, e, hp, hf⟩ | ⟨hn, hf⟩
  · rw [hf]
    refine ⟨fun h => (by cases h), fun h => ?_⟩
    obtain ⟨h1, h2⟩ := project_looked hp
    rw [h p h1] at h2
    cases h2
  · exact ⟨fun _ => hn, fun _ => hf⟩

/-- A project in the root directory is found from there and not from the directories in it. -/
theorem c88_root : (∀ w : World, w.tup [] = true → ∃ f, find w [] = .found f ∧ f.topPath = "/".toList)
    ∧ find ⟨fun _ => true, fun d => d = [], fun _ => false⟩ ["a".toList] = .notFound := by
  refine ⟨fun w h => ?_, by decide +kernel⟩
  obtain ⟨f, h1, _, h2, _⟩ := c88_find (w := w) (r := []) (p := []) (fun c hc => by cases hc) (project_here h)
  exact ⟨f, h1, h2⟩

theorem init_here {w : World} {d : Dir} (ok : DirOk d) (h : ∀ p, Looked d p → w.tup p = false) : init w d [] = .made { w with tup := fun x => w.tup x || decide (x = d) } d true := by
  have hf := (c88_not_found ok).mpr h
  show initIn w d true false none = _
  unfold initIn
  dsimp only
  have : resolve w d ".".toList = some d := rfl
  rw [this]
  dsimp only
  rw [hf, h d (looked_self d)]
  rfl

/-- **C88 (`tup init`).** Without a directory, `tup init` makes `.tup` in the current directory if tup finds no project from there, and otherwise does nothing. -/
theorem c88_init {w : World} {d : Dir} (ok : DirOk d) :
    ((∀ p, Looked d p → w.tup p = false) → ∃ w', init w d [] = .made w' d true ∧ w'.isDir = w.isDir ∧ w'.ini = w.ini ∧ ∀ x, w'.tup x = true ↔ w.tup x = true ∨ x = d)
    ∧ ((∃ p, Project w d p) → init w d [] = .already w) := by
  refine ⟨fun h => ⟨_, init_here ok h, rfl, rfl, fun x => by simp⟩, fun ⟨p, hp⟩ => ?_⟩
  obtain ⟨r, e, _⟩ := id hp
  subst e
  obtain ⟨f, hf, _⟩ := c88_find ok hp
  show initIn w _ true false none = _
  unfold initIn
  dsimp only
  rw [hf]
  rfl

example : (∀ p, Looked ["x".toList] p → exW.tup p = false) := by
  intro p hp
  rcases looked_cons.mp hp with rfl | ⟨h, _⟩
  · decide
  · exact absurd rfl h

/-- **C88 (`tup init` with a directory).** For a relative path of names `tup init` makes the directories of the path that do not exist; then, if there is no project above the current directory, it makes `.tup` in the last one, unless that has one. -/
theorem c88_init_dir {w : World} {d : Dir} {l : List Str} (ok : DirOk d) (hl : l ≠ []) (hn : ∀ c, c ∈ l → NameOk c) (h1 : join l ≠ "--no-sync".toList) (h2 : join l ≠ "--force".toList)
    (h : ∀ p, Looked d p → w.tup p = false) (ht : w.tup (l.reverse ++ d) = false) :
    ∃ w', init w d [join l] = .made w' (l.reverse ++ d) true ∧ (∀ x, w'.tup x = true ↔ w.tup x = true ∨ x = l.reverse ++ d)
      ∧ ∀ x, w'.isDir x = true ↔ w.isDir x = true ∨ ∃ l1 l2, l = l1 ++ l2 ∧ l1 ≠ [] ∧ x = l1.reverse ++ d := by
  have ha : args [join l] = some (true, false, some (join l)) := by
    unfold args
    show (if join l = "--no-sync".toList then _ else _) = _
    rw [if_neg h1, if_neg h2]
  have hh : ∀ {x l : List Str}, x ∈ heads l → ∃ l2, l = x ++ l2 ∧ x ≠ [] := by
    intro x l
    induction l generalizing x with
    | nil => intro h; cases h
    | cons c l ih =>
      intro h
      rcases List.mem_cons.mp h with rfl | h
      · exact ⟨l, rfl, by simp⟩
      · obtain ⟨y, hy, rfl⟩ := List.mem_map.mp h
        obtain ⟨l2, e, _⟩ := ih hy
        exact ⟨l2, by rw [e]; rfl, by simp⟩
  have hr : resolve (withDirs w d l) d (join l) = some (l.reverse ++ d) := by
    obtain ⟨x, t, e, hx⟩ : ∃ x t, join l = x :: t ∧ x ≠ '/' := by
      cases l with
      | nil => exact absurd rfl hl
      | cons y l => exact join_head (hn y (by simp))
    have := split_join hl fun c hc => (hn c hc).2.1
    rw [e] at this
    unfold resolve
    rw [e]
    dsimp only
    rw [if_neg hx, this]
    exact walk_withDirs hn
  have hf : find (withDirs w d l) d = .notFound := (c88_not_found ok).mpr h
  refine ⟨{ withDirs w d l with tup := fun x => w.tup x || decide (x = l.reverse ++ d) }, ?_, fun x => by simp, fun x => ?_⟩
  · unfold init
    rw [ha]
    dsimp only
    unfold initIn
    dsimp only
    rw [mkdirtree_spec hl hn]
    dsimp only
    rw [hr]
    dsimp only
    rw [hf]
    show (if (withDirs w d l).tup _ = true then _ else _) = _
    rw [if_neg (show ¬ (withDirs w d l).tup (l.reverse ++ d) = true from fun e => by rw [show (withDirs w d l).tup (l.reverse ++ d) = w.tup (l.reverse ++ d) from rfl, ht] at e; cases e)]
    rfl
  · show (w.isDir x || decide _) = true ↔ _
    rw [Bool.or_eq_true, decide_eq_true_eq]
    constructor
    · rintro (h | ⟨y, hy, e⟩)
      · exact Or.inl h
      · obtain ⟨l2, e2, hy⟩ := hh hy
        exact Or.inr ⟨y, l2, e2, hy, e⟩
    · rintro (h | ⟨l1, l2, e, h1, h2⟩)
      · exact Or.inl h
      · exact Or.inr ⟨l1, heads_mem e h1, h2⟩

example : NameOk "a".toList ∧ join ["a".toList, "b".toList] = "a/b".toList := ⟨⟨by decide, by decide, by decide, by decide⟩, rfl⟩

/-- **C88 (`tup init` with an absolute path).** It always fails, as the first directory to be made has an empty path. -/
theorem c88_init_absolute (w : World) (d : Dir) (s : Str) : init w d ['/' :: s] = .error := by
  have ha : args ['/' :: s] = some (true, false, some ('/' :: s)) := by
    unfold args
    show (if '/' :: s = "--no-sync".toList then _ else _) = _
    rw [if_neg (fun h => by cases h), if_neg (fun h => by cases h)]
  have hm : mkdirtree w d ('/' :: s) = none := by
    unfold mkdirtree prefixes
    rw [if_pos rfl]
    rw [List.foldl_cons]
    dsimp only [mkdir]
    generalize (prefixes s).map ('/' :: ·) = l
    induction l with
    | nil => rfl
    | cons x l ih => exact ih
  unfold init
  rw [ha]
  dsimp only
  unfold initIn
  dsimp only
  rw [hm]

theorem args_flags : ∀ {l : List Str}, (∀ a, a ∈ l → a = "--no-sync".toList ∨ a = "--force".toList) → args l = some (decide ("--no-sync".toList ∉ l), decide ("--force".toList ∈ l), none)
  | [], _ => rfl
  | a :: l, h => by
    have ih := args_flags fun x hx => h x (List.mem_cons_of_mem _ hx)
    have hne : "--no-sync".toList ≠ "--force".toList := by decide
    unfold args
    rw [ih]
    dsimp only
    generalize "--no-sync".toList = n at h hne ⊢
    generalize "--force".toList = f at h hne ⊢
    rcases h a List.mem_cons_self with e | e
    · rw [if_pos e, e]
      have h1 : ¬ n ∉ n :: l := fun h => h List.mem_cons_self
      have h2 : f ∈ n :: l ↔ f ∈ l := by rw [List.mem_cons]; exact ⟨fun h => h.elim (fun e => absurd e.symm hne) id, Or.inr⟩
      rw [decide_eq_false h1, decide_eq_decide.mpr h2]
    · rw [if_neg (by rw [e]; exact Ne.symm hne), if_pos e, e]
      have h1 : f ∈ f :: l := List.mem_cons_self
      have h2 : n ∉ f :: l ↔ n ∉ l := by
        rw [List.mem_cons]
        exact ⟨fun h h2 => h (Or.inr h2), fun h h2 => h2.elim (fun e => hne e) h⟩
      rw [decide_eq_true h1, decide_eq_decide.mpr h2]

/-- **C88 (the options of `tup init`).** `--no-sync` turns off synchronisation, `--force` makes a project inside of another; but never where there is one already. -/
theorem c88_init_options {w : World} {d : Dir} {l : List Str} (ok : DirOk d) (hl : ∀ a, a ∈ l → a = "--no-sync".toList ∨ a = "--force".toList) :
    ("--force".toList ∈ l → w.tup d = false → ∃ w', init w d l = .made w' d (decide ("--no-sync".toList ∉ l)) ∧ ∀ x, w'.tup x = true ↔ w.tup x = true ∨ x = d)
    ∧ ("--force".toList ∈ l → w.tup d = true → init w d l = .error)
    ∧ ("--force".toList ∉ l → (∀ p, Looked d p → w.tup p = false) → ∃ w', init w d l = .made w' d (decide ("--no-sync".toList ∉ l)) ∧ ∀ x, w'.tup x = true ↔ w.tup x = true ∨ x = d)
    ∧ ("--force".toList ∉ l → (∃ p, Project w d p) → init w d l = .already w) := by
  have hi : init w d l = initIn w d (decide ("--no-sync".toList ∉ l)) (decide ("--force".toList ∈ l)) none := by
    unfold init
    rw [args_flags hl]
  rw [hi]
  have hr : resolve w d ".".toList = some d := rfl
  refine ⟨fun hf ht => ?_, fun hf ht => ?_, fun hf hn => ?_, fun hf hp => ?_⟩
  · rw [decide_eq_true hf]
    unfold initIn
    dsimp only
    rw [hr]
    dsimp only
    rw [ht]
    exact ⟨_, rfl, fun x => by simp⟩
  · rw [decide_eq_true hf]
    unfold initIn
    dsimp only
    rw [hr]
    dsimp only
    rw [ht]
    rfl
  · rw [decide_eq_false hf]
    have hnf := (c88_not_found ok).mpr hn
    unfold initIn
    dsimp only
    rw [hr, hnf]
    dsimp only
    have ht : w.tup d = false := hn d ⟨[], rfl, id⟩
    rw [ht]
    exact ⟨_, rfl, fun x => by simp⟩
  · rw [decide_eq_false hf]
    obtain ⟨p, hp⟩ := hp
    obtain ⟨r, e, _⟩ := id hp
    subst e
    obtain ⟨f, hf, _⟩ := c88_find ok hp
    unfold initIn
    dsimp only
    rw [hr, hf]
    rfl

/-- Case: a project made by force inside of `/p`. -/
example : ∃ w', init exW src ["--no-sync".toList, "--force".toList] = .made w' src false ∧ ∀ x, w'.tup x = true ↔ exW.tup x = true ∨ x = src :=
  (c88_init_options src_ok (l := ["--no-sync".toList, "--force".toList]) (by simp)).1 (by decide) (by decide)

/-- **C88 (two directories).** With two directories `tup init` does nothing but fail. -/
theorem c88_init_two (w : World) (d : Dir) {l1 l2 l3 : List Str} {a b : Str} (ha : a ≠ "--no-sync".toList ∧ a ≠ "--force".toList) (hb : b ≠ "--no-sync".toList ∧ b ≠ "--force".toList) :
    init w d (l1 ++ a :: l2 ++ b :: l3) = .error := by
  have keep : ∀ {l m : List Str}, args m = none → args (l ++ m) = none := by
    intro l m h
    induction l with
    | nil => exact h
    | cons c l ih =>
      show args (c :: (l ++ m)) = none
      unfold args
      rw [ih]
  have one : ∀ {l : List Str}, args (b :: l3) = none ∨ ∃ s f x, args (b :: l3) = some (s, f, some x) := by
    intro _
    unfold args
    cases args l3 with
    | none => exact Or.inl rfl
    | some v =>
      obtain ⟨s, f, x⟩ := v
      dsimp only
      rw [if_neg hb.1, if_neg hb.2]
      cases x with
      | none => exact Or.inr ⟨s, f, b, rfl⟩
      | some x => exact Or.inl rfl
  have more : ∀ {l : List Str}, args (l ++ b :: l3) = none ∨ ∃ s f x, args (l ++ b :: l3) = some (s, f, some x) := by
    intro l
    induction l with
    | nil => exact one (l := [])
    | cons c l ih =>
      show args (c :: (l ++ b :: l3)) = none ∨ _
      rcases ih with ih | ⟨s, f, x, ih⟩
      · left; unfold args; rw [ih]
      · have : args (c :: (l ++ b :: l3)) = if c = "--no-sync".toList then some (false, f, some x) else if c = "--force".toList then some (s, true, some x) else none := by
          rw [args, ih]
        by_cases h1 : c = "--no-sync".toList
        · right; exact ⟨false, f, x, by rw [List.cons_append, this, if_pos h1]⟩
        · by_cases h2 : c = "--force".toList
          · right; exact ⟨s, true, x, by rw [List.cons_append, this, if_neg h1, if_pos h2]⟩
          · left; rw [this, if_neg h1, if_neg h2]
  have last : args (a :: (l2 ++ b :: l3)) = none := by
    rcases more (l := l2) with h | ⟨s, f, x, h⟩
    · rw [args, h]
    · rw [args, h]
      dsimp only
      rw [if_neg ha.1, if_neg ha.2]
  unfold init
  rw [show l1 ++ a :: l2 ++ b :: l3 = l1 ++ (a :: (l2 ++ b :: l3)) from by simp, keep last]

example : "x".toList ≠ "--no-sync".toList ∧ "x".toList ≠ "--force".toList := by decide

/-- **C88 (`tup init` inside of another project).** Whether there is a project is looked up from the current directory, not from the directory given: from `/q`, `tup init ../p/sub` makes a project inside of the project `/p`. -/
theorem c88_init_nested : ∃ (w w' : World) (d t : Dir), init w d ["../p/sub".toList] = .made w' t true ∧ t = ["sub".toList, "p".toList] ∧ Project w t ["p".toList] := by
  refine ⟨⟨fun x => x = ["p".toList] ∨ x = ["q".toList], fun x => x = ["p".toList], fun _ => false⟩, _, ["q".toList], ["sub".toList, "p".toList], rfl, rfl, ?_⟩
  refine ⟨["sub".toList], rfl, fun h => (by cases h), by decide, fun r1 r2 e hr => ?_⟩
  have : r2 ++ ["p".toList] ≠ ["p".toList] := fun h => hr (List.append_left_eq_self.mp h)
  exact decide_eq_false this

/-- **C88 (Tupfile.ini).** Before every other command: if tup finds a project, nothing is done; otherwise, if a directory from the current one upwards has a Tupfile.ini, `.tup` is made in the topmost of these, and the command that follows finds
it as its project; otherwise nothing is done. -/
theorem c88_ini {w : World} {d : Dir} (ok : DirOk d) :
    ((∃ p, Project w d p) → processIni w d = some w)
    ∧ (∀ p, (∀ q, Looked d q → w.tup q = false) → TopIni w d p → ∃ w' f, processIni w d = some w' ∧ (∀ x, w'.tup x = true ↔ w.tup x = true ∨ x = p) ∧ find w' d = .found f ∧ f.dir = p)
    ∧ ((∀ p, Looked d p → w.tup p = false) → (∀ p, Looked d p → w.ini p = false) → processIni w d = some w ∧ find w d = .notFound) := by
  refine ⟨fun ⟨p, hp⟩ => ?_, fun p hn hi => ?_, fun hn hi => ?_⟩
  · have := (iniLoop_tup (w := w) d none).mpr ⟨p, project_looked hp⟩
    unfold processIni
    cases he : iniLoop w d none with
    | mk b t =>
      rw [he] at this
      dsimp only at this
      subst this
      cases b <;> rfl
  · have h2 : (iniLoop w d none).2 = false := by
      cases h : (iniLoop w d none).2 with
      | false => rfl
      | true =>
        obtain ⟨q, h1, h2⟩ := (iniLoop_tup d none).mp h
        rw [hn q h1] at h2
        cases h2
    have uniq : ∀ q, TopIni w d q → q = p := by
      rintro q ⟨⟨r1, e1, n1⟩, i1, t1⟩
      obtain ⟨⟨r2, e2, n2⟩, i2, t2⟩ := hi
      rw [e1] at e2
      rcases List.append_eq_append_iff.mp e2 with ⟨u, h1, h2⟩ | ⟨u, h1, h2⟩
      · apply Classical.byContradiction
        intro ne
        have : w.ini p = false := t1 p ⟨u, h2, fun hp => by
          have := n2 hp
          rw [e1] at this
          exact (List.append_eq_nil_iff.mp this).2⟩ (fun e => ne e.symm)
        rw [i2] at this
        cases this
      · apply Classical.byContradiction
        intro ne
        have : w.ini q = false := t2 q ⟨u, h2, fun hp => by
          have := n1 hp
          rw [e1, e2] at this
          exact (List.append_eq_nil_iff.mp this).2⟩ ne
        rw [i1] at this
        cases this
    rcases iniLoop_ini (w := w) d none hn with ⟨q, hq, e⟩ | ⟨h, _⟩
    · have := uniq q hq
      subst this
      obtain ⟨⟨r, er, rn⟩, _, _⟩ := id hq
      have okq : DirOk q := fun c hc => ok c (by rw [er]; exact List.mem_append_right _ hc)
      have hq2 : ∀ x, Looked q x → w.tup x = false := by
        rintro x ⟨r2, e2, n2⟩
        exact hn x ⟨r ++ r2, by rw [er, e2]; simp, fun hx => rn (n2 hx)⟩
      have hi := init_here okq hq2
      have hw : processIni w d = some { w with tup := fun x => w.tup x || decide (x = q) } := by
        unfold processIni
        rw [show iniLoop w d none = (some q, false) from by rw [← e, ← h2]]
        dsimp only
        rw [hi]
      have hp : Project { w with tup := fun x => w.tup x || decide (x = q) } d q := by
        refine ⟨r, er, rn, by simp, fun r1 r2 e hr => ?_⟩
        show (w.tup (r2 ++ q) || decide _) = false
        rw [hn (r2 ++ q) ⟨r1, by rw [er, e]; simp, fun h => absurd (List.append_eq_nil_iff.mp h).1 hr⟩, Bool.false_or]
        exact decide_eq_false fun h => hr (List.append_left_eq_self.mp h)
      subst er
      obtain ⟨f, h3, h4, _⟩ := c88_find ok hp
      exact ⟨_, f, hw, fun x => by simp, h3, h4⟩
    · have := h p hi.1
      rw [hi.2.1] at this
      cases this
  · rcases iniLoop_ini (w := w) d none hn with ⟨q, hq, _⟩ | ⟨_, e⟩
    · have := hi q hq.1
      rw [hq.2.1] at this
      cases this
    · refine ⟨?_, (c88_not_found ok).mpr hn⟩
      unfold processIni
      cases he : iniLoop w d none with
      | mk b t =>
        rw [he] at e
        dsimp only at e
        subst e
        rfl

/-- A Tupfile.ini in `/home/u/proj` and in `/home/u/proj/src`. -/
def exIni : World := ⟨fun _ => true, fun _ => false, fun d => d = proj ∨ d = "src".toList :: proj⟩

example : (processIni exIni src).map (fun w => find w src) = some (.found ⟨proj, "/home/u/proj/src/lib".toList, 12, 13, 7⟩) := by decide +kernel

end Tup.Top
