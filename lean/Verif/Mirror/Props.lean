import Verif.Mirror.Steps

/-! C73: after an update every build directory repeats the tree of the sources. -/

namespace Tup.Mirror

theorem hist_inv {s : St} (h : Hist s) : Inv s := by
  induction h with
  | init => exact inv_init
  | mkdir _ hf he ih => exact inv_mkdir ih hf he
  | rmdir _ he ih => exact inv_rmdir ih he
  | touch _ he ih => exact inv_touch ih he
  | newVariant _ he ih => exact inv_newVariant ih he
  | dropVariant _ hf he ih => exact inv_dropVariant ih hf he
  | update _ ih => exact (update_inv ih).1

/-- After an update, in every build directory the directories that stand for a directory of the sources are those at the paths of the directories of the sources, one for each, and none is
left whose source is gone. -/
theorem c73_mirror {s : St} (h : Hist s) : Mirrors (update s) ∧ ∀ t ∈ (update s).tops, ∀ r ∈ (update s).rows, t <+: r.path → r.src ≠ .gone := by
  obtain ⟨hi, hg, hf⟩ := update_inv (hist_inv h)
  refine ⟨?_, hg⟩
  intro t ht p i
  constructor
  · rintro ⟨r, hr, e1, e2⟩
    obtain ⟨q, hq, f1, f2, f3⟩ := hi.mir t ht r hr p i e1 e2
    exact ⟨q, hq, f2, f1, f3⟩
  · rintro ⟨q, hq, rfl, rfl, hs⟩
    rcases hi.all t ht q hq hs with h1 | h1
    · exact absurd h1 (hf q hq hs)
    · exact h1

/-- At any time, what stands for a directory of the sources is at the path of that directory, and there is at most one in each build directory. -/
theorem c73_place {s : St} (h : Hist s) {t : Path} (ht : t ∈ s.tops) {r : Row} (hr : r ∈ s.rows) {p : Path} {i : Nat} (hp : r.path = t ++ p) (hi : r.src = .of i) :
    (∃ q ∈ s.rows, q.id = i ∧ q.path = p ∧ Source s p) ∧ ∀ r' ∈ s.rows, t <+: r'.path → r'.src = .of i → r' = r := by
  have inv := hist_inv h
  obtain ⟨q, hq, e1, e2, e3⟩ := inv.mir t ht r hr p i hp hi
  refine ⟨⟨q, hq, e1, e2, e3⟩, ?_⟩
  rintro r' hr' ⟨p', hp'⟩ hi'
  obtain ⟨q', hq', f1, f2, _⟩ := inv.mir t ht r' hr' p' i hp'.symm hi'
  have := inv.idI q' hq' q hq (f1.trans e1.symm)
  refine inv.pathI r' hr' r hr ?_
  rw [← hp', hp, ← f2, ← e2, this]

/-! ## Cases -/

def then? (s : St) : List (St → Option St) → Option St
  | [] => some s
  | f :: l => (f s).bind (then? · l)

def nm (c : Char) : Str := [c]

/-- A build directory `b`, directories `x`, `x/a` and `y`, and an update. -/
def exBase : St :=
  ⟨[⟨1, [], .none⟩, ⟨2, [nm 'b'], .of 1⟩, ⟨3, [nm 'x'], .none⟩, ⟨4, [nm 'y'], .none⟩, ⟨5, [nm 'x', nm 'a'], .none⟩,
    ⟨6, [nm 'b', nm 'x'], .of 3⟩, ⟨7, [nm 'b', nm 'y'], .of 4⟩, ⟨8, [nm 'b', nm 'x', nm 'a'], .of 5⟩], [], [(1, 2), (3, 6), (4, 7), (5, 8)], [[nm 'b']]⟩

theorem exBase_eq : (then? init [(mkdir · [nm 'b'] 2 true), (newVariant · [nm 'b']), (mkdir · [nm 'x'] 3 true), (mkdir · [nm 'y'] 4 true), (mkdir · [nm 'x', nm 'a'] 5 true),
    (fun s => some (update s))]) = some exBase := by decide +kernel

instance (s : St) (p : Path) : Decidable (Source s p) := by unfold Source; infer_instance

instance (s : St) (p : Path) : Decidable (Free s p) := by unfold Free; infer_instance

theorem exBase_hist : Hist exBase := by
  have h1 : Hist (⟨[⟨1, [], .none⟩, ⟨2, [nm 'b'], .none⟩], [2], [], []⟩ : St) := .mkdir (p := [nm 'b']) (id := 2) .init (by decide) (by decide)
  have h2 : Hist (⟨[⟨1, [], .none⟩, ⟨2, [nm 'b'], .of 1⟩], [2, 2], [], [[nm 'b']]⟩ : St) := .newVariant (n := nm 'b') h1 (by decide +kernel)
  have h3 : Hist (⟨[⟨1, [], .none⟩, ⟨2, [nm 'b'], .of 1⟩, ⟨3, [nm 'x'], .none⟩], [3, 2, 2], [], [[nm 'b']]⟩ : St) := .mkdir (p := [nm 'x']) (id := 3) h2 (by decide) (by decide)
  have h4 : Hist (⟨[⟨1, [], .none⟩, ⟨2, [nm 'b'], .of 1⟩, ⟨3, [nm 'x'], .none⟩, ⟨4, [nm 'y'], .none⟩], [4, 3, 2, 2], [], [[nm 'b']]⟩ : St) :=
    .mkdir (p := [nm 'y']) (id := 4) h3 (by decide) (by decide)
  have h5 : Hist (⟨[⟨1, [], .none⟩, ⟨2, [nm 'b'], .of 1⟩, ⟨3, [nm 'x'], .none⟩, ⟨4, [nm 'y'], .none⟩, ⟨5, [nm 'x', nm 'a'], .none⟩], [5, 4, 3, 2, 2], [], [[nm 'b']]⟩ : St) :=
    .mkdir (p := [nm 'x', nm 'a']) (id := 5) h4 (by decide) (by decide)
  have h6 := Hist.update h5
  have : update (⟨[⟨1, [], .none⟩, ⟨2, [nm 'b'], .of 1⟩, ⟨3, [nm 'x'], .none⟩, ⟨4, [nm 'y'], .none⟩, ⟨5, [nm 'x', nm 'a'], .none⟩], [5, 4, 3, 2, 2], [], [[nm 'b']]⟩ : St) = exBase := by
    decide +kernel
  rw [← this]
  exact h6

def exGone : St := (rmdir exBase [nm 'x', nm 'a']).get (by decide +kernel)

def exGone2 : St := (rmdir exGone [nm 'b', nm 'y']).get (by decide +kernel)

/-- `x/a` is removed, and the user removes `b/y` too: after the update `b/x/a` is gone and `b/y` is back. -/
example : Hist exGone2 ∧ Mirrors (update exGone2) ∧ (update exGone2).rows.map (fun r => (r.path, r.src)) =
    [([], .none), ([nm 'b'], .of 1), ([nm 'x'], .none), ([nm 'y'], .none), ([nm 'b', nm 'x'], .of 3), ([nm 'b', nm 'y'], .of 4)] := by
  have h2 : Hist exGone := .rmdir exBase_hist (Option.some_get _).symm
  have h4 : Hist exGone2 := .rmdir h2 (Option.some_get _).symm
  exact ⟨h4, (c73_mirror h4).1, by decide +kernel⟩

def exC : St := (mkdir exBase [nm 'c'] 9 true).get (by decide +kernel)

def exC2 : St := (newVariant exC [nm 'c']).get (by decide +kernel)

def exC3 : St := (dropVariant exC2 [nm 'b'] false).get (by decide +kernel)

/-- A second build directory, and the first one given up. -/
example : Hist exC3 ∧ Mirrors (update exC3) ∧ (update exC3).tops = [[nm 'c']] ∧ (update exC3).rows.map (fun r => (r.path, r.src)) =
    [([], .none), ([nm 'x'], .none), ([nm 'y'], .none), ([nm 'x', nm 'a'], .none), ([nm 'c'], .of 1), ([nm 'c', nm 'x'], .of 3), ([nm 'c', nm 'y'], .of 4), ([nm 'c', nm 'x', nm 'a'], .of 5)] := by
  have g1 : Hist exC := .mkdir exBase_hist (by decide) (Option.some_get _).symm
  have g2 : Hist exC2 := .newVariant g1 (Option.some_get _).symm
  have g3 : Hist exC3 := .dropVariant g2 (fun h => absurd h (by decide)) (Option.some_get _).symm
  exact ⟨g3, (c73_mirror g3).1, by decide +kernel, by decide +kernel⟩

/-- The hypotheses of `c73_place`. -/
example : (∃ q ∈ exBase.rows, q.id = 5 ∧ q.path = [nm 'x', nm 'a'] ∧ Source exBase [nm 'x', nm 'a']) ∧
    ∀ r' ∈ exBase.rows, [nm 'b'] <+: r'.path → r'.src = .of 5 → r' = ⟨8, [nm 'b', nm 'x', nm 'a'], .of 5⟩ :=
  c73_place exBase_hist (t := [nm 'b']) (by decide) (r := ⟨8, [nm 'b', nm 'x', nm 'a'], .of 5⟩) (by decide) rfl rfl

/-! ## Where it fails: histories that `Hist` leaves out -/

/-- A directory of the sources that is removed and made again (with another id) before the update: what stands for it is marked for removal when its turn comes, before the directory that has
taken the place, and is deleted.  After the update nothing stands for `x/a`, and nothing is flagged. -/
theorem c73_made_again : ∃ s, then? exBase [(rmdir · [nm 'x', nm 'a']), (mkdir · [nm 'x', nm 'a'] 20 true)] = some s ∧ ¬ Mirrors (update s) ∧ (update s).flags = [] := by
  refine ⟨_, (Option.some_get (x := then? exBase [(rmdir · [nm 'x', nm 'a']), (mkdir · [nm 'x', nm 'a'] 20 true)]) (by decide +kernel)).symm, ?_, by decide +kernel⟩
  intro h
  have := (h [nm 'b'] (by decide +kernel) [nm 'x', nm 'a'] 20).2 ⟨⟨20, [nm 'x', nm 'a'], .none⟩, by decide +kernel, rfl, rfl, by decide +kernel⟩
  exact absurd this (by decide +kernel)

/-- The monitor saw that `x/a` was moved to `y/a`: the node keeps its id, so that `b/x/a` still has a source with its name.  After the update both `b/x/a` and `b/y/a` stand for it. -/
theorem c73_moved : ∃ s, move exBase [nm 'x', nm 'a'] [nm 'y', nm 'a'] = some s ∧ ¬ Mirrors (update s) ∧ (update s).flags = [] := by
  refine ⟨_, (Option.some_get (x := move exBase [nm 'x', nm 'a'] [nm 'y', nm 'a']) (by decide +kernel)).symm, ?_, by decide +kernel⟩
  intro h
  have := (h [nm 'b'] (by decide +kernel) [nm 'x', nm 'a'] 5).1 ⟨⟨8, [nm 'b', nm 'x', nm 'a'], .of 5⟩, by decide +kernel, rfl, rfl⟩
  exact absurd this (by decide +kernel)

/-- A directory that was known as a ghost is not flagged when it comes up: nothing is made for it. -/
theorem c73_ghost : ∃ s, mkdir exBase [nm 'z'] 20 false = some s ∧ ¬ Mirrors (update s) ∧ (update s).flags = [] := by
  refine ⟨_, (Option.some_get (x := mkdir exBase [nm 'z'] 20 false) (by decide +kernel)).symm, ?_, by decide +kernel⟩
  intro h
  have := (h [nm 'b'] (by decide +kernel) [nm 'z'] 20).2 ⟨⟨20, [nm 'z'], .none⟩, by decide +kernel, rfl, rfl, by decide +kernel⟩
  exact absurd this (by decide +kernel)

/-- A build directory that is not right below the top, `x/y`: what stands for `y` in the other build directory is deleted, since only the last name is looked up there. -/
theorem c73_nested : ∃ s, then? exBase [(mkdir · [nm 'x', nm 'y'] 20 true), (newVariant · [nm 'x', nm 'y'])] = some s ∧ ¬ Mirrors (update s) ∧ (update s).flags = [] := by
  refine ⟨_, (Option.some_get (x := then? exBase [(mkdir · [nm 'x', nm 'y'] 20 true), (newVariant · [nm 'x', nm 'y'])]) (by decide +kernel)).symm, ?_, by decide +kernel⟩
  intro h
  have := (h [nm 'b'] (by decide +kernel) [nm 'y'] 4).2 ⟨⟨4, [nm 'y'], .none⟩, by decide +kernel, rfl, rfl, by decide +kernel⟩
  exact absurd this (by decide +kernel)

end Tup.Mirror
