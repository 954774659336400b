import Verif.Watch.Lemmas

/-! C104: which directory the monitor takes an event to be about, and which watches it keeps. -/

namespace Tup.Watch

variable {bal : Tree → Tree}

/-- C104: in whatever order watches are set, end and are taken away, an event of a watch is taken to be about a directory only if the watch
was set for that directory last and has not come to its end since; and it is if the directory has not been removed either. -/
theorem c104_event (h : List Op) (c : Cache) (hr : run bal empty h = some c) (w d : Nat) :
    (target c w = .dir d → last h w none = some d) ∧ (sure h w none = some d → target c w = .dir d) :=
  ⟨fun ht => run_last (fun e he => by cases he) hr (target_dir.1 ht), fun hs => target_dir.2 (run_sure (fun e he => by cases he) hr hs)⟩

/-- C104: if no directory gets a second watch, and nothing is watched or removed while the end of a watch waits to be handled, then the
monitor's table is what it should be: no pointer is used that was not set, an event of a watch is about its directory, the watch of a
directory that is removed is taken away, events of a watch that has come to its end are skipped until that is handled, and it is unknown
then. However the trees are balanced. -/
theorem c104_tame (hb : ∀ t, (bal t).inorder = t.inorder) (h : List Op) (ht : Tame h) :
    ∃ c, run bal empty h = some c ∧ ∀ w, target c w = wanted h w := by
  obtain ⟨c, e1, _, e3⟩ := run_tame hb h ht h.length (Nat.le_refl _)
  rw [List.take_length] at e1 e3
  exact ⟨c, e1, e3⟩

/-- C104: and when events were lost every watch can be taken away, in whatever order, after which no watch is known. -/
theorem c104_clear (hb : ∀ t, (bal t).inorder = t.inorder) (h : List Op) (ht : Tame h) (l : List Nat) (hn : l.Nodup)
    (hl : ∀ w, w ∈ l ↔ wanted h w ≠ .unknown) : ∃ c c', run bal empty h = some c ∧ clear bal l c = some c' ∧ ∀ w, target c' w = .unknown := by
  obtain ⟨c, e1, e2, e3⟩ := run_tame hb h ht h.length (Nat.le_refl _)
  rw [List.take_length] at e1 e3
  obtain ⟨c', f1, f2⟩ := clear_good hb l c e2 hn (fun w hw => by rw [e3]; exact (hl w).1 hw)
  refine ⟨c, c', e1, f1, fun w => ?_⟩
  rw [f2]
  split
  · rfl
  · rename_i hw
    rw [e3]
    exact Classical.byContradiction fun h' => hw ((hl w).2 h')

/-! ### What goes wrong otherwise -/

/-- A balance: three nodes in a row to the right are turned around the second, as in a red-black tree. -/
def turn : Tree → Tree
  | .node .leaf a (.node .leaf b (.node .leaf c .leaf)) => .node (.node .leaf a .leaf) b (.node .leaf c .leaf)
  | t => t

theorem turn_inorder (t : Tree) : (turn t).inorder = t.inorder := by
  unfold turn
  split <;> simp [Tree.inorder]

/-- Three directories are watched, the second is deleted (say by the updater), and before that is handled the first is moved away. -/
def stale : List Op := [.watch 1 1, .watch 2 2, .watch 3 3, .queued 2, .gone 1]

/-- C104: the condition is needed: the monitor goes on to take events of watch 1 for those of directory 1, which it was told is gone: the
directory is not found, since its neighbour in the tree has got another number. (Directory 3 would be.) -/
theorem c104_stale : ∃ c, run turn empty stale = some c ∧ target c 1 = .dir 1 ∧ wanted stale 1 = .unknown := by
  refine ⟨_, rfl, ?_, ?_⟩ <;> decide +kernel

/-- C104: and if a directory gets a second watch, then what is done when this one ends is undefined. -/
theorem c104_twice (bal : Tree → Tree) (hb : ∀ t, (bal t).inorder = t.inorder) : run bal empty [.watch 1 7, .watch 2 7, .handled 2] = none := by
  have h1 : ∀ t : Tree, t.inorder = [1] → t = .node .leaf 1 .leaf := fun t ht => by
    cases t with
    | leaf => cases ht
    | node l w r =>
      cases l with
      | leaf => cases r with
        | leaf => cases ht; rfl
        | node a b c => simp [Tree.inorder] at ht
      | node a b c =>
        have := congrArg List.length ht
        simp [Tree.inorder] at this
        omega
  have e1 : step bal empty (.watch 1 7) = some { entries := [(1, some 7)], tree := .node .leaf 1 .leaf } := by
    show some ({ entries := [(1, some 7)], tree := bal (.node .leaf 1 .leaf) } : Cache) = _
    rw [h1 (bal (.node .leaf 1 .leaf)) (by rw [hb]; rfl)]
  unfold run
  rw [e1]
  rfl

/-! ### Cases that meet the hypotheses -/

/-- Three directories are watched; 2 is removed; watch 3 ends and that is handled; its number is given to another directory. -/
def tidy : List Op := [.watch 1 10, .watch 2 20, .watch 3 30, .gone 20, .queued 3, .handled 3, .watch 3 40]

theorem tidy_tame : Tame tidy := by
  have split_at : ∀ (P : List Op → Op → Prop), (∀ n, (hn : n < tidy.length) → P (tidy.take n) tidy[n]) → ∀ h1 o h2, tidy = h1 ++ o :: h2 → P h1 o := by
    intro P hP h1 o h2 he
    have hlen : h1.length < tidy.length := by rw [he]; simp
    have := hP h1.length hlen
    have e1 : tidy.take h1.length = h1 := by rw [he]; simp
    have e2 : tidy[h1.length] = o := by simp only [he]; simp
    rwa [e1, e2] at this
  have key : ∀ n, (hn : n < tidy.length) → ∀ v, (∀ w d, tidy[n] = .watch w d → wanted (tidy.take n) v ≠ .skipped ∧ (v ≠ w → wanted (tidy.take n) v ≠ .dir d)) ∧
      (∀ d, tidy[n] = .gone d → wanted (tidy.take n) v ≠ .skipped) := by
    intro n hn v
    have hn : n < 7 := hn
    have hc : n = 0 ∨ n = 1 ∨ n = 2 ∨ n = 3 ∨ n = 4 ∨ n = 5 ∨ n = 6 := by omega
    have hv : v = 1 ∨ v = 2 ∨ v = 3 ∨ (1 ≠ v ∧ 2 ≠ v ∧ 3 ≠ v) := by omega
    rcases hc with rfl | rfl | rfl | rfl | rfl | rfl | rfl <;>
      refine ⟨fun w d h => ?_, fun d h => ?_⟩ <;> cases h <;> rcases hv with rfl | rfl | rfl | ⟨a, b, c⟩ <;>
      first
      | decide
      | simp [wanted, want, tidy, a, b, c]
  exact ⟨fun h1 w d h2 he v => (split_at (fun h o => ∀ w d, o = .watch w d → wanted h v ≠ .skipped ∧ (v ≠ w → wanted h v ≠ .dir d))
      (fun n hn => (key n hn v).1) h1 _ h2 he) w d rfl,
    fun h1 d h2 he v => (split_at (fun h o => ∀ d, o = .gone d → wanted h v ≠ .skipped) (fun n hn => (key n hn v).2) h1 _ h2 he) d rfl⟩

example : ∃ c, run turn empty tidy = some c ∧ target c 1 = .dir 10 ∧ target c 2 = .unknown ∧ target c 3 = .dir 40 := by
  obtain ⟨c, e1, e2⟩ := c104_tame turn_inorder tidy tidy_tame
  exact ⟨c, e1, by rw [e2]; rfl, by rw [e2]; rfl, by rw [e2]; rfl⟩

example : ∃ c c', run turn empty tidy = some c ∧ clear turn [3, 1] c = some c' ∧ ∀ w, target c' w = .unknown := by
  refine c104_clear turn_inorder tidy tidy_tame [3, 1] (by decide) (fun w => ?_)
  have hw : w = 1 ∨ w = 2 ∨ w = 3 ∨ (1 ≠ w ∧ 2 ≠ w ∧ 3 ≠ w) := by omega
  rcases hw with rfl | rfl | rfl | ⟨a, b, c⟩
  · decide
  · decide
  · decide
  · simp [wanted, want, tidy, a, b, c]; omega

/-- The history of `c104_stale` meets `c104_event`: the watch was set for directory 1, which is no longer sure. -/
example : last stale 1 none = some 1 ∧ sure stale 1 none = none ∧ sure stale 3 none = some 3 := ⟨rfl, rfl, rfl⟩

end Tup.Watch
