import Verif.PreInit.Model

/-! Lemmas for C113. -/

namespace Tup.PreInit

/-- All that the forked process can do. -/
theorem child_cases (w : World) (a : Attempt) (ns : Bool) :
    (child w a ns = (.exits, .two) ∧ ns = true ∧ w.noNs = false) ∨ (child w a ns = (.exits, .eof) ∧ ns = true) ∨ child w a ns = (.returns, .eof) ∨
    (∃ m, child w a ns = (.loop m, .one) ∧ (m = true → ns = true ∧ w.noNs = false) ∧ (w.full = true → m = true)) := by
  obtain ⟨nn, p, f, att⟩ := w
  obtain ⟨_, _, _, u, d, ui, gi, t, _, _, _, _⟩ := a
  unfold child
  cases ns <;> cases nn <;> cases p <;> cases f <;> cases u <;> cases d <;> cases ui <;> cases gi <;> cases t <;> simp

/-- An attempt without namespaces. -/
theorem preInit_false (w : World) (n : Nat) :
    (preInit w n false).children.length ≤ 1 ∧
    ((preInit w n false).ok = true → (preInit w n false).children = [.loop false] ∧ w.full = false) ∧
    ((preInit w n false).ok = false → ∀ m, .loop m ∈ (preInit w n false).children →
      (w.attempt n).close = false ∨ (w.attempt n).read = false ∨ (w.attempt n).thread = false) := by
  rw [preInit]
  rcases child_cases w (w.attempt n) false with ⟨_, h, _⟩ | ⟨_, h⟩ | h | ⟨m, h, h1, h2⟩
  · cases h
  · cases h
  · rw [h]
    simp only [Bool.false_eq_true, and_false, dite_false]
    split
    · simp
    · split <;> simp
  · have hm : m = false := by
      cases m
      · rfl
      · exact absurd (h1 rfl).1 (by simp)
    subst hm
    rw [h]
    simp only [Bool.false_eq_true, and_false, dite_false]
    split
    · simp
    · cases h3 : (w.attempt n).close <;> cases h4 : (w.attempt n).read <;> cases h5 : (w.attempt n).thread <;> simp
      cases hf : w.full
      · rfl
      · exact absurd (h2 hf) (by simp)

/-- The first attempt. -/
theorem preInit_true (w : World) (n : Nat) :
    ((preInit w n true).ok = false ∧ (preInit w n true).children = []) ∨
    (∃ c, (preInit w n true).ok = false ∧ (preInit w n true).children = [c] ∧
      (∀ m, c = .loop m → (w.attempt n).close = false ∨ (w.attempt n).read = false ∨ (w.attempt n).thread = false)) ∨
    (w.noNs = false ∧ (preInit w n true).ok = (preInit w (n + 1) false).ok ∧ (preInit w n true).children = .exits :: (preInit w (n + 1) false).children) ∨
    (∃ m, (preInit w n true).ok = true ∧ (preInit w n true).children = [.loop m] ∧ (w.noNs = true → m = false) ∧ (w.full = true → m = true)) := by
  rw [preInit]
  dsimp only
  split
  · exact Or.inl ⟨rfl, rfl⟩
  · rcases child_cases w (w.attempt n) true with ⟨h, _, h1⟩ | ⟨h, _⟩ | h | ⟨m, h, h1, h2⟩
    · rw [h]
      simp only [and_self, dite_true]
      split
      · exact Or.inr (Or.inl ⟨_, rfl, rfl, by intro m hm; cases hm⟩)
      · split
        · exact Or.inr (Or.inl ⟨_, rfl, rfl, by intro m hm; cases hm⟩)
        · exact Or.inr (Or.inr (Or.inl ⟨h1, rfl, rfl⟩))
    · rw [h]
      refine Or.inr (Or.inl ⟨.exits, ?_, ?_, by intro m hm; cases hm⟩)
      · split <;> simp
      · split <;> simp
    · rw [h]
      refine Or.inr (Or.inl ⟨.returns, ?_, ?_, by intro m hm; cases hm⟩)
      · split <;> simp
      · split <;> simp
    · rw [h]
      cases h3 : (w.attempt n).close <;> cases h4 : (w.attempt n).read <;> cases h5 : (w.attempt n).thread <;> simp
      all_goals first
        | (intro hw
           cases m
           · rfl
           · rw [(h1 rfl).2] at hw; cases hw)
        | skip
      all_goals first
        | exact ⟨fun hw => by cases m; rfl; (rw [(h1 rfl).2] at hw; cases hw), h2⟩
        | skip

/-- All calls succeeded that an attempt needs in any case, but for waiting for the process before. -/
def Needed (a : Attempt) : Prop :=
  a.pgid = true ∧ a.sockets = true ∧ a.fork = true ∧ a.told = true ∧ a.close = true ∧ a.read = true ∧ a.thread = true

theorem needed_of_one {w : World} {n : Nat} {ns : Bool} (h : (child w (w.attempt n) ns).2 = .one) (h1 : ¬(!(w.attempt n).pgid || !(w.attempt n).sockets || !(w.attempt n).fork) = true)
    (h2 : ¬(!(w.attempt n).close || !(w.attempt n).read) = true) (h3 : ¬(!(w.attempt n).thread) = true) : Needed (w.attempt n) := by
  have ht : (w.attempt n).told = true := by
    cases ht : (w.attempt n).told
    · exfalso
      revert h
      unfold child
      dsimp only
      rw [ht]
      repeat' split
      all_goals simp_all
    · rfl
  simp at h1 h2 h3
  exact ⟨h1.1.1, h1.1.2, h1.2, ht, h2.1, h2.2, h3⟩

end Tup.PreInit
