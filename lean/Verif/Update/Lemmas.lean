import Verif.Update.Spec
import Verif.Exec.Lemmas
import Verif.Graph.Props

/-! Invariants of the update. -/

namespace Tup.Update

open Tup.Exec (upd Graph S Work Cfg Running upd_apply)

variable {π : Proj}

theorem gen_iff {p : Nat} : π.gen p = true ↔ ∃ d ∈ π.nodes, π.isCmd d = true ∧ p ∈ π.outs d := by
  simp [Proj.gen]

theorem modifyOutputs_spec (nrm : Nat → Nat → Bool) (n : Nat) : ∀ (xs : List Nat) (d : D),
    let d' := xs.foldl (modifyOutput π nrm n) d
    d'.content = d.content ∧ d'.db.known = d.db.known ∧ d'.db.link = d.db.link ∧ d'.ran = d.ran ∧
    (∀ x, d'.db.modify x = true ↔ d.db.modify x = true ∨ (x ∈ xs ∧ nrm n x = true ∧ π.isCmd x = true)) ∧
    (∀ x, d'.skip x = true ↔ d.skip x = true ∧ ¬ (x ∈ xs ∧ nrm n x = true)) := by
  intro xs
  induction xs with
  | nil => intro d; simp
  | cons y ys ih =>
    intro d
    simp only [List.foldl_cons]
    obtain ⟨h1, h2, h3, h4, h5, h6⟩ := ih (modifyOutput π nrm n d y)
    simp only [h1, h2, h3, h4, h5, h6]
    unfold modifyOutput
    by_cases hy : nrm n y = true
    · simp only [if_pos hy]
      refine ⟨trivial, trivial, trivial, trivial, ?_, ?_⟩
      · intro x
        by_cases hc : π.isCmd y = true
        · simp only [if_pos hc, upd_apply, List.mem_cons]; grind
        · simp only [if_neg hc, List.mem_cons]; grind
      · intro x; simp only [upd_apply, List.mem_cons]; grind
    · simp only [if_neg hy]
      refine ⟨trivial, trivial, trivial, trivial, ?_, ?_⟩
      · intro x; simp only [List.mem_cons]; grind
      · intro x; simp only [List.mem_cons]; grind

/-- the effect of `fileWork` -/
theorem fileWork_spec (nrm : Nat → Nat → Bool) (g : Graph) (n : Nat) (d : D) :
    let d' := fileWork π nrm g n d
    d'.content = d.content ∧ d'.db.known = d.db.known ∧ d'.db.link = d.db.link ∧ d'.ran = d.ran ∧
    (∀ x, d'.db.modify x = true ↔ x ≠ n ∧ (d.db.modify x = true ∨
      (d.skip n = false ∧ x ∈ g.outs n ∧ nrm n x = true ∧ π.isCmd x = true))) ∧
    (∀ x, d'.skip x = true ↔ d.skip x = true ∧ ¬ (d.skip n = false ∧ x ∈ g.outs n ∧ nrm n x = true)) := by
  simp only [fileWork, unflag]
  by_cases hs : d.skip n = true
  · simp only [if_pos hs, upd_apply]
    refine ⟨trivial, trivial, trivial, trivial, ?_, ?_⟩ <;> intro x <;> grind
  · simp only [if_neg hs, upd_apply]
    obtain ⟨h1, h2, h3, h4, h5, h6⟩ := modifyOutputs_spec (π := π) nrm n (g.outs n) d
    refine ⟨h1, h2, h3, h4, ?_, ?_⟩
    · intro x
      have := h5 x
      simp only [modifyOutputs]
      grind
    · intro x
      have := h6 x
      simp only [modifyOutputs]
      grind

/-- the effect of the loop in `finishCmd` -/
theorem finishLoop_spec (nrm : Nat → Nat → Bool) (g : Graph) : ∀ (ps : List Nat) (d : D),
    let d' := ps.foldl (fun d p => if d.skip p then d else modifyOutputs π nrm g p d) d
    d'.content = d.content ∧ d'.db.known = d.db.known ∧ d'.db.link = d.db.link ∧ d'.ran = d.ran ∧
    (∀ x, d.db.modify x = true → d'.db.modify x = true) ∧
    (∀ x, d'.skip x = true → d.skip x = true) ∧
    (∀ p ∈ ps, d.skip p = false → ∀ x ∈ g.outs p, nrm p x = true →
      d'.skip x = false ∧ (π.isCmd x = true → d'.db.modify x = true)) ∧
    (∀ x, d'.db.modify x = true → d.db.modify x = true ∨
      (π.isCmd x = true ∧ d'.skip x = false ∧ ∃ p ∈ ps, x ∈ g.outs p ∧ nrm p x = true)) ∧
    (∀ x, d'.skip x = false → d.skip x = false ∨
      ((π.isCmd x = true → d'.db.modify x = true) ∧ ∃ p ∈ ps, x ∈ g.outs p ∧ nrm p x = true)) := by
  intro ps
  induction ps with
  | nil => intro d; simp
  | cons q qs ih =>
    intro d
    simp only [List.foldl_cons]
    by_cases hq : d.skip q = true
    · simp only [if_pos hq]
      obtain ⟨h1, h2, h3, h4, h5, h6, h7, h8, h9⟩ := ih d
      refine ⟨h1, h2, h3, h4, h5, h6, ?_, ?_, ?_⟩
      · intro p hp hs
        rcases List.mem_cons.1 hp with rfl | hp
        · rw [hq] at hs; cases hs
        · exact h7 p hp hs
      · intro x hx
        rcases h8 x hx with h | ⟨ha, hb, p, hp, hc⟩
        · exact Or.inl h
        · exact Or.inr ⟨ha, hb, p, List.mem_cons_of_mem _ hp, hc⟩
      · intro x hx
        rcases h9 x hx with h | ⟨ha, p, hp, hc⟩
        · exact Or.inl h
        · exact Or.inr ⟨ha, p, List.mem_cons_of_mem _ hp, hc⟩
    · simp only [if_neg hq]
      obtain ⟨m1, m2, m3, m4, m5, m6⟩ := modifyOutputs_spec (π := π) nrm q (g.outs q) d
      obtain ⟨h1, h2, h3, h4, h5, h6, h7, h8, h9⟩ := ih (modifyOutputs π nrm g q d)
      simp only [modifyOutputs] at *
      refine ⟨h1.trans m1, h2.trans m2, h3.trans m3, h4.trans m4, ?_, ?_, ?_, ?_, ?_⟩
      · intro x hx; exact h5 x ((m5 x).2 (Or.inl hx))
      · intro x hx; exact ((m6 x).1 (h6 x hx)).1
      · intro p hp hs x hx hn
        rcases List.mem_cons.1 hp with rfl | hp
        · constructor
          · cases he : (qs.foldl (fun d p => if d.skip p = true then d else
                List.foldl (modifyOutput π nrm p) d (g.outs p))
                (List.foldl (modifyOutput π nrm p) d (g.outs p))).skip x with
            | false => rfl
            | true => exact absurd ⟨hx, hn⟩ ((m6 x).1 (h6 x he)).2
          · intro hc; exact h5 x ((m5 x).2 (Or.inr ⟨hx, hn, hc⟩))
        · refine h7 p hp ?_ x hx hn
          cases he : (List.foldl (modifyOutput π nrm q) d (g.outs q)).skip p with
          | false => rfl
          | true => rw [((m6 p).1 he).1] at hs; cases hs
      · intro x hx
        rcases h8 x hx with h | ⟨ha, hb, p, hp, hc⟩
        · rcases (m5 x).1 h with h | ⟨ha, hb, hc⟩
          · exact Or.inl h
          · refine Or.inr ⟨hc, ?_, q, by simp, ha, hb⟩
            cases he : (qs.foldl (fun d p => if d.skip p = true then d else
                List.foldl (modifyOutput π nrm p) d (g.outs p))
                (List.foldl (modifyOutput π nrm q) d (g.outs q))).skip x with
            | false => rfl
            | true => exact absurd ⟨ha, hb⟩ ((m6 x).1 (h6 x he)).2
        · exact Or.inr ⟨ha, hb, p, List.mem_cons_of_mem _ hp, hc⟩
      · intro x hx
        rcases h9 x hx with h | ⟨ha, p, hp, hc⟩
        · by_cases hd : d.skip x = true
          · right
            have : x ∈ g.outs q ∧ nrm q x = true := by
              refine Classical.byContradiction fun hc => ?_
              rw [(m6 x).2 ⟨hd, hc⟩] at h; cases h
            exact ⟨fun hc => h5 x ((m5 x).2 (Or.inr ⟨this.1, this.2, hc⟩)), q, by simp, this⟩
          · left; simpa using hd
        · exact Or.inr ⟨ha, p, List.mem_cons_of_mem _ hp, hc⟩

/-- the effect of `finishCmd` -/
theorem finishCmd_spec (nrm : Nat → Nat → Bool) (g : Graph) (n : Nat) (d : D) :
    let d' := finishCmd π nrm g n d
    d'.content = d.content ∧ d'.db.known = d.db.known ∧ d'.db.link = d.db.link ∧ d'.ran = d.ran ∧
    (∀ x, x ≠ n → d.db.modify x = true → d'.db.modify x = true) ∧
    d'.db.modify n = false ∧
    (∀ x, d'.skip x = true → d.skip x = true) ∧
    (∀ p ∈ g.outs n, d.skip p = false → ∀ x ∈ g.outs p, nrm p x = true → x ≠ n →
      d'.skip x = false ∧ (π.isCmd x = true → d'.db.modify x = true)) ∧
    (∀ x, d'.db.modify x = true → x ≠ n ∧ (d.db.modify x = true ∨
      (π.isCmd x = true ∧ d'.skip x = false ∧ ∃ p ∈ g.outs n, x ∈ g.outs p ∧ nrm p x = true))) ∧
    (∀ x, x ≠ n → d'.skip x = false → d.skip x = false ∨
      ((π.isCmd x = true → d'.db.modify x = true) ∧ ∃ p ∈ g.outs n, x ∈ g.outs p ∧ nrm p x = true)) := by
  obtain ⟨h1, h2, h3, h4, h5, h6, h7, h8, h9⟩ := finishLoop_spec (π := π) nrm g (g.outs n) d
  simp only [finishCmd, unflag, upd_apply]
  refine ⟨h1, h2, h3, h4, ?_, ?_, h6, ?_, ?_, ?_⟩
  · intro x hx hm; rw [if_neg hx]; exact h5 x hm
  · simp
  · intro p hp hs x hx hn hne; rw [if_neg hne]; exact h7 p hp hs x hx hn
  · intro x hx
    by_cases hxn : x = n
    · rw [if_pos hxn] at hx; cases hx
    · rw [if_neg hxn] at hx; exact ⟨hxn, h8 x hx⟩
  · intro x hxn hx; rw [if_neg hxn]; exact h9 x hx

end Tup.Update
