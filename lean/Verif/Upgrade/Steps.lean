import Verif.Upgrade.Lemmas

namespace Tup.Upgrade

/-- The statements that lead from version `v` to the next change what the database says by `f`; `none` is an error. -/
def Step (v : Nat) (f : Content → Option Content) : Prop := ∀ rows, Sound v rows →
  match f (content v rows) with
  | none => execAll (mk v rows) (upgrade (v + 1)) = none
  | some c => ∃ rows', execAll (mk v rows) (upgrade (v + 1)) = some (mk (v + 1) rows') ∧ Sound (v + 1) rows' ∧
      content (v + 1) rows' = c ∧ rows' .config = rows .config

/-- The tables that a step leaves alone, and the ones that are not there. -/
macro "others" h:ident : tactic => `(tactic| all_goals (intro s e; first
  | exact ($h).fits .link s e | exact ($h).fits .var s e | exact ($h).fits .config s e | exact ($h).fits .createList s e
  | exact ($h).fits .modifyList s e | exact ($h).fits .deleteList s e | exact ($h).fits .node s e | exact ($h).fits .normalLink s e
  | exact ($h).fits .stickyLink s e | exact ($h).fits .groupLink s e | exact ($h).fits .configList s e | exact ($h).fits .variantList s e
  | exact ($h).fits .transientList s e | exact ($h).fits .ghostList s e | (exfalso; cases e; done)))

theorem step3 : Step 3 some := by
  intro rows h
  refine ⟨setRows rows .node ((rows .node).map (setCol .sym (.int (-1)))), ?_, ?_, ?_, rfl⟩
  · exact congrArg some (Db.ext' (fun t => by cases t <;> rfl) (fun i => by cases i <;> rfl))
  · constructor
    · intro t
      cases t
      case node =>
        intro s e
        cases e
        obtain ⟨h1, h2⟩ := h.fits .node _ rfl
        constructor
        · simp only [setRows, if_pos, List.mem_map]
          rintro r ⟨r0, hr, rfl⟩
          exact h1 r0 hr
        · simp only [setRows, if_pos]
          rw [List.pairwise_map]
          exact h2
      others h
    · exact fun _ => h.links (by omega)
    · intro _
      simp only [setRows, if_pos]
      rw [List.pairwise_map]
      exact h.names (by omega)
    · intro _ _
      simp [setRows, setCol]
    · intro hv; omega
  · simp [content, setRows, nodeOf, setCol]

theorem step4 : Step 4 some := by
  intro rows h
  refine ⟨rows, ?_, ?_, ?_, rfl⟩
  · exact congrArg some (Db.ext' (fun t => by cases t <;> rfl) (fun i => by cases i <;> rfl))
  · constructor
    · intro t
      cases t
      
      others h
    · exact fun hv => h.links (by omega)
    · exact fun hv => h.names (by omega)
    · exact fun _ _ => h.sym (by omega) (by omega)
    · intro hv; omega
  · simp [content, nodeOf, setRows]

theorem step5 : Step 5 some := by
  intro rows h
  refine ⟨rows, ?_, ?_, ?_, rfl⟩
  · exact congrArg some (Db.ext' (fun t => by cases t <;> rfl) (fun i => by cases i <;> rfl))
  · constructor
    · intro t
      cases t
      
      others h
    · exact fun hv => h.links (by omega)
    · exact fun hv => h.names (by omega)
    · exact fun _ _ => h.sym (by omega) (by omega)
    · intro hv; omega
  · simp [content, nodeOf, setRows]

theorem step6 : Step 6 some := by
  intro rows h
  refine ⟨setRows rows .ghostList [], ?_, ?_, ?_, rfl⟩
  · exact congrArg some (Db.ext' (fun t => by cases t <;> rfl) (fun i => by cases i <;> rfl))
  · constructor
    · intro t
      cases t
      case ghostList => (intro s e; cases e; exact ⟨by simp [setRows], by simp [setRows]⟩)
      others h
    · exact fun hv => h.links (by omega)
    · exact fun hv => h.names (by omega)
    · exact fun _ _ => h.sym (by omega) (by omega)
    · intro hv; omega
  · simp [content, nodeOf, setRows]

theorem step7 : Step 7 some := by
  intro rows h
  refine ⟨rows, ?_, ?_, ?_, rfl⟩
  · exact congrArg some (Db.ext' (fun t => by cases t <;> rfl) (fun i => by cases i <;> rfl))
  · constructor
    · intro t
      cases t
      
      others h
    · exact fun hv => h.links (by omega)
    · exact fun hv => h.names (by omega)
    · exact fun _ _ => h.sym (by omega) (by omega)
    · intro hv; omega
  · simp [content, nodeOf, setRows]

theorem step8 : Step 8 some := by
  intro rows h
  refine ⟨setRows rows .node ((rows .node).map (setCol .mtime (.int (-1)))), ?_, ?_, ?_, rfl⟩
  · exact congrArg some (Db.ext' (fun t => by cases t <;> rfl) (fun i => by cases i <;> rfl))
  · constructor
    · intro t
      cases t
      case node =>
        intro s e
        cases e
        obtain ⟨h1, h2⟩ := h.fits .node _ rfl
        constructor
        · simp only [setRows, if_pos, List.mem_map]
          rintro r ⟨r0, hr, rfl⟩
          exact h1 r0 hr
        · simp only [setRows, if_pos]
          rw [List.pairwise_map]
          exact h2
      others h
    · exact fun _ => h.links (by omega)
    · intro _
      simp only [setRows, if_pos]
      rw [List.pairwise_map]
      exact h.names (by omega)
    · intro _ _
      simp only [setRows, if_pos, List.mem_map]
      rintro r ⟨r0, hr, rfl⟩
      exact h.sym (by omega) (by omega) r0 hr
    · intro _
      simp [setRows, setCol]
  · simp [content, setRows, nodeOf, setCol]

theorem step10 : Step 10 some := by
  intro rows h
  refine ⟨rows, ?_, ?_, ?_, rfl⟩
  · exact congrArg some (Db.ext' (fun t => by cases t <;> rfl) (fun i => by cases i <;> rfl))
  · constructor
    · intro t
      cases t
      
      others h
    · exact fun hv => by omega
    · exact fun hv => h.names (by omega)
    · exact fun _ _ => h.sym (by omega) (by omega)
    · exact fun _ => h.mtime (by omega)
  · simp [content, nodeOf, setRows]

theorem step17 : Step 17 some := by
  intro rows h
  refine ⟨setRows rows .transientList [], ?_, ?_, ?_, rfl⟩
  · exact congrArg some (Db.ext' (fun t => by cases t <;> rfl) (fun i => by cases i <;> rfl))
  · constructor
    · intro t
      cases t
      case transientList => (intro s e; cases e; exact ⟨by simp [setRows], by simp [setRows]⟩)
      others h
    · exact fun hv => by omega
    · exact fun hv => by omega
    · intro _ _; omega
    · exact fun _ => h.mtime (by omega)
  · simp [content, nodeOf, setRows]

theorem step18 : Step 18 some := by
  intro rows h
  refine ⟨setRows rows .node ((rows .node).map (setCol .mtimeNs (.int 0))), ?_, ?_, ?_, rfl⟩
  · exact congrArg some (Db.ext' (fun t => by cases t <;> rfl) (fun i => by cases i <;> rfl))
  · constructor
    · intro t
      cases t
      case node =>
        intro s e
        cases e
        obtain ⟨h1, h2⟩ := h.fits .node _ rfl
        constructor
        · simp only [setRows, if_pos, List.mem_map]
          rintro r ⟨r0, hr, rfl⟩
          exact h1 r0 hr
        · simp only [setRows, if_pos]
          rw [List.pairwise_map]
          exact h2
      others h
    · intro _; omega
    · intro _; omega
    · intro _ _; omega
    · intro _
      simp only [setRows, if_pos, List.mem_map]
      rintro r ⟨r0, hr, rfl⟩
      exact h.mtime (by omega) r0 hr
  · simp [content, setRows, nodeOf, setCol]

end Tup.Upgrade
