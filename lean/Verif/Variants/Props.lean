import Verif.Variants.Lemmas

/-! # C68: the variants that are built are the directories with a tup.config -/

namespace Tup.Variants

/-- After an update, in every history: the variants in use are all directories with a `tup.config` other than the top, or the top if there is none.  The files are those that the
scan has found.  A variant that is not to be used is not in the list, except for the top, which is there and switched off. -/
theorem c68_active {db : Db} {ord ord' : List Nat → List Nat} {ok : Nat → Bool} {evs : List Event} {r : Result} (hr : Reach db) (ho : ∀ l, (ord l).Perm l)
    (ho' : ∀ l, (ord' l).Perm l) (hc : Careful db (scan evs (db, load ord db)).1 evs) (hu : update ord ord' ok evs db = some r) :
    r.db.file = (scan evs (db, load ord db)).1.file ∧ (∀ d, Active r d ↔ Wanted r.db.file d) ∧ ∀ d, (d, false) ∈ r.loaded ↔ d = dot ∧ ¬ Wanted r.db.file dot := by
  have hs := scan_start (reach_inv hr) ho hc
  have hf := config_final hs ho' hu
  have hw : Wanted r.db.file dot ↔ ¬ Some (scan evs (db, load ord db)).1.file := by
    unfold Wanted Some
    rw [hf.file]
    simp
  refine ⟨hf.file, fun d => ?_, fun d => ?_⟩
  · unfold Active
    by_cases hd : d = dot
    · subst hd
      rw [hf.root, hw]
      simp
    · rw [hf.loaded d true hd]
      unfold Wanted
      rw [hf.file]
      simp [hd]
  · by_cases hd : d = dot
    · subst hd
      rw [hf.root, hw]
      simp
    · rw [hf.loaded d false hd]
      simp [hd]

/-- The same of the list that the next program reads: it is exactly that of the variants in use, and no changed file is left in the list of changed files. -/
theorem c68_saved {db : Db} {ord ord' : List Nat → List Nat} {ok : Nat → Bool} {evs : List Event} {r : Result} (hr : Reach db) (ho : ∀ l, (ord l).Perm l)
    (ho' : ∀ l, (ord' l).Perm l) (hc : Careful db (scan evs (db, load ord db)).1 evs) (hu : update ord ord' ok evs db = some r) :
    (∀ d, d ∈ r.db.var ↔ Wanted r.db.file d) ∧ r.db.flag = [] := by
  have hs := scan_start (reach_inv hr) ho hc
  have hf := config_final hs ho' hu
  refine ⟨fun d => ?_, hf.flag⟩
  unfold Wanted
  rw [hf.file]
  by_cases hd : d = dot
  · subst hd
    rw [hf.top]
    unfold Some
    simp
  · rw [hf.var d hd]
    simp [hd]

/-- If the project was built in the variants and is now built in place, the Tupfiles are parsed again. -/
theorem c68_reparse {db : Db} {ord ord' : List Nat → List Nat} {ok : Nat → Bool} {evs : List Event} {r : Result} (hr : Reach db) (ho : ∀ l, (ord l).Perm l)
    (ho' : ∀ l, (ord' l).Perm l) (hc : Careful db (scan evs (db, load ord db)).1 evs) (hu : update ord ord' ok evs db = some r)
    (hb : ∃ d ∈ db.var, d ≠ dot) (ha : Active r dot) : r.reparse = true := by
  have hs := scan_start (reach_inv hr) ho hc
  have hf := config_final hs ho' hu
  have hv := (scan_scanned (l0 := load ord db) (evs := evs) (reach_inv hr)).var
  have hno : ¬ Some (scan evs (db, load ord db)).1.file := by
    have := (hf.root true).1 ha
    simpa using this
  have hall : ∀ d, d ≠ dot → (scan evs (db, load ord db)).1.file d = false := fun d hd => by
    cases hx : (scan evs (db, load ord db)).1.file d with
    | false => rfl
    | true => exact absurd ⟨d, hd, hx⟩ hno
  rw [hf.reparse]
  obtain ⟨d, hd, hdd⟩ := hb
  refine ⟨fun ⟨e, he, _, hx⟩ => hno ⟨e, he, hx⟩, d, hdd, ?_, hall d hdd⟩
  rcases hs.kept d (hv ▸ hd) with hx | hx
  · exact hx
  · rw [hall d hdd] at hx
    cases hx.2.1

/-- They are parsed again because of the variants only if one of these is gone. -/
theorem c68_reparse_only {db : Db} {ord ord' : List Nat → List Nat} {ok : Nat → Bool} {evs : List Event} {r : Result} (hr : Reach db) (ho : ∀ l, (ord l).Perm l)
    (ho' : ∀ l, (ord' l).Perm l) (hc : Careful db (scan evs (db, load ord db)).1 evs) (hu : update ord ord' ok evs db = some r) (h : r.reparse = true) :
    ∃ d ∈ db.var, d ≠ dot ∧ r.db.file d = false := by
  have hs := scan_start (reach_inv hr) ho hc
  have hf := config_final hs ho' hu
  have hv := (scan_scanned (l0 := load ord db) (evs := evs) (reach_inv hr)).var
  obtain ⟨_, d, hd, hl, hn⟩ := hf.reparse.1 h
  exact ⟨d, hv ▸ hs.sub _ hl, hd, by rw [hf.file]; exact hn⟩

/-- The files that were built in place are deleted exactly when the project was built in place and is now built in variants. -/
theorem c68_in_tree {db : Db} {ord ord' : List Nat → List Nat} {ok : Nat → Bool} {evs : List Event} {r : Result} (hr : Reach db) (ho : ∀ l, (ord l).Perm l)
    (ho' : ∀ l, (ord' l).Perm l) (hc : Careful db (scan evs (db, load ord db)).1 evs) (hu : update ord ord' ok evs db = some r) :
    r.deleteInTree = true ↔ dot ∈ db.var ∧ ¬ Active r dot := by
  have hs := scan_start (reach_inv hr) ho hc
  have hf := config_final hs ho' hu
  have hv := (scan_scanned (l0 := load ord db) (evs := evs) (reach_inv hr)).var
  unfold Active
  rw [hf.deleteInTree, hf.root, hv]
  simp

/-- The directories of the project are duplicated for every variant that was not in use before, and only for those and for the ones whose directory was removed and made again. -/
theorem c68_duplicated {db : Db} {ord ord' : List Nat → List Nat} {ok : Nat → Bool} {evs : List Event} {r : Result} (hr : Reach db) (ho : ∀ l, (ord l).Perm l)
    (ho' : ∀ l, (ord' l).Perm l) (hc : Careful db (scan evs (db, load ord db)).1 evs) (hu : update ord ord' ok evs db = some r) :
    (∀ d, d ≠ dot → Active r d → d ∉ db.var → d ∈ r.duplicated) ∧ ∀ d ∈ r.duplicated, d ≠ dot ∧ Active r d ∧ (d ∉ db.var ∨ .mkdir d ∈ evs) := by
  have hs := scan_start (reach_inv hr) ho hc
  have hf := config_final hs ho' hu
  have hsc := scan_scanned (l0 := load ord db) (evs := evs) (reach_inv hr)
  refine ⟨fun d hd ha hn => ?_, fun d hd => ?_⟩
  · rw [hf.duplicated]
    exact ⟨hd, ((hf.loaded d true hd).1 ha).2, fun hl => hn (hsc.var ▸ hs.sub _ hl)⟩
  · obtain ⟨h1, h2, h3⟩ := (hf.duplicated d).1 hd
    refine ⟨h1, (hf.loaded d true h1).2 ⟨rfl, h2⟩, ?_⟩
    by_cases hv : d ∈ db.var
    · right
      have hl : (d, true) ∈ load ord db := by
        unfold load
        exact List.mem_map.2 ⟨d, (ho _).mem_iff.2 hv, rfl⟩
      rcases hsc.kept _ hl with hk | hk
      · exact absurd hk h3
      · exact hk.1
    · exact .inl hv

/-- What was built in a variant is deleted exactly when its tup.config is gone. -/
theorem c68_gone {db : Db} {ord ord' : List Nat → List Nat} {ok : Nat → Bool} {evs : List Event} {r : Result} (hr : Reach db) (ho : ∀ l, (ord l).Perm l)
    (ho' : ∀ l, (ord' l).Perm l) (hc : Careful db (scan evs (db, load ord db)).1 evs) (hu : update ord ord' ok evs db = some r) (d : Nat) :
    d ∈ r.gone ↔ d ∈ db.var ∧ d ≠ dot ∧ r.db.file d = false := by
  have hs := scan_start (reach_inv hr) ho hc
  have hf := config_final hs ho' hu
  have hv := (scan_scanned (l0 := load ord db) (evs := evs) (reach_inv hr)).var
  rw [hf.gone, hf.file]
  constructor
  · rintro ⟨h1, h2, _, h4⟩
    exact ⟨hv ▸ hs.sub _ h4, h1, h2⟩
  · rintro ⟨h1, h2, h3⟩
    rw [← hv] at h1
    refine ⟨h2, h3, ?_, ?_⟩
    · cases hn : (scan evs (db, load ord db)).1.nested d with
      | false => rfl
      | true => rw [hs.nested d h1 hn] at h3; cases h3
    · rcases hs.kept d h1 with hx | hx
      · exact hx
      · rw [hx.2.1] at h3; cases h3

/-- An update gets through this if the work for each changed file succeeds: the case of a variant that is in the list but not enabled, in which it would fail, does not arise.
This needs no care of the user. -/
theorem c68_succeeds {db : Db} {ord ord' : List Nat → List Nat} {ok : Nat → Bool} {evs : List Event} (hr : Reach db) (ho : ∀ l, (ord l).Perm l)
    (hk : ∀ d, ok d = true) : ∃ r, update ord ord' ok evs db = some r := by
  have hsc := scan_scanned (l0 := load ord db) (evs := evs) (reach_inv hr)
  have hload : ∀ v ∈ load ord db, v.1 ∈ db.var ∧ v.2 = true := by
    intro v hv
    unfold load at hv
    obtain ⟨e, he, rfl⟩ := List.mem_map.1 hv
    exact ⟨(ho _).mem_iff.1 he, rfl⟩
  obtain ⟨t, ht⟩ := processAll_some (ok := ok) (l := ord' (scan evs (db, load ord db)).1.flag) (fun v hv => by rw [hsc.var]; exact (hload v (hsc.sub v hv)).1)
    (done_start (db := (scan evs (db, load ord db)).1) (fun v hv => (hload v (hsc.sub v hv)).2)) (fun d _ => hk d)
  refine ⟨conclude (inUse (scan evs (db, load ord db)).1.file (scan evs (db, load ord db)).2).1
    (inUse (scan evs (db, load ord db)).1.file (scan evs (db, load ord db)).2).2 t, ?_⟩
  unfold update config
  rw [ht]

/-! ## Examples -/

/-- A new project with the directories 2 and 3, of which 3 has a `tup.config`, and 4 below 3.  The top has one as well. -/
def exDb : Db :=
  { file := fun d => decide (d = 1 ∨ d = 3), dir := fun d => decide (d ≤ 4), nested := fun d => decide (d = 4), flag := [1, 3], var := [] }

theorem ex_initial : Initial exDb := by
  refine ⟨by decide, fun d hd => ?_, fun d hd => ?_, rfl⟩
  · simp only [exDb, decide_eq_true_eq] at hd ⊢
    simp [hd]
  · simp only [exDb, decide_eq_true_eq] at hd ⊢
    omega

/-- The update after the events, if all work succeeds. -/
def exRun (evs : List Event) (db : Db) : Option Result := update id id (fun _ => true) evs db

/-- The example is a state of a history, nothing of which has been built; the events of the first update are careful, and it gives the variants 2 and 3, not the top. -/
example : Reach exDb ∧ (∀ r, exRun [.write 2] exDb = some r → Active r 2 ∧ Active r 3 ∧ ¬ Active r dot) ∧
    (exRun [.write 2] exDb).map (·.loaded) = some [(3, true), (1, false), (2, true)] := by
  refine ⟨.init ex_initial, ?_, by decide⟩
  have hc : Careful exDb (scan [.write 2] (exDb, load id exDb)).1 [.write 2] := ⟨fun d hd => by simp [exDb] at hd, fun d hd => by simp [exDb] at hd⟩
  intro r hr
  obtain ⟨h1, h2, _⟩ := c68_active (.init ex_initial) (fun l => .refl l) (fun l => .refl l) hc hr
  rw [h2, h2, h2, h1]
  refine ⟨.inl (by decide), .inl (by decide), ?_⟩
  rintro (⟨h, _⟩ | ⟨_, h⟩)
  · exact h rfl
  · exact absurd (h 2 (by decide)) (by decide)

/-- What the updates of a history leave. -/
def exRuns : List (List Event) → Db → Option Db
  | [], db => some db
  | evs :: l, db =>
    match exRun evs db with
    | none => none
    | some r => exRuns l r.db

/-- Both variants are removed, one with its directory: the project is built in place, and the Tupfiles are parsed again. -/
example : ((exRuns [[.write 2]] exDb).bind (exRun [.unlink 2, .rmdir 3])).map (fun r => (r.loaded, r.reparse, r.gone, r.deleteInTree)) =
    some ([(1, true)], true, [2, 3], false) := by decide

/-- A project that is built in place, and then in a variant: what was built in place is deleted, and the directories are duplicated. -/
example : ((exRuns [[.unlink 3]] exDb).bind (exRun [.write 2])).map (fun r => (r.loaded, r.reparse, r.duplicated, r.deleteInTree)) =
    some ([(2, true), (1, false)], false, [2], true) := by decide

/-! ## What happens without care -/

/-- A variant that is not directly in the top is removed.  The variants in use are right after this update, but the next one, with no change at all, has the removed directory
among the variants. -/
theorem c68_nested : ((exRuns [[.write 4]] exDb).bind (exRun [.unlink 4])).map (·.loaded) = some [(1, false), (3, true)] ∧
    ((exRuns [[.write 4], [.unlink 4]] exDb).bind (exRun [])).map (fun r => (r.loaded, r.db.file 4)) = some ([(1, false), (3, true), (4, true)], false) := by decide

/-- The tables after the only variant, which is directly in the top, is removed with its directory, and this is seen by a scan without an update. -/
def exGhost : Option Db := (exRuns [[]] exDb).map fun db => (scan [.rmdir 3] (db, load id db)).1

/-- Its directory is made again, without a `tup.config`: the project is built in place from now on, but the Tupfiles are not parsed again.  Later, with another `tup.config` in the
directory, both the variant and the top are in use. -/
theorem c68_again : (exGhost.bind (exRun [.mkdir 3])).map (fun r => (r.loaded, r.reparse, r.db.var)) = some ([(1, true)], false, [1, 3]) ∧
    ((exGhost.bind (exRuns [[.mkdir 3]])).bind (exRun [.write 3])).map (·.loaded) = some [(1, true), (3, true)] := by decide

/-- The removed variant that is still in the list also stands in the way when the last variant is removed: then the project is not built in any directory that exists as a
variant, and not in place. -/
theorem c68_phantom : ((exRuns [[.write 4], [.unlink 4]] exDb).bind (exRun [.unlink 3])).map (fun r => (r.loaded, r.reparse, r.db.file 4)) =
    some ([(1, false), (4, true)], true, false) := by decide

end Tup.Variants
