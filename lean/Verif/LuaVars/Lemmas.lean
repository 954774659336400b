import Verif.LuaVars.Spec

/-! Lemmas for C86. -/

namespace Tup.LuaVars

open Tup (Str)

variable {α : Type}

/-- A Tupfile is being parsed, with the table at `i` for its variables. -/
structure At (s : St α) (i : Nat) (own : Vars α) : Prop where
  top : s.top = some i
  last : s.tupvars.getLast? = some i
  frame : s.frames[i]? = some own

/-- What is common. -/
def shared (s : St α) : Shared α := ⟨s.globals, s.environ⟩

theorem topGet_at {s : St α} {i : Nat} {own : Vars α} (h : At s i own) (k : Str) : topGet s k = some (own k) := by
  unfold topGet
  rw [h.top]
  dsimp only
  rw [h.frame]
  rfl

theorem topSet_at {s : St α} {i : Nat} {own : Vars α} (h : At s i own) (k : Str) (v : Option α) : topSet s k v = some { s with frames := s.frames.set i (upd own k v) } := by
  unfold topSet
  rw [h.top]
  dsimp only
  rw [h.frame]
  rfl

theorem at_set {s : St α} {i : Nat} {own : Vars α} (h : At s i own) (f : Vars α) : At { s with frames := s.frames.set i f } i f :=
  ⟨h.top, h.last, List.getElem?_set_self (List.getElem?_eq_some_iff.mp h.frame).1⟩

/-- The state behind a script: the tables of others are as they were. -/
structure After (s s' : St α) (i : Nat) (g : Shared α) (own : Vars α) : Prop where
  shared : LuaVars.shared s' = g
  tupvars : s'.tupvars = s.tupvars
  top : s'.top = s.top
  len : s.frames.length ≤ s'.frames.length
  others : ∀ j, j ≠ i → j < s.frames.length → s'.frames[j]? = s.frames[j]?
  frame : s'.frames[i]? = some own

theorem run_spec (env : α) (p : Script α) : ∀ (s : St α) (i : Nat) (own : Vars α), At s i own →
    ∃ s', run env p s = some (s', reads env p (shared s) own) ∧ After s s' i (leaves p (shared s)) (keeps p (shared s) own) := by
  induction p with
  | done => exact fun s i own h => ⟨s, rfl, rfl, rfl, rfl, Nat.le_refl _, fun _ _ _ => rfl, h.frame⟩
  | set k v r ih =>
    intro s i own h
    by_cases e : s.environ k ≠ none
    · obtain ⟨s', hr, a⟩ := ih { s with environ := upd s.environ k v } i own ⟨h.top, h.last, h.frame⟩
      refine ⟨s', ?_, ?_⟩
      · unfold run write reads
        rw [if_pos e, if_pos (show (shared s).environ k ≠ none from e)]
        exact hr
      · unfold leaves keeps
        rw [if_pos (show (shared s).environ k ≠ none from e), if_pos (show (shared s).environ k ≠ none from e)]
        exact ⟨a.shared, a.tupvars, a.top, a.len, a.others, a.frame⟩
    · obtain ⟨s', hr, a⟩ := ih { s with frames := s.frames.set i (upd own k v) } i (upd own k v) (at_set h _)
      refine ⟨s', ?_, ?_⟩
      · unfold run write reads
        rw [if_neg e, topSet_at h, if_neg (show ¬ (shared s).environ k ≠ none from e)]
        exact hr
      · unfold leaves keeps
        rw [if_neg (show ¬ (shared s).environ k ≠ none from e), if_neg (show ¬ (shared s).environ k ≠ none from e)]
        refine ⟨a.shared, a.tupvars, a.top, by simpa using a.len, fun j hj hl => ?_, a.frame⟩
        rw [a.others j hj (by simpa using hl)]
        exact List.getElem?_set_ne (Ne.symm hj)
  | get k r ih =>
    intro s i own h
    obtain ⟨s', hr, a⟩ := ih s i own h
    refine ⟨s', ?_, a⟩
    have : read env s k = some (if (shared s).environ k ≠ none then (shared s).environ k else if k = "_G".toList then some env else if own k ≠ none then own k else (shared s).globals k) := by
      unfold read
      rw [topGet_at h]
      show (if s.environ k ≠ none then _ else _) = some (if s.environ k ≠ none then s.environ k else if k = "_G".toList then some env else if own k ≠ none then own k else s.globals k)
      by_cases e : s.environ k ≠ none
      · rw [if_pos e, if_pos e]
      · rw [if_neg e, if_neg e]
        by_cases e2 : k = "_G".toList
        · rw [if_pos e2, if_pos e2]
        · rw [if_neg e2, if_neg e2]
          cases own k <;> rfl
    unfold run
    rw [this, hr]
    rfl
  | rawset k v r ih =>
    intro s i own h
    obtain ⟨s', hr, a⟩ := ih { s with environ := upd s.environ k v } i own ⟨h.top, h.last, h.frame⟩
    exact ⟨s', hr, a.shared, a.tupvars, a.top, a.len, a.others, a.frame⟩
  | setVar k v r ih =>
    intro s i own h
    obtain ⟨s', hr, a⟩ := ih { s with frames := s.frames.set i (upd own k v) } i (upd own k v) (at_set h _)
    refine ⟨s', ?_, a.shared, a.tupvars, a.top, by simpa using a.len, fun j hj hl => ?_, a.frame⟩
    · unfold run
      rw [topSet_at h]
      exact hr
    · rw [a.others j hj (by simpa using hl)]
      exact List.getElem?_set_ne (Ne.symm hj)
  | getVar k r ih =>
    intro s i own h
    obtain ⟨s', hr, a⟩ := ih s i own h
    refine ⟨s', ?_, a⟩
    unfold run
    rw [topGet_at h, hr]
    rfl
  | import_ k w t r ih =>
    intro s i own h
    have h1 : At { s with frames := s.frames.set i (upd own k w), globals := upd s.globals k t } i (upd own k w) := ⟨h.top, h.last, (at_set h (upd own k w)).frame⟩
    obtain ⟨s', hr, a⟩ := ih _ i (upd own k w) h1
    refine ⟨s', ?_, a.shared, a.tupvars, a.top, by simpa using a.len, fun j hj hl => ?_, a.frame⟩
    · unfold run
      rw [topSet_at h]
      exact hr
    · rw [a.others j hj (by simpa using hl)]
      exact List.getElem?_set_ne (Ne.symm hj)
  | ext v r ih =>
    intro s i own h
    obtain ⟨s', hr, a⟩ := ih { s with globals := upd s.globals "match".toList v } i own ⟨h.top, h.last, h.frame⟩
    exact ⟨s', hr, a.shared, a.tupvars, a.top, a.len, a.others, a.frame⟩
  | other q r ihq ih =>
    intro s i own h
    have hp : At (push s) s.frames.length (fun _ => none) := ⟨rfl, by simp [push], by simp [push]⟩
    obtain ⟨s1, hq, a1⟩ := ihq (push s) _ _ hp
    have il := (List.getElem?_eq_some_iff.mp h.frame).1
    have tv : (pop s1).tupvars = s.tupvars := by
      show s1.tupvars.dropLast = _
      rw [a1.tupvars]
      simp [push]
    have keep : ∀ j, j < s.frames.length → (pop s1).frames[j]? = s.frames[j]? := by
      intro j hj
      show s1.frames[j]? = _
      rw [a1.others j (by omega) (by simp [push]; omega)]
      exact List.getElem?_append_left hj
    have h1 : At (pop s1) i own := by
      refine ⟨?_, ?_, ?_⟩
      · show s1.tupvars.dropLast.getLast? = _
        have : s1.tupvars.dropLast = s.tupvars := tv
        rw [this]; exact h.last
      · rw [tv]; exact h.last
      · rw [keep i il]; exact h.frame
    obtain ⟨s', hr, a⟩ := ih (pop s1) i own h1
    have sh : shared (pop s1) = leaves q (shared s) := a1.shared
    rw [sh] at hr a
    refine ⟨s', ?_, a.shared, a.tupvars.trans tv, a.top.trans (h1.top.trans h.top.symm), ?_, fun j hj hl => ?_, a.frame⟩
    · unfold run
      rw [hq]
      exact hr
    · have := a.len
      have h2 : (push s).frames.length ≤ s1.frames.length := a1.len
      have h3 : (push s).frames.length = s.frames.length + 1 := by simp [push]
      have h4 : (pop s1).frames.length = s1.frames.length := rfl
      omega
    · have h2 : (push s).frames.length ≤ s1.frames.length := a1.len
      have h3 : (push s).frames.length = s.frames.length + 1 := by simp [push]
      rw [a.others j hj (show j < s1.frames.length by omega), keep j hl]

theorem leaves_clean {p : Script α} (h : Clean p) : ∀ g : Shared α, (∀ k, g.environ k = none) → leaves p g = g := by
  induction p with
  | done => exact fun _ _ => rfl
  | set k v r ih =>
    intro g hg
    unfold leaves
    rw [if_neg (by rw [hg k]; simp)]
    exact ih h g hg
  | get k r ih => exact fun g hg => ih h g hg
  | rawset => exact h.elim
  | setVar k v r ih => exact fun g hg => ih h g hg
  | getVar k r ih => exact fun g hg => ih h g hg
  | import_ => exact h.elim
  | ext => exact h.elim
  | other q r ihq ih =>
    intro g hg
    unfold leaves
    rw [ihq h.1 g hg, ih h.2 g hg]

theorem reads_alone (env : α) {p : Script α} (h : OthersClean p) (hr : ∀ k, NoRaw k p) : ∀ (g : Shared α) (own : Vars α), (∀ k, g.environ k = none) →
    reads env p g own = reads env (alone p) g own := by
  induction p with
  | done => exact fun _ _ _ => rfl
  | set k v r ih =>
    intro g own hg
    unfold alone reads
    rw [if_neg (by rw [hg k]; simp), if_neg (by rw [hg k]; simp)]
    exact ih h (fun k => hr k) g _ hg
  | get k r ih =>
    intro g own hg
    unfold alone reads
    rw [ih h (fun k => hr k) g own hg]
  | rawset k v r ih => exact fun _ _ _ => absurd rfl (hr k).1
  | setVar k v r ih => exact fun g own hg => ih h (fun k => hr k) g _ hg
  | getVar k r ih =>
    intro g own hg
    unfold alone reads
    rw [ih h (fun k => hr k) g own hg]
  | import_ k w t r ih => exact fun g own hg => ih h (fun k => hr k) _ _ hg
  | ext v r ih => exact fun g own hg => ih h (fun k => hr k) _ _ hg
  | other q r ihq ih =>
    intro g own hg
    show reads env r (leaves q g) own = reads env (alone r) g own
    rw [leaves_clean h.1 g hg]
    exact ih h.2 (fun k => (hr k).2) g own hg

theorem upd_ne {f : Vars α} {k x : Str} {v : Option α} (h : k ≠ x) : upd f k v x = f x := if_neg fun e => h e.symm

theorem upd_self {f : Vars α} {k : Str} {v : Option α} : upd f k v k = v := if_pos rfl

theorem leaves_noRaw {k : Str} {p : Script α} (h : NoRaw k p) : ∀ g : Shared α, g.environ k = none → (leaves p g).environ k = none := by
  induction p with
  | done => exact fun _ hg => hg
  | set k' v r ih =>
    intro g hg
    unfold leaves
    refine ih h _ ?_
    split
    · rename_i e
      have : k' ≠ k := by rintro rfl; exact e hg
      show upd g.environ k' v k = none
      rw [upd_ne this]; exact hg
    · exact hg
  | get k' r ih => exact fun g hg => ih h g hg
  | rawset k' v r ih =>
    intro g hg
    refine ih h.2 _ ?_
    show upd g.environ k' v k = none
    rw [upd_ne h.1]; exact hg
  | setVar k' v r ih => exact fun g hg => ih h g hg
  | getVar k' r ih => exact fun g hg => ih h g hg
  | import_ k' w t r ih => exact fun g hg => ih h _ hg
  | ext v r ih => exact fun g hg => ih h _ hg
  | other q r ihq ih => exact fun g hg => ih h.2 _ (ihq h.1 g hg)

theorem keeps_leaves {k : Str} {p : Script α} (h : Leaves k p) : ∀ (g : Shared α) (own : Vars α), keeps p g own k = own k := by
  induction p with
  | done => exact fun _ _ => rfl
  | set k' v r ih =>
    intro g own
    unfold keeps
    split
    · exact ih h.2 _ _
    · rw [ih h.2, upd_ne h.1]
  | get k' r ih => exact fun g own => ih h g own
  | rawset k' v r ih => exact fun g own => ih h _ own
  | setVar k' v r ih =>
    intro g own
    unfold keeps
    rw [ih h.2, upd_ne h.1]
  | getVar k' r ih => exact fun g own => ih h g own
  | import_ k' w t r ih =>
    intro g own
    unfold keeps
    rw [ih h.2, upd_ne h.1]
  | ext v r ih => exact fun g own => ih h _ own
  | other q r ihq ih => exact fun g own => ih h _ own

theorem reads_andThen (env : α) (p q : Script α) : ∀ (g : Shared α) (own : Vars α),
    reads env (andThen p q) g own = reads env p g own ++ reads env q (leaves p g) (keeps p g own) := by
  induction p with
  | done => exact fun _ _ => rfl
  | set k v r ih =>
    intro g own
    simp only [andThen, reads, leaves, keeps]
    by_cases e : g.environ k ≠ none
    · rw [if_pos e, if_pos e, if_pos e, if_pos e]; exact ih _ _
    · rw [if_neg e, if_neg e, if_neg e, if_neg e]; exact ih _ _
  | get k r ih => intro g own; simp only [andThen, reads, ih]; rfl
  | rawset k v r ih => exact fun g own => ih _ own
  | setVar k v r ih => exact fun g own => ih g _
  | getVar k r ih => intro g own; simp only [andThen, reads, ih]; rfl
  | import_ k w t r ih => exact fun g own => ih _ _
  | ext v r ih => exact fun g own => ih _ own
  | other i r _ ih => exact fun g own => ih _ own

/-- What a list of Tupfiles leaves. -/
def leavesAll : List (Script α) → Shared α → Shared α
  | [], g => g
  | p :: l, g => leavesAll l (leaves p g)

theorem runAll_spec (env : α) : ∀ (l : List (Script α)) (s : St α), s.tupvars = [] →
    ∃ s', runAll env l s = some (s', readsAll env l (shared s)) ∧ s'.tupvars = [] ∧ shared s' = leavesAll l (shared s)
  | [], s, h => ⟨s, rfl, h, rfl⟩
  | p :: l, s, h => by
    have hp : At (push s) s.frames.length (fun _ => none) := ⟨rfl, by simp [push], by simp [push]⟩
    obtain ⟨s1, hr, a⟩ := run_spec env p (push s) _ _ hp
    have tv : (pop s1).tupvars = [] := by
      show s1.tupvars.dropLast = []
      rw [a.tupvars]
      simp [push, h]
    have sh : shared (pop s1) = leaves p (shared s) := a.shared
    obtain ⟨s2, h2, h3, h4⟩ := runAll_spec env l (pop s1) tv
    rw [sh] at h2 h4
    refine ⟨s2, ?_, h3, h4⟩
    unfold runAll
    rw [hr]
    dsimp only
    rw [h2]
    rfl

theorem readsAll_append (env : α) : ∀ (l m : List (Script α)) (g : Shared α), readsAll env (l ++ m) g = readsAll env l g ++ readsAll env m (leavesAll l g)
  | [], _, _ => rfl
  | p :: l, m, g => by
    show _ :: readsAll env (l ++ m) _ = _ :: _
    rw [readsAll_append env l m]
    rfl

theorem leavesAll_noRaw {k : Str} : ∀ (l : List (Script α)) (g : Shared α), (∀ p, p ∈ l → NoRaw k p) → g.environ k = none → (leavesAll l g).environ k = none
  | [], _, _, hg => hg
  | p :: l, g, h, hg => leavesAll_noRaw l _ (fun q hq => h q (List.mem_cons_of_mem _ hq)) (leaves_noRaw (h p List.mem_cons_self) g hg)

theorem leavesAll_clean : ∀ (l : List (Script α)) (g : Shared α), (∀ p, p ∈ l → Clean p) → (∀ k, g.environ k = none) → leavesAll l g = g
  | [], _, _, _ => rfl
  | p :: l, g, h, hg => by
    show leavesAll l (leaves p g) = g
    rw [leaves_clean (h p List.mem_cons_self) g hg]
    exact leavesAll_clean l g (fun q hq => h q (List.mem_cons_of_mem _ hq)) hg

theorem Quiet.noRaw {k : Str} {p : Script α} (h : Quiet k p) : NoRaw k p := by
  induction p with
  | done => trivial
  | set _ _ _ ih => exact ih h
  | get _ _ ih => exact ih h
  | rawset _ _ _ ih => exact ⟨h.1, ih h.2⟩
  | setVar _ _ _ ih => exact ih h
  | getVar _ _ ih => exact ih h
  | import_ _ _ _ _ ih => exact ih h.2
  | ext _ _ ih => exact ih h.2
  | other _ _ ihq ih => exact ⟨ihq h.1, ih h.2⟩

theorem leaves_quiet {k : Str} {p : Script α} (h : Quiet k p) : ∀ g : Shared α, (leaves p g).globals k = g.globals k := by
  induction p with
  | done => exact fun _ => rfl
  | set k' v r ih =>
    intro g
    simp only [leaves]
    rw [ih h]
    split <;> rfl
  | get _ _ ih => exact fun g => ih h g
  | rawset _ _ _ ih => exact fun g => ih h.2 _
  | setVar _ _ _ ih => exact fun g => ih h g
  | getVar _ _ ih => exact fun g => ih h g
  | import_ k' w t r ih =>
    intro g
    simp only [leaves]
    rw [ih h.2]
    exact upd_ne h.1
  | ext v r ih =>
    intro g
    simp only [leaves]
    rw [ih h.2]
    exact upd_ne h.1
  | other q r ihq ih => exact fun g => (ih h.2 _).trans (ihq h.1 g)

theorem leavesAll_quiet {k : Str} : ∀ (l : List (Script α)) (g : Shared α), (∀ p, p ∈ l → Quiet k p) → (leavesAll l g).globals k = g.globals k
  | [], _, _ => rfl
  | p :: l, g, h => (leavesAll_quiet l _ (fun q hq => h q (List.mem_cons_of_mem _ hq))).trans (leaves_quiet (h p List.mem_cons_self) g)

theorem noRaw_andThen {k : Str} {p q : Script α} : NoRaw k (andThen p q) ↔ NoRaw k p ∧ NoRaw k q := by
  induction p with
  | done => exact ⟨fun h => ⟨trivial, h⟩, fun h => h.2⟩
  | set _ _ _ ih => exact ih
  | get _ _ ih => exact ih
  | rawset _ _ _ ih => exact ⟨fun h => ⟨⟨h.1, (ih.mp h.2).1⟩, (ih.mp h.2).2⟩, fun h => ⟨h.1.1, ih.mpr ⟨h.1.2, h.2⟩⟩⟩
  | setVar _ _ _ ih => exact ih
  | getVar _ _ ih => exact ih
  | import_ _ _ _ _ ih => exact ih
  | ext _ _ ih => exact ih
  | other _ _ _ ih => exact ⟨fun h => ⟨⟨h.1, (ih.mp h.2).1⟩, (ih.mp h.2).2⟩, fun h => ⟨h.1.1, ih.mpr ⟨h.1.2, h.2⟩⟩⟩

end Tup.LuaVars
