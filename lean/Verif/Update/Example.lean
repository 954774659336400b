import Verif.Update.Spec

/-! A computable version of the update, to write down concrete executions. -/

namespace Tup.Update

open Tup.Exec (upd Graph S Work Cfg Running Reach)

/-- How a job ends: successfully, or failing with the given contents in its outputs. -/
inductive End where
  | ok | fail (junk : Content)

variable (π : Proj) (clean : Bool)

def passesB (c : Nat) (r : Run) : Bool :=
  r.ok && (π.outs c).all (fun o => (r.out o).isSome) &&
    r.reads.all fun p => (π.outs c).contains p || !(π.gen p) || (π.sticky c).contains p

theorem passesB_iff {c : Nat} {r : Run} (h : passesB π c r = true) : Passes π c r := by
  simp only [passesB, Bool.and_eq_true, List.all_eq_true, Bool.or_eq_true, List.contains_iff_mem,
    Bool.not_eq_true'] at h
  refine ⟨h.1.1, h.1.2, fun p hp hpo hg => ?_⟩
  rcases h.2 p hp with (q | q) | q
  · exact absurd q hpo
  · rw [hg] at q; cases q
  · exact q

/-- Some outcome of `work` chosen by `e`. -/
def job (nrm : Nat → Nat → Bool) (d : D) (g : Graph) (n : Nat) : End → Option D
  | .ok =>
    if π.isCmd n then
      if d.skip n then some (finishCmd π nrm g n d)
      else if passesB π n (π.beh n (mask π n d.content)) then
        some (finishCmd π nrm g n (succeed π n d (π.beh n (mask π n d.content))))
      else none
    else some (fileWork π nrm g n d)
  | .fail junk =>
    if π.isCmd n && !(d.skip n) &&
        (!(π.optO n) || (π.outs n).all fun p => decide (junk p = d.content p) || (junk p).isNone ||
          ((d.content p).isNone && !clean)) then
      some { content := fun p => if p ∈ π.outs n then junk p else d.content p
             db := { d.db with known := fun p => if p ∈ π.outs n then junk p else d.db.known p }
             skip := fun p => if p ∈ π.outs n then d.skip p && π.optO n else d.skip p
             ran := n :: d.ran }
    else none

def End.isOk : End → Bool
  | .ok => true
  | .fail _ => false

theorem job_work {nrm : Nat → Nat → Bool} {d d' : D} {g : Graph} {n : Nat} {e : End}
    (h : job π clean nrm d g n e = some d') : work π clean nrm d g n d' e.isOk := by
  cases e with
  | ok =>
    simp only [job] at h
    unfold work
    by_cases hc : π.isCmd n = true
    · rw [if_pos hc] at h ⊢
      by_cases hs : d.skip n = true
      · rw [if_pos hs] at h ⊢
        injection h with h; exact ⟨rfl, h.symm⟩
      · rw [if_neg hs] at h ⊢
        split at h
        · rename_i hp
          injection h with h
          exact Or.inr ⟨rfl, d.content, fun p _ => rfl, passesB_iff π hp, h.symm⟩
        · cases h
    · rw [if_neg hc] at h ⊢
      injection h with h; exact ⟨rfl, h.symm⟩
  | fail junk =>
    simp only [job] at h
    split at h
    · rename_i hc
      simp only [Bool.and_eq_true, Bool.not_eq_true', Bool.or_eq_true, List.all_eq_true,
        decide_eq_true_eq] at hc
      obtain ⟨⟨h1, h2⟩, h3⟩ := hc
      injection h with h
      subst h
      unfold work
      rw [if_pos h1, if_neg (by simp [h2])]
      refine Or.inl ⟨rfl, ?_, ?_, ?_, ?_, ?_, ?_, rfl⟩
      · intro p hp; simp [hp]
      · intro p hp; right; simp [hp]
      · intro ho p hp
        rcases h3 with h3 | h3
        · rw [ho] at h3; cases h3
        · simp only [hp, if_true]
          rcases h3 p hp with (q | q) | q
          · exact Or.inl q
          · exact Or.inr (Or.inl (by simpa using q))
          · exact Or.inr (Or.inr ⟨by simpa using q.1, q.2⟩)
      · intro p x _; rfl
      · intro x; rfl
      · intro x hx
        simp only at hx
        split at hx
        · simp at hx; exact hx.1
        · exact hx
    · cases h

/-- A step of the environment or of the main thread. -/
inductive Move where
  | main | fin (n : Nat) (e : End)

def move (c : Cfg) (nrm : Nat → Nat → Bool) (s : S D) : Move → Option (S D)
  | .main => Tup.Exec.mainStep c s
  | .fin n e =>
    if n ∈ s.running then
      (job π clean nrm s.db s.g n e).map fun d' =>
        { s with running := s.running.erase n, fin := (n, e.isOk) :: s.fin, db := d' }
    else none

def moves (c : Cfg) (nrm : Nat → Nat → Bool) : List Move → S D → Option (S D)
  | [], s => some s
  | m :: ms, s => (move π clean c nrm s m).bind (moves c nrm ms)

theorem moves_reach {c : Cfg} {nrm : Nat → Nat → Bool} {s0 : S D} : ∀ (ms : List Move) (s s' : S D),
    Reach c (work π clean nrm) s0 s → moves π clean c nrm ms s = some s' → Reach c (work π clean nrm) s0 s' := by
  intro ms
  induction ms with
  | nil => intro s s' h e; injection e with e; subst e; exact h
  | cons m ms ih =>
    intro s s' h e
    simp only [moves] at e
    cases hm : move π clean c nrm s m with
    | none => rw [hm] at e; cases e
    | some s1 =>
      rw [hm] at e
      refine ih s1 s' (.tail h ?_) e
      cases m with
      | main => exact .main hm
      | fin n e =>
        simp only [move] at hm
        split at hm
        · simp only [Option.map_eq_some_iff] at hm
          obtain ⟨d', hj, rfl⟩ := hm
          exact .finish (by assumption) (job_work π clean hj)
        · cases hm

/-- The state of an update after the given moves. -/
def updateRun (c : Cfg) (T : Nat → Bool) (w : W) (ms : List Move) : Option (S D) :=
  (graph π (scan π T w)).bind fun g0 =>
    (Tup.Exec.start g0 (startD π (scan π T w))).bind (moves π clean c (normal π (scan π T w).db) ms)

theorem updateRun_updating {c : Cfg} {T : Nat → Bool} {w : W} {ms : List Move} {e : S D} (hj : 0 < c.jobs)
    (hx : ∀ n, c.expanded n = true) (hT : Sees T w) (h : updateRun π clean c T w ms = some e) :
    Updating π clean c T w e := by
  refine ⟨hj, hx, hT, ?_⟩
  simp only [updateRun, Option.bind_eq_some_iff] at h
  obtain ⟨g0, hg, s0, hs, hm⟩ := h
  exact ⟨g0, hg, s0, hs, moves_reach π clean ms s0 e .refl hm⟩

end Tup.Update
