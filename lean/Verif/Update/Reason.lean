import Verif.Update.Lemmas2

/-! Why a command is run. -/

namespace Tup.Update

open Tup.Exec (upd Graph S Work Cfg Running upd_apply WF Reach)

variable {π : Proj} {clean : Bool}

theorem finishLoop_reason (nrm : Nat → Nat → Bool) (g : Graph) : ∀ (ps : List Nat) (d : D),
    let d' := ps.foldl (fun d p => if d.skip p then d else modifyOutputs π nrm g p d) d
    ∀ x, d'.skip x = false → d.skip x = false ∨
      ∃ p ∈ ps, x ∈ g.outs p ∧ nrm p x = true ∧ d'.skip p = false := by
  intro ps
  induction ps with
  | nil => intro d; simp
  | cons q qs ih =>
    intro d d' x hx
    have hmono := (finishLoop_spec (π := π) nrm g qs (if d.skip q then d else modifyOutputs π nrm g q d)).2.2.2.2.2.1
    have hd' : d' = qs.foldl (fun d p => if d.skip p then d else modifyOutputs π nrm g p d)
      (if d.skip q then d else modifyOutputs π nrm g q d) := rfl
    rcases ih (if d.skip q then d else modifyOutputs π nrm g q d) x hx with h | ⟨p, h1, h2⟩
    · by_cases hq : d.skip q = true
      · rw [if_pos hq] at h; exact Or.inl h
      · rw [if_neg hq] at h
        by_cases hs : d.skip x = true
        · right
          have h6 := (modifyOutputs_spec (π := π) nrm q (g.outs q) d).2.2.2.2.2
          have : x ∈ g.outs q ∧ nrm q x = true := by
            refine Classical.byContradiction fun hc => ?_
            have := (h6 x).2 ⟨hs, hc⟩
            simp only [modifyOutputs] at h
            rw [this] at h; cases h
          refine ⟨q, by simp, this.1, this.2, bool_ne fun hc => ?_⟩
          have := hmono q (hd' ▸ hc)
          rw [if_neg hq] at this
          exact hq ((h6 q).1 this).1
        · exact Or.inl (bool_ne hs)
    · exact Or.inr ⟨p, List.mem_cons_of_mem _ h1, h2⟩

/-- What made tup run things. -/
structure R (π : Proj) (w0 : W) (rest : List Nat) (d : D) (Dn Fl : Nat → Prop) : Prop where
  ranSkip : ∀ c ∈ d.ran, d.skip c = false
  link : ∀ q e, e ∉ d.ran → d.db.link q e = w0.db.link q e
  file : ∀ p ∈ rest, π.isCmd p = false → d.skip p = false → w0.db.modify p = true ∨ ∃ e, Prod π e p ∧
    e ∈ d.ran ∧ (Fl e ∨ π.optO e = false ∨ d.content p ≠ w0.content p ∨
      ∃ q, π.gen q = true ∧ w0.db.link q e = true ∧ d.db.link q e = false)
  cmd : ∀ c ∈ rest, π.isCmd c = true → d.skip c = false → w0.db.modify c = true ∨
    ∃ p ∈ rest, π.isCmd p = false ∧ normal π w0.db p c = true ∧ d.skip p = false ∧
      ∀ e, Prod π e p → e ∉ rest ∨ Dn e

variable {w0 : W} {rest : List Nat} {E : List (Nat × Nat)} {d d' : D} {Dn Fl : Nat → Prop}
  {n : Nat} {g : Graph}

theorem R.congr {Dn' Fl' : Nat → Prop} (k : R π w0 rest d Dn Fl) (h1 : ∀ x, Dn' x ↔ Dn x)
    (h2 : ∀ x, Fl' x ↔ Fl x) : R π w0 rest d Dn' Fl' := by
  have e1 : Dn' = Dn := funext fun x => propext (h1 x)
  have e2 : Fl' = Fl := funext fun x => propext (h2 x)
  rw [e1, e2]; exact k

theorem R.start (ge : GE π w0.db rest E) : R π w0 rest (startD π w0) Dn Fl := by
  have hs : ∀ x, (startD π w0).skip x = false → w0.db.modify x = true := by
    intro x hx
    simp only [startD, sched, Bool.not_eq_false', List.contains_iff_mem, List.mem_filter] at hx
    exact hx.2
  refine ⟨?_, ?_, ?_, ?_⟩
  · intro c hc; cases hc
  · intro q e _; rfl
  · intro p _ _ h; exact Or.inl (hs p h)
  · intro c _ _ h; exact Or.inl (hs c h)

theorem R.fileStep (ok : π.Ok) (ge : GE π w0.db rest E) (env : Env rest E g Dn Fl n) (r : R π w0 rest d Dn Fl)
    (hc : π.isCmd n = false) :
    R π w0 rest (fileWork π (normal π w0.db) g n d) (fun x => Dn x ∨ x = n) Fl := by
  obtain ⟨h1, h2, h3, h4, h5, h6⟩ := fileWork_spec (π := π) (normal π w0.db) g n d
  generalize fileWork π (normal π w0.db) g n d = d' at *
  have hmono : ∀ x, d.skip x = false → d'.skip x = false := fun x hx => bool_ne fun h => by
    rw [((h6 x).1 h).1] at hx; cases hx
  have hnew : ∀ x, d'.skip x = false → d.skip x = false ∨
      (d.skip n = false ∧ x ∈ g.outs n ∧ normal π w0.db n x = true) := by
    intro x hx
    refine Classical.byContradiction fun hcon => ?_
    rw [not_or] at hcon
    have := (h6 x).2 ⟨by simpa using hcon.1, hcon.2⟩
    rw [hx] at this; cases this
  refine ⟨?_, ?_, ?_, ?_⟩
  · intro c hcr; rw [h4] at hcr; exact hmono c (r.ranSkip c hcr)
  · intro q e he; rw [h4] at he; rw [h3]; exact r.link q e he
  · intro p hp hpc hs
    rcases hnew p hs with hs | ⟨q1, q2, q3⟩
    · rw [h1, h3, h4]; exact r.file p hp hpc hs
    · have := normal_file ok hc q3; rw [hpc] at this; cases this
  · intro c hcr hcc hs
    rcases hnew c hs with hs | ⟨q1, q2, q3⟩
    · rcases r.cmd c hcr hcc hs with h | ⟨p, p1, p2, p3, p4, p5⟩
      · exact Or.inl h
      · exact Or.inr ⟨p, p1, p2, p3, hmono p p4, fun e he => (p5 e he).imp id Or.inl⟩
    · refine Or.inr ⟨n, env.nRest, hc, q3, hmono n q1, fun e he => ?_⟩
      by_cases her : e ∈ rest
      · exact Or.inr (Or.inl (env.preds e (ge.prodEdge ok he her).1))
      · exact Or.inl her

/-- the common end of a skipped and a successful command -/
theorem R.finish (ok : π.Ok) (ge : GE π w0.db rest E) (env : Env rest E g Dn Fl n)
    (hc : π.isCmd n = true) (r : R π w0 rest d (fun x => Dn x ∨ x = n) Fl) :
    R π w0 rest (finishCmd π (normal π w0.db) g n d) (fun x => Dn x ∨ x = n) Fl := by
  obtain ⟨h1, h2, h3, h4, h5, hn0, h6, h7, h8, h9⟩ := finishCmd_spec (π := π) (normal π w0.db) g n d
  have h10 := finishLoop_reason (π := π) (normal π w0.db) g (g.outs n) d
  have h11 : ∀ x, (finishCmd π (normal π w0.db) g n d).skip x = false → d.skip x = false ∨
      ∃ p ∈ g.outs n, x ∈ g.outs p ∧ normal π w0.db p x = true ∧
        (finishCmd π (normal π w0.db) g n d).skip p = false := h10
  generalize finishCmd π (normal π w0.db) g n d = d' at *
  have hmono : ∀ x, d.skip x = false → d'.skip x = false := fun x hx => bool_ne fun h => by
    rw [h6 x h] at hx; cases hx
  have hfile : ∀ p, p ∈ g.outs n → p ∈ rest ∧ π.isCmd p = false ∧ Prod π n p := by
    intro p hp
    rcases (ge.edge n p).1 ((env.outs p).1 hp) with q | q | q
    · have hpo : p ∈ π.outs n := by simpa [normal, hc] using q.2.2
      exact ⟨ge.closed n p q.1 q.2.1 q.2.2, (ok.outsIn n hc p hpo).2, ge.nodes n env.nRest, hc, hpo⟩
    · exact absurd (q.1 ▸ ge.nodes n env.nRest) ok.root
    · have hnn := (env.ahead p ((env.outs p).1 hp)).2
      have : n ∈ π.sticky p := q.2.2.2
      exact absurd hc (by
        have := ok.stickyFile p q.2.2.1 n this
        rw [this]; simp)
  refine ⟨?_, ?_, ?_, ?_⟩
  · intro c hcr; rw [h4] at hcr; exact hmono c (r.ranSkip c hcr)
  · intro q e he; rw [h4] at he; rw [h3]; exact r.link q e he
  · intro p hp hpc hs
    rcases h11 p hs with hs | ⟨q, q1, q2, q3, q4⟩
    · rw [h1, h3, h4]; exact r.file p hp hpc hs
    · have := normal_file ok (hfile q q1).2.1 q3; rw [hpc] at this; cases this
  · intro c hcr hcc hs
    rcases h11 c hs with hs | ⟨q, q1, q2, q3, q4⟩
    · rcases r.cmd c hcr hcc hs with h | ⟨p, p1, p2, p3, p4, p5⟩
      · exact Or.inl h
      · exact Or.inr ⟨p, p1, p2, p3, hmono p p4, p5⟩
    · obtain ⟨f1, f2, f3⟩ := hfile q q1
      refine Or.inr ⟨q, f1, f2, q3, q4, fun e he => ?_⟩
      have : e = n := he.eq ok f3
      exact Or.inr (Or.inr this)

theorem R.succeed (ok : π.Ok) (ge : GE π w0.db rest E) (k : K π clean w0 rest E d Dn Fl)
    (env : Env rest E g Dn Fl n) (hc : π.isCmd n = true) (hsk : d.skip n = false)
    (r : R π w0 rest d Dn Fl) (run : Run) :
    R π w0 rest (succeed π n d run) (fun x => Dn x ∨ x = n) Fl := by
  have hnn : n ∈ π.nodes := ge.nodes n env.nRest
  have hnr : n ∉ d.ran := fun h => (k.ranRest n h).2.elim env.nDn env.nFl
  have hmono : ∀ x, d.skip x = false → (Update.succeed π n d run).skip x = false := by
    intro x hx; simp only [Update.succeed]; split <;> simp [hx]
  have hold : ∀ p ∈ π.outs n, d.content p = w0.content p := by
    intro p hp
    refine Classical.byContradiction fun hne => ?_
    obtain ⟨e, q1, q2, _, _⟩ := k.changed_rest ok ge hne
    have : e = n := q1.eq ok ⟨hnn, hc, hp⟩
    exact hnr (this ▸ q2)
  have hnout : n ∉ π.outs n := fun h => by have := (ok.outsIn n hc n h).2; rw [hc] at this; cases this
  refine ⟨?_, ?_, ?_, ?_⟩
  · intro c hcr
    rcases List.mem_cons.1 hcr with rfl | hcr
    · simp only [Update.succeed, if_neg hnout]; exact hsk
    · exact hmono c (r.ranSkip c hcr)
  · intro q e he
    have : e ≠ n ∧ e ∉ d.ran := by simpa [Update.succeed] using he
    simp only [Update.succeed, if_neg this.1]; exact r.link q e this.2
  · intro p hp hpc hs
    by_cases hpo : p ∈ π.outs n
    · by_cases hm : w0.db.modify p = true
      · exact Or.inl hm
      refine Or.inr ⟨n, ⟨hnn, hc, hpo⟩, by simp [Update.succeed], ?_⟩
      simp only [Update.succeed, hpo, if_true, Bool.and_eq_false_iff] at hs ⊢
      rcases hs with ((hs | hs) | hs) | hs
      · rcases r.file p hp hpc hs with h | ⟨e, e1, e2, _⟩
        · exact absurd h hm
        · have : e = n := e1.eq ok ⟨hnn, hc, hpo⟩
          exact absurd (this ▸ e2) hnr
      · exact Or.inr (Or.inl hs)
      · right; right; right
        simp only [linkRemoved, Bool.not_eq_false', List.any_eq_true, Bool.and_eq_true, Bool.not_eq_true'] at hs
        obtain ⟨q, _, ⟨q1, q2⟩, q3⟩ := hs
        refine ⟨q, q1, ?_, Or.inl q3⟩
        rw [← r.link q n hnr]; exact q2
      · right; right; left
        rw [← hold p hpo]
        intro he
        simp [he] at hs
    · have hs : d.skip p = false := by simpa [Update.succeed, hpo] using hs
      rcases r.file p hp hpc hs with h | ⟨e, e1, e2, e3⟩
      · exact Or.inl h
      · have hen : e ≠ n := fun h => hnr (h ▸ e2)
        refine Or.inr ⟨e, e1, List.mem_cons_of_mem _ e2, ?_⟩
        simpa [Update.succeed, hpo, hen] using e3
  · intro c hcr hcc hs
    have hco : c ∉ π.outs n := fun h => by have := (ok.outsIn n hc c h).2; rw [hcc] at this; cases this
    have hs : d.skip c = false := by simpa [Update.succeed, hco] using hs
    rcases r.cmd c hcr hcc hs with h | ⟨p, p1, p2, p3, p4, p5⟩
    · exact Or.inl h
    · exact Or.inr ⟨p, p1, p2, p3, hmono p p4, fun e he => (p5 e he).imp id Or.inl⟩

theorem R.fail (ok : π.Ok) (ge : GE π w0.db rest E) (k : K π clean w0 rest E d Dn Fl)
    (env : Env rest E g Dn Fl n) (hc : π.isCmd n = true) (hsk : d.skip n = false)
    (r : R π w0 rest d Dn Fl) (hf : Fails π clean n d d') :
    R π w0 rest d' Dn (fun x => Fl x ∨ x = n) := by
  obtain ⟨f1, f2, f3, f4, f5, f6, f7⟩ := hf
  have hnn : n ∈ π.nodes := ge.nodes n env.nRest
  have hnr : n ∉ d.ran := fun h => (k.ranRest n h).2.elim env.nDn env.nFl
  have hmono : ∀ x, d.skip x = false → d'.skip x = false := fun x hx => bool_ne fun h => by
    rw [f6 x h] at hx; cases hx
  refine ⟨?_, ?_, ?_, ?_⟩
  · intro c hcr
    rw [f7] at hcr
    rcases List.mem_cons.1 hcr with rfl | hcr
    · exact hmono _ hsk
    · exact hmono c (r.ranSkip c hcr)
  · intro q e he
    have : e ≠ n ∧ e ∉ d.ran := by simpa [f7] using he
    rw [f4 q e this.1]; exact r.link q e this.2
  · intro p hp hpc hs
    rw [f7]
    by_cases hpo : p ∈ π.outs n
    · exact Or.inr ⟨n, ⟨hnn, hc, hpo⟩, by simp, Or.inl (Or.inr rfl)⟩
    · rw [(f1 p hpo).2.2] at hs
      rcases r.file p hp hpc hs with h | ⟨e, e1, e2, e3⟩
      · exact Or.inl h
      · have hen : e ≠ n := fun h => hnr (h ▸ e2)
        refine Or.inr ⟨e, e1, List.mem_cons_of_mem _ e2, ?_⟩
        rw [(f1 p hpo).1]
        rcases e3 with h | h | h | ⟨q, q1, q2, q3⟩
        · exact Or.inl (Or.inl h)
        · exact Or.inr (Or.inl h)
        · exact Or.inr (Or.inr (Or.inl h))
        · exact Or.inr (Or.inr (Or.inr ⟨q, q1, q2, by rw [f4 q e hen]; exact q3⟩))
  · intro c hcr hcc hs
    have hco : c ∉ π.outs n := fun h => by have := (ok.outsIn n hc c h).2; rw [hcc] at this; cases this
    rw [(f1 c hco).2.2] at hs
    rcases r.cmd c hcr hcc hs with h | ⟨p, p1, p2, p3, p4, p5⟩
    · exact Or.inl h
    · exact Or.inr ⟨p, p1, p2, p3, hmono p p4, p5⟩

theorem R.work {b : Bool} (ok : π.Ok) (ge : GE π w0.db rest E) (k : K π clean w0 rest E d Dn Fl)
    (env : Env rest E g Dn Fl n) (r : R π w0 rest d Dn Fl)
    (hw : work π clean (normal π w0.db) d g n d' b) :
    R π w0 rest d' (fun x => Dn x ∨ (x = n ∧ b = true)) (fun x => Fl x ∨ (x = n ∧ b = false)) := by
  unfold Update.work at hw
  by_cases hc : π.isCmd n = true
  · rw [if_pos hc] at hw
    by_cases hs : d.skip n = true
    · rw [if_pos hs] at hw
      obtain ⟨rfl, rfl⟩ := hw
      refine (R.finish ok ge env hc ⟨r.ranSkip, r.link, r.file, ?_⟩).congr (by simp) (by simp)
      intro c hcr hcc hsk
      rcases r.cmd c hcr hcc hsk with h | ⟨p, p1, p2, p3, p4, p5⟩
      · exact Or.inl h
      · exact Or.inr ⟨p, p1, p2, p3, p4, fun e he => (p5 e he).imp id Or.inl⟩
    · rw [if_neg hs] at hw
      rcases hw with ⟨rfl, hf⟩ | ⟨rfl, v, h1, h2, rfl⟩
      · exact (R.fail ok ge k env hc (bool_ne hs) r hf).congr (by simp) (by simp)
      · exact (R.finish ok ge env hc (R.succeed ok ge k env hc (bool_ne hs) r _)).congr (by simp) (by simp)
  · rw [if_neg hc] at hw
    obtain ⟨rfl, rfl⟩ := hw
    exact (R.fileStep ok ge env r (bool_ne hc)).congr (by simp) (by simp)

theorem running_R (ok : π.Ok) {c : Cfg} {w : W} {g0 : Graph} {s : S D}
    (hk : ∀ p, w.db.known p = w.content p)
    (hjobs : 0 < c.jobs) (hx : ∀ n, c.expanded n = true) (hg : graph π w = some g0)
    (hr : Running c (Update.work π false (normal π w.db)) g0 (startD π w) s) :
    ∃ rest, GE π w.db rest g0.edges ∧ Tup.Exec.Inv c g0 π.root rest s ∧ (∀ n, g0.trans n = .none) ∧
      K π false w rest g0.edges s.db (Done s) (Failed s) ∧ R π w rest s.db (Done s) (Failed s) := by
  obtain ⟨rest, hwf, ge, ht⟩ := graph_ge ok hg
  obtain ⟨s0, h0, hreach⟩ := hr
  refine ⟨rest, ge, ?_⟩
  obtain ⟨s1, h1, hi, hp, hdead, hfail, hpc, hdb⟩ := Tup.Exec.start_inv (D := D) hjobs hwf (startD π w)
  rw [h0] at h1; injection h1 with h1; subst h1
  have key : ∀ s, Reach c (Update.work π false (normal π w.db)) s0 s → Tup.Exec.Inv c g0 π.root rest s ∧
      π.root ∈ s.popped ∧ K π false w rest g0.edges s.db (Done s) (Failed s) ∧
      R π w rest s.db (Done s) (Failed s) := by
    intro s hs
    have hKs : K π false w rest g0.edges s.db (Done s) (Failed s) := by
      obtain ⟨rest', hwf', _, _, _, _, k⟩ := running_K (clean := false) ok (by simp) hk hjobs hx hg ⟨s0, h0, hs⟩
      have : rest' = rest := by
        have := hwf'.nodes; rw [hwf.nodes] at this; simpa using this.symm
      rw [this] at k; exact k
    refine ⟨?_, ?_, hKs, ?_⟩
    · exact (Tup.Exec.reach_inv hwf hi (by rw [hp]; simp) hs).1
    · exact (Tup.Exec.reach_inv hwf hi (by rw [hp]; simp) hs).2
    · induction hs with
      | refl => rw [hdb]; exact R.start ge
      | @tail s s' hs' hst ih =>
        have hKs0 : K π false w rest g0.edges s.db (Done s) (Failed s) := by
          obtain ⟨rest', hwf', _, _, _, _, k⟩ :=
            running_K (clean := false) ok (by simp) hk hjobs hx hg ⟨s0, h0, hs'⟩
          have : rest' = rest := by
            have := hwf'.nodes; rw [hwf.nodes] at this; simpa using this.symm
          rw [this] at k; exact k
        have r := ih hKs0
        obtain ⟨hi0, hroot⟩ := Tup.Exec.reach_inv hwf hi (by rw [hp]; simp) hs'
        have hi' := Tup.Exec.step_inv hwf hi0 hroot hst
        cases hst with
        | main h =>
          obtain ⟨q1, q2, q3, _⟩ := main_same hx hi'.noAbort h
          rw [q1]; exact r.congr q2 q3
        | @finish n b db' hn hw =>
          refine (R.work ok ge hKs0 (env_of hi0 hwf ht hroot hn) r hw).congr ?_ ?_
          · intro x; simp only [Done, List.mem_cons, Prod.mk.injEq]; grind
          · intro x; simp only [Failed, List.mem_cons, Prod.mk.injEq]; grind
        | die _ => exact r.congr (fun _ => Iff.rfl) (fun _ => Iff.rfl)
  obtain ⟨a1, _, a3, a4⟩ := key s hreach
  exact ⟨a1, ht, a3, a4⟩

end Tup.Update
