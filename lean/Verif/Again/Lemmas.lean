import Verif.Again.Spec

/-! Lemmas for C105. -/

namespace Tup.Again

open Tup (Str)
open Tup.Fuse Tup.Readdir

variable {C : Type}

theorem attr_mono {s : Fs C} {f g : Str} (h : f ∈ s.reads) : f ∈ (attr s g).reads := by
  unfold attr
  split
  · exact h
  · exact List.mem_append_left _ h

theorem attr_new {s : Fs C} {f : Str} (h : f ∉ s.dirs) : f ∈ (attr s f).reads := by
  unfold attr
  rw [if_neg h]
  exact List.mem_append_right _ List.mem_cons_self

theorem attr_dirs (s : Fs C) (f : Str) : (attr s f).dirs = s.dirs := by
  unfold attr; split <;> rfl

theorem attr_unl (s : Fs C) (f : Str) : (attr s f).unlinks = s.unlinks := by
  unfold attr; split <;> rfl

theorem openWrite_reads (s : Fs C) (f : Str) (c : C) : (openWrite f c s).1.reads = s.reads := by
  unfold openWrite; split <;> rfl

theorem unlinkOp_reads (s : Fs C) (f : Str) : (unlinkOp f s).1.reads = s.reads := by
  unfold unlinkOp; split <;> rfl

theorem rmdirOp_reads (s : Fs C) (f : Str) : (rmdirOp f s).1.reads = s.reads := by
  unfold rmdirOp; split
  · rfl
  · split <;> rfl

theorem truncateOp_reads (s : Fs C) (f : Str) (c : C) : (truncateOp f c s).1.reads = s.reads := by
  unfold truncateOp; simp only; split <;> rfl

theorem dropTarget_reads (s : Fs C) (g : Str) : (dropTarget g s).reads = s.reads := by
  unfold dropTarget; split <;> rfl

theorem dropTarget_unl (s : Fs C) (g : Str) : (dropTarget g s).unlinks = s.unlinks := by
  unfold dropTarget; split <;> rfl

theorem renameOp_reads {s : Fs C} {f g x : Str} (h : x ∈ s.reads) : x ∈ (renameOp f g s).1.reads ∨ (x = f ∧ (renameOp f g s).2 = true) := by
  unfold renameOp
  split
  · exact .inl h
  · simp only
    split
    · by_cases hx : x = f
      · exact .inr ⟨hx, rfl⟩
      · refine .inl (List.mem_map.2 ⟨x, ?_, if_neg hx⟩)
        show x ∈ (dropTarget g s).reads
        rw [dropTarget_reads]; exact h
    · refine .inl ?_
      show x ∈ (dropTarget g s).reads
      rw [dropTarget_reads]; exact h

theorem renameOp_unl {s : Fs C} {f g u : Str} (h : u ∈ (renameOp f g s).1.unlinks) : u ∈ s.unlinks := by
  unfold renameOp at h
  split at h
  · exact h
  · simp only at h
    split at h
    · have h := (List.mem_filter.1 h).1
      rw [← dropTarget_unl s g]; exact h
    · rw [← dropTarget_unl s g]; exact h

theorem recWrite_unl {s : Fs C} {f u : Str} (h : u ∈ (recWrite f s).unlinks) : u ∈ s.unlinks := (List.mem_filter.1 h).1

/-- The reads recorded before, and those of the kernel's lookups for the request, are still there afterwards, unless the request removed
the name. -/
theorem step_reads (real : Str → Option (Node C)) (s : Fs C) (o : Op C) (x : Str)
    (h : x ∈ s.reads ∨ (x ∈ (Ask.op o).names ∧ x ∉ s.dirs)) :
    x ∈ (step real s o).1.reads ∨ ((step real s o).2 = true ∧ ((∃ g, o = .rename x g) ∨ o = .unlink x)) := by
  have one : ∀ f, (Ask.op o).names = [f] → x ∈ (attr s f).reads := fun f hf => by
    rcases h with h | ⟨h, hd⟩
    · exact attr_mono h
    · rw [hf] at h
      cases List.mem_singleton.1 h
      exact attr_new hd
  cases o with
  | read f => exact .inl (one f rfl)
  | put f c =>
    have h1 := one f rfl
    refine .inl ?_
    unfold step; simp only
    split
    · exact h1
    · exact h1
    · rw [openWrite_reads]; exact h1
  | unlink f =>
    have h1 := one f rfl
    refine .inl ?_
    unfold step; simp only
    split
    · rw [unlinkOp_reads]; exact h1
    · exact h1
  | mkdir f =>
    have h1 := one f rfl
    refine .inl ?_
    unfold step; simp only
    split <;> exact h1
  | rmdir f =>
    have h1 := one f rfl
    refine .inl ?_
    unfold step; simp only
    split
    · rw [rmdirOp_reads]; exact h1
    · exact h1
  | truncate f c =>
    have h1 := one f rfl
    refine .inl ?_
    unfold step; simp only
    split
    · rw [truncateOp_reads]; exact h1
    · exact h1
  | rename f g =>
    have h1 : x ∈ (attr (attr s f) g).reads := by
      rcases h with h | ⟨h, hd⟩
      · exact attr_mono (attr_mono h)
      · rcases List.mem_cons.1 h with rfl | h
        · exact attr_mono (attr_new hd)
        · cases List.mem_singleton.1 h
          exact attr_new (by rw [attr_dirs]; exact hd)
    have h2 : f = g → x ∈ (attr s f).reads := fun hfg => by
      subst hfg
      rcases h with h | ⟨h, hd⟩
      · exact attr_mono h
      · have : x = f := by simpa [Ask.names] using h
        subst this
        exact attr_new hd
    unfold step; simp only
    split
    · rename_i hfg
      exact .inl (h2 hfg)
    · split
      · exact .inl h1
      · exact .inl h1
      · exact .inl h1
      · split
        · exact .inl h1
        · rcases renameOp_reads (f := f) (g := g) h1 with h3 | ⟨h3, h4⟩
          · exact .inl h3
          · subst h3
            exact .inr ⟨h4, .inl ⟨g, rfl⟩⟩

/-- What is on the list of removed names was removed. -/
theorem step_unlinks (real : Str → Option (Node C)) (s : Fs C) (o : Op C) (u : Str) (h : u ∈ (step real s o).1.unlinks) :
    u ∈ s.unlinks ∨ ((step real s o).2 = true ∧ o = .unlink u) := by
  cases o with
  | read f => exact .inl (attr_unl s f ▸ h)
  | put f c =>
    refine .inl ?_
    unfold step at h; simp only at h
    rw [← attr_unl s f]
    split at h
    · exact recWrite_unl (recWrite_unl h)
    · exact h
    · unfold openWrite at h
      split at h
      · exact recWrite_unl h
      · exact recWrite_unl (recWrite_unl h)
  | unlink f =>
    unfold step at h ⊢; simp only at h ⊢
    split at h
    · unfold unlinkOp at h ⊢
      split at h
      · rcases List.mem_append.1 h with h | h
        · exact .inl (attr_unl s f ▸ h)
        · cases List.mem_singleton.1 h
          exact .inr ⟨rfl, rfl⟩
      · exact .inl (attr_unl s f ▸ h)
    · exact .inl (attr_unl s f ▸ h)
  | mkdir f =>
    refine .inl ?_
    unfold step at h; simp only at h
    rw [← attr_unl s f]
    split at h <;> exact h
  | rmdir f =>
    refine .inl ?_
    unfold step at h; simp only at h
    rw [← attr_unl s f]
    split at h
    · unfold rmdirOp at h
      split at h
      · exact h
      · split at h <;> exact h
    · exact h
  | truncate f c =>
    refine .inl ?_
    unfold step at h; simp only at h
    rw [← attr_unl s f]
    split at h
    · unfold truncateOp at h; simp only at h
      split at h <;> exact recWrite_unl h
    · exact h
  | rename f g =>
    refine .inl ?_
    have e : (attr (attr s f) g).unlinks = s.unlinks := by rw [attr_unl, attr_unl]
    unfold step at h; simp only at h
    split at h
    · rw [← attr_unl s f]; exact h
    · split at h
      · rw [← e]; exact h
      · rw [← e]; exact h
      · rw [← e]; exact h
      · split at h
        · rw [← e]; exact h
        · rw [← e]; exact renameOp_unl h

theorem list_reads (t : Tree C) (s : Fs C) (d x : Str) (h : x ∈ s.reads ∨ (x = d ∧ x ∉ s.dirs)) : x ∈ (list t.real t.ents s d).1.reads := by
  have h1 : x ∈ (attr s d).reads := by
    rcases h with h | ⟨rfl, h⟩
    · exact attr_mono h
    · exact attr_new h
  unfold list
  split
  · unfold readdir
    split
    · exact h1
    · split
      · exact h1
      · exact List.mem_append_left _ h1
  · exact h1

theorem list_unlinks (t : Tree C) (s : Fs C) (d : Str) : (list t.real t.ents s d).1.unlinks = s.unlinks := by
  rw [← attr_unl s d]
  unfold list
  split
  · unfold readdir
    split
    · rfl
    · split <;> rfl
  · rfl

theorem lookup_congr {t t' : Tree C} {s : Fs C} {f : Str} (h : f ∉ s.dirs → t.real f = t'.real f) : lookup t.real s f = lookup t'.real s f := by
  unfold lookup
  split
  · rfl
  · rename_i hd
    split
    · rfl
    · exact h hd

theorem step_congr {t t' : Tree C} {s : Fs C} {o : Op C} (h : ∀ f ∈ (Ask.op o).names, f ∉ s.dirs → t.real f = t'.real f) :
    step t.real s o = step t'.real s o := by
  have hl : ∀ f ∈ (Ask.op o).names, lookup t.real s f = lookup t'.real s f := fun f hf => lookup_congr (h f hf)
  cases o with
  | rename f g =>
    have h1 := hl f (by simp [Ask.names])
    have h2 := hl g (by simp [Ask.names])
    simp only [step, h1, h2]
  | _ f => simp only [step, hl f (by simp [Ask.names])]

theorem list_congr {t t' : Tree C} {s : Fs C} {d : Str} (h : d ∉ s.dirs → t.real d = t'.real d ∧ t.ents d = t'.ents d) :
    list t.real t.ents s d = list t'.real t'.ents s d := by
  unfold list
  rw [lookup_congr (t := t) (t' := t') (fun hd => (h hd).1)]
  split
  · unfold readdir
    split
    · rfl
    · simp only
      split
      · rfl
      · rename_i hd
        rw [attr_dirs] at hd
        unfold actual
        rw [(h hd).2]
  · rfl

theorem ask_congr {t t' : Tree C} {s : Fs C} {a : Ask C} (h : ∀ f ∈ a.names, f ∉ s.dirs → t.real f = t'.real f ∧ t.ents f = t'.ents f) :
    ask t s a = ask t' s a := by
  cases a with
  | list d =>
    simp only [ask, list_congr (h d (by simp [Ask.names]))]
  | op o =>
    have h1 := step_congr (t := t) (t' := t') (s := s) (o := o) (fun f hf hd => (h f hf hd).1)
    cases o with
    | read f => simp only [ask, h1, lookup_congr (t := t) (t' := t') (s := s) (f := f) (fun hd => (h f (by simp [Ask.names]) hd).1)]
    | _ => simp only [ask, h1]

theorem ask_reads (t : Tree C) (s : Fs C) (a : Ask C) (x : Str) (h : x ∈ s.reads ∨ (x ∈ a.names ∧ x ∉ s.dirs)) :
    x ∈ (ask t s a).1.reads ∨ gone x (a, (ask t s a).2) := by
  cases a with
  | list d =>
    refine .inl (list_reads t s d x ?_)
    rcases h with h | ⟨h, hd⟩
    · exact .inl h
    · exact .inr ⟨by simpa [Ask.names] using h, hd⟩
  | op o =>
    rcases step_reads t.real s o x h with h1 | ⟨h1, ⟨g, h2⟩ | h2⟩
    · refine .inl ?_
      cases o <;> exact h1
    · subst h2
      refine .inr ?_
      simp only [ask, h1, gone]
    · subst h2
      refine .inr ?_
      simp only [ask, h1, gone]

theorem ask_unlinks (t : Tree C) (s : Fs C) (a : Ask C) (u : Str) (h : u ∈ (ask t s a).1.unlinks) :
    u ∈ s.unlinks ∨ gone u (a, (ask t s a).2) := by
  cases a with
  | list d => exact .inl (list_unlinks t s d ▸ h)
  | op o =>
    have h0 : u ∈ (step t.real s o).1.unlinks := by cases o <;> exact h
    rcases step_unlinks t.real s o u h0 with h1 | ⟨h1, h2⟩
    · exact .inl h1
    · subst h2
      refine .inr ?_
      simp only [ask, h1, gone]

theorem moved_snoc {f : Str} {tr : List (Ask C × Answer C)} {e : Ask C × Answer C} : Moved f (tr ++ [e]) ↔ Moved f tr ∨ gone f e := by
  unfold Moved
  simp only [List.mem_append, List.mem_singleton]
  constructor
  · rintro ⟨x, h | h, hg⟩
    · exact .inl ⟨x, h, hg⟩
    · exact .inr (h ▸ hg)
  · rintro (⟨x, h, hg⟩ | h)
    · exact ⟨x, .inl h, hg⟩
    · exact ⟨e, .inr rfl, h⟩

theorem unlinks_moved (t : Tree C) (p : Prog C) : ∀ n u, u ∈ (exec t p n).1.unlinks → Moved u (exec t p n).2
  | 0, u, h => by cases h
  | n + 1, u, h => by
    simp only [exec] at h ⊢
    split at h
    · exact unlinks_moved t p n u h
    · rw [moved_snoc]
      rcases ask_unlinks _ _ _ _ h with h | h
      · exact .inl (unlinks_moved t p n u h)
      · exact .inr h

theorem reads_reported (t : Tree C) (p : Prog C) (n : Nat) (x : Str) (h : x ∈ (exec t p n).1.reads) :
    x ∈ reportReads (exec t p n).1 ∨ Moved x (exec t p n).2 := by
  by_cases hu : x ∈ (exec t p n).1.unlinks
  · exact .inr (unlinks_moved t p n x hu)
  · exact .inl (List.mem_filter.2 ⟨h, by simpa using hu⟩)

theorem report_reads {s : Fs C} {x : Str} (h : x ∈ reportReads s) : x ∈ s.reads := (List.mem_filter.1 h).1

/-- The same requests with the same answers, and the same record, in a tree that is the same where it was looked at. -/
theorem exec_congr {t t' : Tree C} (p : Prog C) : ∀ n, (∀ f, f ∈ reportReads (exec t p n).1 ∨ Moved f (exec t p n).2 → t.real f = t'.real f ∧ t.ents f = t'.ents f) →
    exec t' p n = exec t p n
  | 0, _ => rfl
  | n + 1, h => by
    have key : ∀ a, p ((exec t p n).2.map Prod.snd) = some a → ∀ x, (x ∈ (exec t p n).1.reads ∨ Moved x (exec t p n).2) ∨
        (x ∈ a.names ∧ x ∉ (exec t p n).1.dirs) → t.real x = t'.real x ∧ t.ents x = t'.ents x := by
      intro a ha x hx
      have hn : exec t p (n + 1) = ((ask t (exec t p n).1 a).1, (exec t p n).2 ++ [(a, (ask t (exec t p n).1 a).2)]) := by
        simp only [exec, ha]
      have : x ∈ (exec t p (n + 1)).1.reads ∨ Moved x (exec t p (n + 1)).2 := by
        have hm : ∀ h : Moved x (exec t p n).2 ∨ gone x (a, (ask t (exec t p n).1 a).2), Moved x (exec t p (n + 1)).2 := fun h => by
          rw [hn]; exact moved_snoc.2 h
        rcases hx with (hx | hx) | hx
        · rcases ask_reads t _ a x (.inl hx) with h1 | h1
          · exact .inl (by rw [hn]; exact h1)
          · exact .inr (hm (.inr h1))
        · exact .inr (hm (.inl hx))
        · rcases ask_reads t _ a x (.inr hx) with h1 | h1
          · exact .inl (by rw [hn]; exact h1)
          · exact .inr (hm (.inr h1))
      rcases this with h1 | h1
      · exact h x (reads_reported t p (n + 1) x h1)
      · exact h x (.inr h1)
    have ih : exec t' p n = exec t p n := by
      cases ha : p ((exec t p n).2.map Prod.snd) with
      | none =>
        refine exec_congr p n (fun f hf => h f ?_)
        simp only [exec, ha]
        exact hf
      | some a =>
        refine exec_congr p n (fun f hf => key a ha f (.inl ?_))
        rcases hf with hf | hf
        · exact .inl (report_reads hf)
        · exact .inr hf
    simp only [exec, ih]
    cases ha : p ((exec t p n).2.map Prod.snd) with
    | none => rfl
    | some a =>
      have := ask_congr (t := t) (t' := t') (s := (exec t p n).1) (a := a) (fun f hf hd => key a ha f (.inr ⟨hf, hd⟩))
      simp only [this]

theorem settle_congr (s : Fs C) (f : Str) : ∀ (ms : List (Str × Nat)) (real real' : Str → Option (Node C)),
    (∃ m ∈ ms, m.1 = f) ∨ real f = real' f → settle s ms real f = settle s ms real' f
  | [], real, real', h => by
    rcases h with ⟨m, hm, _⟩ | h
    · cases hm
    · exact h
  | m :: ms, real, real', h => by
    unfold settle
    refine settle_congr s f ms _ _ ?_
    by_cases hm : f = m.1
    · exact .inr (by rw [if_pos hm, if_pos hm])
    · rcases h with ⟨k, hk, hf⟩ | h
      · rcases List.mem_cons.1 hk with rfl | hk
        · exact absurd hf.symm hm
        · exact .inl ⟨k, hk, hf⟩
      · exact .inr (by rw [if_neg hm, if_neg hm]; exact h)

end Tup.Again
