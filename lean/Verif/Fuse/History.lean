import Verif.Fuse.Sim

/- Lemmas for C22: what is recorded about one file by operations that do not name it, or that only read it. -/

namespace Tup.Fuse

open Tup (Str)

variable {C : Type}

/-- What is recorded about the file. -/
structure Same (f : Str) (s q : Fs C) : Prop where
  reads : f ∈ q.reads ↔ f ∈ s.reads
  writes : f ∈ q.writes ↔ f ∈ s.writes
  unlinks : f ∈ q.unlinks ↔ f ∈ s.unlinks
  dirs : f ∈ q.dirs ↔ f ∈ s.dirs

theorem Same.refl (f : Str) (s : Fs C) : Same f s s := ⟨Iff.rfl, Iff.rfl, Iff.rfl, Iff.rfl⟩

theorem Same.trans {f : Str} {s q p : Fs C} (h : Same f s q) (g : Same f q p) : Same f s p :=
  ⟨g.reads.trans h.reads, g.writes.trans h.writes, g.unlinks.trans h.unlinks, g.dirs.trans h.dirs⟩

theorem mem_snoc {l : List Str} {f g : Str} (h : f ≠ g) : f ∈ l ++ [g] ↔ f ∈ l := by simp [h]
theorem mem_keep' {l : List Str} {f g : Str} (h : f ≠ g) : f ∈ l.filter (fun u => decide (u ≠ g)) ↔ f ∈ l := by
  rw [mem_keep]; exact ⟨fun x => x.1, fun x => ⟨x, h⟩⟩

theorem mem_subst {l : List Str} {x f g : Str} (hf : x ≠ f) (hg : x ≠ g) : x ∈ (l.map fun w => if w = f then g else w) ↔ x ∈ l := by
  rw [List.mem_map]
  constructor
  · rintro ⟨y, hy, e⟩
    split at e
    · exact absurd e.symm hg
    · exact e ▸ hy
  · exact fun h => ⟨x, h, if_neg hf⟩

theorem mem_renameDir_ne {x f g : Str} (hf : x ≠ f) (hg : x ≠ g) : ∀ ds : List Str, x ∈ renameDir f g ds ↔ x ∈ ds
  | [] => Iff.rfl
  | d :: ds => by
    rw [renameDir]
    by_cases e : d = f
    · rw [if_pos e]; subst e; simp [hf, hg]
    · rw [if_neg e]; simp [mem_renameDir_ne hf hg ds]

theorem Same.recRead {s q : Fs C} {f g : Str} (h : Same f s q) (ne : f ≠ g) : Same f s (recRead g q) :=
  ⟨(mem_snoc ne).trans h.reads, h.writes, h.unlinks, h.dirs⟩

theorem Same.attr {s q : Fs C} {f g : Str} (h : Same f s q) (ne : f ≠ g) : Same f s (attr q g) := by
  unfold Fuse.attr
  split
  · exact h
  · exact h.recRead ne

theorem Same.recWrite {s q : Fs C} {f g : Str} (h : Same f s q) (ne : f ≠ g) : Same f s (recWrite g q) :=
  ⟨h.reads, (mem_snoc ne).trans h.writes, (mem_keep' ne).trans h.unlinks, h.dirs⟩

theorem Same.drop {s q : Fs C} {f : Str} (h : Same f s q) (g : Str) : Same f s (dropTarget g q) := by
  unfold dropTarget
  split
  · exact ⟨h.reads, h.writes, h.unlinks, h.dirs⟩
  · exact h

theorem same_renameOp {s q : Fs C} {x f g : Str} (h : Same x s q) (hf : x ≠ f) (hg : x ≠ g) : Same x s (renameOp f g q).1 := by
  unfold renameOp
  split
  · exact ⟨h.reads, h.writes, h.unlinks, (mem_renameDir_ne hf hg _).trans h.dirs⟩
  · have hd := h.drop g
    simp only
    split
    · exact ⟨(mem_subst hf hg).trans hd.reads, (mem_subst hf hg).trans hd.writes, (mem_keep' hg).trans hd.unlinks, hd.dirs⟩
    · exact hd

/-- An operation that does not name the file records nothing about it. -/
theorem same_step (real : Str → Option (Node C)) (s : Fs C) {o : Op C} {x : Str} (hx : x ∉ o.names) : Same x s (step real s o).1 := by
  have h0 := Same.refl x s
  cases o with
  | read f =>
    exact h0.attr (by simpa [Op.names] using hx)
  | put f c =>
    have ne : x ≠ f := by simpa [Op.names] using hx
    have ha := h0.attr (g := f) ne
    rw [step]
    split
    · have := (ha.recWrite ne).recWrite ne
      exact ⟨this.reads, this.writes, this.unlinks, this.dirs⟩
    · exact ha
    · unfold openWrite
      split
      · have := ha.recWrite ne
        exact ⟨this.reads, this.writes, this.unlinks, this.dirs⟩
      · have := (ha.recWrite ne).recWrite ne
        exact ⟨this.reads, this.writes, this.unlinks, this.dirs⟩
  | unlink f =>
    have ne : x ≠ f := by simpa [Op.names] using hx
    have ha := h0.attr (g := f) ne
    rw [step]
    split
    · unfold unlinkOp
      split
      · exact ⟨ha.reads, ha.writes, (mem_snoc ne).trans ha.unlinks, ha.dirs⟩
      · exact ha
    · exact ha
  | rename f g =>
    have ne : x ≠ f ∧ x ≠ g := by simpa [Op.names] using hx
    have ha := (h0.attr (g := f) ne.1)
    have hb := ha.attr (g := g) ne.2
    rw [step]
    split
    · exact ha
    · split <;> first | exact hb | skip
      split
      · exact hb
      · exact same_renameOp hb ne.1 ne.2
  | mkdir f =>
    have ne : x ≠ f := by simpa [Op.names] using hx
    have ha := h0.attr (g := f) ne
    rw [step]
    split
    · exact ⟨ha.reads, ha.writes, ha.unlinks, mem_snoc ne⟩
    · exact ha
  | rmdir f =>
    have ne : x ≠ f := by simpa [Op.names] using hx
    have ha := h0.attr (g := f) ne
    rw [step]
    split
    · unfold rmdirOp
      split
      · exact ha
      · split
        · exact ⟨ha.reads, ha.writes, ha.unlinks, (List.mem_erase_of_ne ne).trans ha.dirs⟩
        · exact ha
    · exact ha
  | truncate f c =>
    have ne : x ≠ f := by simpa [Op.names] using hx
    have ha := h0.attr (g := f) ne
    rw [step]
    split
    · unfold truncateOp
      simp only
      have := ha.recWrite ne
      split
      · exact ⟨this.reads, this.writes, this.unlinks, this.dirs⟩
      · exact this
    · exact ha

theorem same_run (real : Str → Option (Node C)) {x : Str} : ∀ (os : List (Op C)) (s : Fs C), (∀ o ∈ os, x ∉ o.names) → Same x s (run real s os).1
  | [], s, _ => Same.refl x s
  | o :: os, s, h => by
    rw [run]
    exact (same_step real s (h o List.mem_cons_self)).trans (same_run real os _ fun p hp => h p (List.mem_cons_of_mem _ hp))

theorem run_append (real : Str → Option (Node C)) : ∀ (os ps : List (Op C)) (s : Fs C), (run real s (os ++ ps)).1 = (run real (run real s os).1 ps).1
  | [], _, _ => rfl
  | o :: os, ps, s => by
    rw [List.cons_append, run, run]
    exact run_append real os ps _

/-- A file that is only ever read. -/
theorem only_read (real : Str → Option (Node C)) {x : Str} : ∀ (os : List (Op C)) (s : Fs C), (∀ o ∈ os, o = .read x ∨ x ∉ o.names) →
    x ∉ s.dirs → x ∉ s.unlinks →
    ((x ∈ (run real s os).1.reads ↔ x ∈ s.reads ∨ Op.read x ∈ os) ∧ x ∉ (run real s os).1.unlinks)
  | [], s, _, _, hu => by simp [run, hu]
  | o :: os, s, h, hd, hu => by
    rw [run]
    rcases h o List.mem_cons_self with e | e
    · subst e
      have hstep : (step real s (.read x)).1 = recRead x s := by
        show attr s x = _
        unfold attr
        rw [if_neg hd]
      have ih := only_read real os (recRead x s) (fun p hp => h p (List.mem_cons_of_mem _ hp)) hd hu
      simp only [hstep]
      refine ⟨?_, ih.2⟩
      rw [ih.1]
      simp [recRead]
    · have hs := same_step real s e
      have ih := only_read real os (step real s o).1 (fun p hp => h p (List.mem_cons_of_mem _ hp))
        (fun hx => hd (hs.dirs.mp hx)) (fun hx => hu (hs.unlinks.mp hx))
      refine ⟨?_, ih.2⟩
      simp only
      rw [ih.1, hs.reads, List.mem_cons]
      have : o ≠ .read x := by
        intro e2
        subst e2
        exact e (by simp [Op.names])
      constructor
      · rintro (h | h)
        · exact Or.inl h
        · exact Or.inr (Or.inr h)
      · rintro (h | h | h)
        · exact Or.inl h
        · exact absurd h.symm this
        · exact Or.inr h

/-- The files of the mappings end up at their names. -/
theorem settle_spec (s : Fs C) : ∀ (ms : List (Str × Nat)), (ms.map Prod.fst).Nodup → ∀ (real : Str → Option (Node C)) (f : Str),
    settle s ms real f = match findMap f ms with
      | some t => (s.tmp t).map .file
      | none => real f
  | [], _, _, _ => rfl
  | m :: ms, nd, real, f => by
    rw [List.map_cons, List.nodup_cons] at nd
    rw [settle, settle_spec s ms nd.2, findMap]
    by_cases e : m.1 = f
    · rw [if_pos e]
      have : findMap f ms = none := findMap_none.mpr (e ▸ nd.1)
      rw [this]
      simp only
      rw [if_pos e.symm]
    · rw [if_neg e]
      split
      · rfl
      · rw [if_neg (fun h => e h.symm)]

/-- Writing is never missed, as long as no file of the tree is opened for writing. -/
theorem inv_step {real : Str → Option (Node C)} {s : Fs C} (h : Inv s) {o : Op C} (ho : ∀ f c, o = .put f c → ∀ c', real f ≠ some (.file c')) :
    Inv (step real s o).1 := by
  have free : ∀ {f}, lookup real s f = none → findMap f s.maps = none := by
    intro f hl
    rcases (lookup_none hl).2 with ⟨t, e, e2⟩ | hx
    · obtain ⟨c, hc⟩ := h.present t (List.mem_map.mpr ⟨_, findMap_some e, rfl⟩)
      rw [e2] at hc; cases hc
    · exact hx.1
  cases o with
  | read f => exact h.attr f
  | put f c =>
    rw [step]
    have ha := h.attr f
    split
    · rename_i hl
      exact (ha.addMap (f := f) (by rw [attr_maps]; exact free hl) c).write f
    · exact ha
    · rename_i c' hl
      unfold openWrite
      split
      · exact (ha.setTmp _ c).write f
      · rename_i e
        rw [attr_maps] at e
        rw [lookup, e] at hl
        split at hl
        · cases hl
        · exact absurd hl (ho f c rfl c')
  | unlink f =>
    rw [step]
    split
    · unfold unlinkOp
      split
      · rename_i e
        exact ((h.attr f).delMap e).unlink (not_mem_delMap (h.attr f) f)
      · exact h.attr f
    · exact h.attr f
  | rename f g =>
    rw [step]
    split
    · exact h.attr f
    · have hb := (h.attr f).attr g
      split <;> first | exact hb | skip
      split
      · exact hb
      · unfold renameOp
        split
        · exact ⟨hb.names, hb.tmps, hb.next, hb.present, hb.logged⟩
        · have hd := hb.dropTarget g
          simp only
          split
          · exact hd.1.rename hd.2
          · exact hd.1
  | mkdir f =>
    rw [step]
    have hb := h.attr f
    split
    · exact ⟨hb.names, hb.tmps, hb.next, hb.present, hb.logged⟩
    · exact hb
  | rmdir f =>
    rw [step]
    have hb := h.attr f
    split
    · unfold rmdirOp
      split
      · exact hb
      · split
        · exact ⟨hb.names, hb.tmps, hb.next, hb.present, hb.logged⟩
        · exact hb
    · exact hb
  | truncate f c =>
    rw [step]
    have hb := h.attr f
    split
    · unfold truncateOp
      simp only
      split
      · exact (hb.write f).setTmp _ c
      · exact hb.write f
    · exact hb

theorem inv_run {real : Str → Option (Node C)} : ∀ (os : List (Op C)) {s : Fs C}, Inv s →
    (∀ f c, Op.put f c ∈ os → ∀ c', real f ≠ some (.file c')) → Inv (run real s os).1
  | [], _, h, _ => h
  | o :: os, s, h, ho => by
    rw [run]
    exact inv_run os (inv_step h fun f c e => ho f c (e ▸ List.mem_cons_self)) fun f c e => ho f c (List.mem_cons_of_mem _ e)

end Tup.Fuse
