import Verif.Mount.Spec
import Verif.Fuse.Lemmas

/-! A job does the same whatever the numbers of its temporary files are. -/

namespace Tup.Mount

open Tup.Fuse (Fs Node Op findMap delMap renameMap recRead recWrite recUnlink recRename addMap setTmp attr)

variable {C : Type}

/-- The same files, with other numbers. -/
inductive RL (st at' : Nat → Option C) : List (Str × Nat) → List (Str × Nat) → Prop where
  | nil : RL st at' [] []
  | cons {f t u ms ns} : st t = at' u → RL st at' ms ns → RL st at' ((f, t) :: ms) ((f, u) :: ns)

variable {st at' : Nat → Option C} {ms ns : List (Str × Nat)}

theorem RL.find (h : RL st at' ms ns) (f : Str) :
    (findMap f ms = none ∧ findMap f ns = none) ∨ ∃ t u, findMap f ms = some t ∧ findMap f ns = some u ∧ st t = at' u := by
  induction h with
  | nil => exact .inl ⟨rfl, rfl⟩
  | @cons g t u ms ns h1 _ ih =>
    simp only [findMap]
    by_cases hg : g = f
    · rw [if_pos hg, if_pos hg]
      exact .inr ⟨t, u, rfl, rfl, h1⟩
    · rw [if_neg hg, if_neg hg]
      exact ih

theorem RL.del (h : RL st at' ms ns) (f : Str) : RL st at' (delMap f ms) (delMap f ns) := by
  induction h with
  | nil => exact .nil
  | @cons g t u ms ns h1 h2 ih =>
    simp only [delMap]
    by_cases hg : g = f
    · rw [if_pos hg, if_pos hg]
      exact h2
    · rw [if_neg hg, if_neg hg]
      exact .cons h1 ih

theorem RL.rename (h : RL st at' ms ns) (f g : Str) : RL st at' (renameMap f g ms) (renameMap f g ns) := by
  induction h with
  | nil => exact .nil
  | @cons x t u ms ns h1 h2 ih =>
    simp only [renameMap]
    by_cases hg : x = f
    · rw [if_pos hg, if_pos hg]
      exact .cons h1 h2
    · rw [if_neg hg, if_neg hg]
      exact .cons h1 ih

theorem RL.filter (h : RL st at' ms ns) (k : Str → Bool) : RL st at' (ms.filter fun p => k p.1) (ns.filter fun p => k p.1) := by
  induction h with
  | nil => exact .nil
  | @cons x t u ms ns h1 h2 ih =>
    rw [List.filter_cons, List.filter_cons]
    simp only
    split
    · exact .cons h1 ih
    · exact ih

theorem RL.snoc (h : RL st at' ms ns) (f : Str) {t u : Nat} (htu : st t = at' u) : RL st at' (ms ++ [(f, t)]) (ns ++ [(f, u)]) := by
  induction h with
  | nil => exact .cons htu .nil
  | cons h1 _ ih => exact .cons h1 ih

theorem RL.any (h : RL st at' ms ns) (k : Str → Bool) : ms.any (fun p => k p.1) = ns.any (fun p => k p.1) := by
  induction h with
  | nil => rfl
  | cons h1 _ ih => rw [List.any_cons, List.any_cons, ih]

/-- Other contents where no file of the list is. -/
theorem RL.frame (h : RL st at' ms ns) {st2 at2 : Nat → Option C} (h1 : ∀ t ∈ ms.map Prod.snd, st2 t = st t) (h2 : ∀ t ∈ ns.map Prod.snd, at2 t = at' t) : RL st2 at2 ms ns := by
  induction h with
  | nil => exact .nil
  | @cons f t u ms ns h3 _ ih =>
    refine .cons ?_ (ih (fun x hx => h1 x (List.mem_cons_of_mem _ hx)) (fun x hx => h2 x (List.mem_cons_of_mem _ hx)))
    rw [h1 t List.mem_cons_self, h2 u List.mem_cons_self, h3]

/-- The content of the file is changed in both. -/
theorem RL.set (h : RL st at' ms ns) (hm : (ms.map Prod.snd).Nodup) (hn : (ns.map Prod.snd).Nodup) {f : Str} {t u : Nat} (ht : findMap f ms = some t) (hu : findMap f ns = some u)
    (c : Option C) : RL (fun i => if i = t then c else st i) (fun i => if i = u then c else at' i) ms ns := by
  induction h with
  | nil => cases ht
  | @cons g t' u' ms ns h1 h2 ih =>
    rw [List.map_cons, List.nodup_cons] at hm hn
    simp only [findMap] at ht hu
    by_cases hg : g = f
    · rw [if_pos hg] at ht hu
      cases ht
      cases hu
      refine .cons (by simp) (h2.frame ?_ ?_)
      · intro x hx
        exact if_neg (fun e => hm.1 (by rw [← e]; exact hx))
      · intro x hx
        exact if_neg (fun e => hn.1 (by rw [← e]; exact hx))
    · rw [if_neg hg] at ht hu
      have e1 : t' ≠ t := fun e => hm.1 (by rw [e]; exact List.mem_map.2 ⟨_, Fuse.findMap_some ht, rfl⟩)
      have e2 : u' ≠ u := fun e => hn.1 (by rw [e]; exact List.mem_map.2 ⟨_, Fuse.findMap_some hu, rfl⟩)
      refine .cons ?_ (ih hm.2 hn.2 ht hu)
      rw [if_neg e1, if_neg e2, h1]

/-- The numbers are used once and are below the next one. -/
structure Nums (s : Fs C) : Prop where
  nodup : (s.maps.map Prod.snd).Nodup
  lt : ∀ t ∈ s.maps.map Prod.snd, t < s.next

/-- The two are the same, apart from the numbers. -/
structure Sim (s a : Fs C) : Prop where
  maps : RL s.tmp a.tmp s.maps a.maps
  dirs : s.dirs = a.dirs
  reads : s.reads = a.reads
  writes : s.writes = a.writes
  unlinks : s.unlinks = a.unlinks
  num : Nums s
  num' : Nums a

variable {s a : Fs C}

theorem Sim.lookup (h : Sim s a) {r r' : Str → Option (Node C)} {f : Str} (hr : r f = r' f) : Fuse.lookup r s f = Fuse.lookup r' a f := by
  unfold Fuse.lookup
  rw [h.dirs]
  split
  · rfl
  · rcases h.maps.find f with ⟨e1, e2⟩ | ⟨t, u, e1, e2, e3⟩
    · rw [e1, e2]
      exact hr
    · rw [e1, e2]
      simp only
      rw [e3]

theorem Sim.recRead (h : Sim s a) (f : Str) : Sim (recRead f s) (recRead f a) :=
  ⟨h.maps, h.dirs, by simp only [Fuse.recRead, h.reads], h.writes, h.unlinks, ⟨h.num.nodup, h.num.lt⟩, ⟨h.num'.nodup, h.num'.lt⟩⟩

theorem Sim.recWrite (h : Sim s a) (f : Str) : Sim (recWrite f s) (recWrite f a) :=
  ⟨h.maps, h.dirs, h.reads, by simp only [Fuse.recWrite, h.writes], by simp only [Fuse.recWrite, h.unlinks], ⟨h.num.nodup, h.num.lt⟩, ⟨h.num'.nodup, h.num'.lt⟩⟩

theorem Sim.recUnlink (h : Sim s a) (f : Str) : Sim (recUnlink f s) (recUnlink f a) :=
  ⟨h.maps, h.dirs, h.reads, h.writes, by simp only [Fuse.recUnlink, h.unlinks], ⟨h.num.nodup, h.num.lt⟩, ⟨h.num'.nodup, h.num'.lt⟩⟩

theorem Sim.recRename (h : Sim s a) (f g : Str) : Sim (recRename f g s) (recRename f g a) :=
  ⟨h.maps, h.dirs, by simp only [Fuse.recRename, h.reads], by simp only [Fuse.recRename, h.writes], by simp only [Fuse.recRename, h.unlinks], ⟨h.num.nodup, h.num.lt⟩,
    ⟨h.num'.nodup, h.num'.lt⟩⟩

theorem Sim.attr (h : Sim s a) (f : Str) : Sim (attr s f) (attr a f) := by
  unfold Fuse.attr
  rw [h.dirs]
  split
  · exact h
  · exact h.recRead f

theorem Sim.setDirs (h : Sim s a) (l : List Str) : Sim { s with dirs := l } { a with dirs := l } :=
  ⟨h.maps, rfl, h.reads, h.writes, h.unlinks, ⟨h.num.nodup, h.num.lt⟩, ⟨h.num'.nodup, h.num'.lt⟩⟩

/-- A new file. -/
theorem Nums.add (h : Nums s) (f : Str) : Nums (addMap f s) := by
  refine ⟨?_, ?_⟩
  · show ((s.maps ++ [(f, s.next)]).map Prod.snd).Nodup
    rw [List.map_append, List.nodup_append]
    refine ⟨h.nodup, by simp, ?_⟩
    intro x hx y hy
    have := h.lt x hx
    simp only [List.map_cons, List.map_nil, List.mem_singleton] at hy
    omega
  · show ∀ t ∈ (s.maps ++ [(f, s.next)]).map Prod.snd, t < s.next + 1
    intro t ht
    rw [List.map_append, List.mem_append] at ht
    rcases ht with ht | ht
    · have := h.lt t ht; omega
    · simp only [List.map_cons, List.map_nil, List.mem_singleton] at ht
      omega

theorem Sim.create (h : Sim s a) (f : Str) (c : C) : Sim (Fuse.create f c s) (Fuse.create f c a) := by
  have n1 := h.num.add f
  have n2 := h.num'.add f
  refine ⟨?_, h.dirs, h.reads, ?_, ?_, ⟨n1.nodup, n1.lt⟩, ⟨n2.nodup, n2.lt⟩⟩
  · show RL (fun i => if i = s.next then some c else s.tmp i) (fun i => if i = a.next then some c else a.tmp i) (s.maps ++ [(f, s.next)]) (a.maps ++ [(f, a.next)])
    refine RL.snoc (h.maps.frame ?_ ?_) f (by simp)
    · intro t ht
      have := h.num.lt t ht
      exact if_neg (by omega)
    · intro t ht
      have := h.num'.lt t ht
      exact if_neg (by omega)
  · simp only [Fuse.create, Fuse.setTmp, Fuse.recWrite, Fuse.addMap, h.writes]
  · simp only [Fuse.create, Fuse.setTmp, Fuse.recWrite, Fuse.addMap, h.unlinks]

/-- A new mapping without a file; it needs a number that has none. -/
theorem Sim.add (h : Sim s a) (f : Str) (h1 : s.tmp s.next = a.tmp a.next) : Sim (addMap f s) (addMap f a) := by
  have n1 := h.num.add f
  have n2 := h.num'.add f
  refine ⟨RL.snoc h.maps f h1, h.dirs, h.reads, ?_, ?_, n1, n2⟩
  · simp only [Fuse.recWrite, Fuse.addMap, h.writes]
  · simp only [Fuse.recWrite, Fuse.addMap, h.unlinks]

theorem Sim.set (h : Sim s a) {f : Str} {t u : Nat} (ht : findMap f s.maps = some t) (hu : findMap f a.maps = some u) (c : Option C) : Sim (setTmp t c s) (setTmp u c a) :=
  ⟨h.maps.set h.num.nodup h.num'.nodup ht hu c, h.dirs, h.reads, h.writes, h.unlinks, ⟨h.num.nodup, h.num.lt⟩, ⟨h.num'.nodup, h.num'.lt⟩⟩

theorem Nums.del (h : Nums s) (f : Str) : Nums { s with maps := delMap f s.maps } := by
  have hs := (Fuse.delMap_sublist f s.maps).map Prod.snd
  exact ⟨hs.nodup h.nodup, fun t ht => h.lt t (hs.subset ht)⟩

theorem Sim.del (h : Sim s a) (f : Str) : Sim { s with maps := delMap f s.maps } { a with maps := delMap f a.maps } :=
  ⟨h.maps.del f, h.dirs, h.reads, h.writes, h.unlinks, h.num.del f, h.num'.del f⟩

theorem Nums.rename (h : Nums s) (f g : Str) : Nums { s with maps := renameMap f g s.maps } := by
  refine ⟨?_, ?_⟩
  · show ((renameMap f g s.maps).map Prod.snd).Nodup
    rw [Fuse.renameMap_snd]
    exact h.nodup
  · show ∀ t ∈ (renameMap f g s.maps).map Prod.snd, t < s.next
    rw [Fuse.renameMap_snd]
    exact h.lt

theorem Sim.rename (h : Sim s a) (f g : Str) : Sim { s with maps := renameMap f g s.maps } { a with maps := renameMap f g a.maps } :=
  ⟨h.maps.rename f g, h.dirs, h.reads, h.writes, h.unlinks, h.num.rename f g, h.num'.rename f g⟩

theorem Sim.dropTarget (h : Sim s a) (g : Str) : Sim (Fuse.dropTarget g s) (Fuse.dropTarget g a) := by
  unfold Fuse.dropTarget
  rcases h.maps.find g with ⟨e1, e2⟩ | ⟨t, u, e1, e2, _⟩
  · rw [e1, e2]
    exact h
  · rw [e1, e2]
    exact (h.set e1 e2 none).del g

theorem Sim.renameOp (h : Sim s a) (f g : Str) : Sim (Fuse.renameOp f g s).1 (Fuse.renameOp f g a).1 ∧ (Fuse.renameOp f g s).2 = (Fuse.renameOp f g a).2 := by
  unfold Fuse.renameOp
  rw [h.dirs]
  split
  · exact ⟨h.setDirs _, rfl⟩
  · have h1 := h.dropTarget g
    simp only
    rcases h1.maps.find f with ⟨e1, e2⟩ | ⟨t, u, e1, e2, _⟩
    · rw [e1, e2]
      exact ⟨h1, rfl⟩
    · rw [e1, e2]
      exact ⟨(h1.rename f g).recRename f g, rfl⟩

theorem Sim.rmdirOp (h : Sim s a) (d : Str) : Sim (Fuse.rmdirOp d s).1 (Fuse.rmdirOp d a).1 ∧ (Fuse.rmdirOp d s).2 = (Fuse.rmdirOp d a).2 := by
  unfold Fuse.rmdirOp
  rw [h.dirs, h.maps.any]
  split
  · exact ⟨h, rfl⟩
  · split
    · exact ⟨h.setDirs _, rfl⟩
    · exact ⟨h, rfl⟩

/-- No file has a number that is not given out yet. -/
def Fresh (s : Fs C) : Prop := ∀ t, s.next ≤ t → s.tmp t = none

theorem attr_fresh (h : Fresh s) (f : Str) : Fresh (attr s f) := by
  intro t ht
  rw [Fuse.attr_next] at ht
  rw [Fuse.attr_tmp]
  exact h t ht

/-- An operation has the same answer and the same effects. -/
theorem Sim.step (h : Sim s a) (hs : Fresh s) (ha : Fresh a) {r r' : Str → Option (Node C)} (o : Op C) (hr : ∀ f ∈ o.names, r f = r' f) :
    Sim (Fuse.step r s o).1 (Fuse.step r' a o).1 ∧ (Fuse.step r s o).2 = (Fuse.step r' a o).2 := by
  cases o with
  | read f =>
    have hl := h.lookup (hr f (by simp [Op.names]))
    simp only [Fuse.step]
    exact ⟨h.attr f, by rw [hl]⟩
  | put f c =>
    have hl := h.lookup (hr f (by simp [Op.names]))
    have h1 := h.attr f
    simp only [Fuse.step]
    rw [hl]
    split
    · exact ⟨h1.create f c, rfl⟩
    · exact ⟨h1, rfl⟩
    · unfold Fuse.openWrite
      rcases h1.maps.find f with ⟨e1, e2⟩ | ⟨t, u, e1, e2, _⟩
      · rw [e1, e2]
        refine ⟨(h1.add f ?_).recWrite f, rfl⟩
        rw [attr_fresh hs f _ (Nat.le_refl _), attr_fresh ha f _ (Nat.le_refl _)]
      · rw [e1, e2]
        exact ⟨(h1.set e1 e2 _).recWrite f, rfl⟩
  | unlink f =>
    have hl := h.lookup (hr f (by simp [Op.names]))
    have h1 := h.attr f
    simp only [Fuse.step]
    rw [hl]
    split
    · unfold Fuse.unlinkOp
      rcases h1.maps.find f with ⟨e1, e2⟩ | ⟨t, u, e1, e2, _⟩
      · rw [e1, e2]
        exact ⟨h1, rfl⟩
      · rw [e1, e2]
        exact ⟨((h1.set e1 e2 none).del f).recUnlink f, rfl⟩
    · exact ⟨h1, rfl⟩
  | rename f g =>
    have hl := h.lookup (hr f (by simp [Op.names]))
    have hl' := h.lookup (hr g (by simp [Op.names]))
    have h1 := h.attr f
    have h2 := h1.attr g
    simp only [Fuse.step]
    rw [hl, hl']
    split
    · exact ⟨h1, rfl⟩
    · split
      · exact ⟨h2, rfl⟩
      · exact ⟨h2, rfl⟩
      · exact ⟨h2, rfl⟩
      · split
        · exact ⟨h2, rfl⟩
        · exact h2.renameOp f g
  | mkdir f =>
    have hl := h.lookup (hr f (by simp [Op.names]))
    have h1 := h.attr f
    simp only [Fuse.step]
    rw [hl, h.dirs]
    split
    · exact ⟨h1.setDirs _, rfl⟩
    · exact ⟨h1, rfl⟩
  | rmdir f =>
    have hl := h.lookup (hr f (by simp [Op.names]))
    have h1 := h.attr f
    simp only [Fuse.step]
    rw [hl]
    split
    · exact h1.rmdirOp f
    · exact ⟨h1, rfl⟩
  | truncate f c =>
    have hl := h.lookup (hr f (by simp [Op.names]))
    have h1 := h.attr f
    simp only [Fuse.step]
    rw [hl]
    split
    · unfold Fuse.truncateOp
      have h2 := h1.recWrite f
      simp only
      rcases h2.maps.find f with ⟨e1, e2⟩ | ⟨t, u, e1, e2, _⟩
      · rw [e1, e2]
        exact ⟨h2, rfl⟩
      · rw [e1, e2]
        exact ⟨h2.set e1 e2 _, rfl⟩
    · exact ⟨h1, rfl⟩

/-! What an operation leaves alone. -/

/-- Numbers that are given out and not used by the files keep their content; new files get new numbers. -/
structure Frame (s s' : Fs C) : Prop where
  next : s.next ≤ s'.next
  tmp : ∀ t, t < s.next → t ∉ s.maps.map Prod.snd → s'.tmp t = s.tmp t
  maps : ∀ t ∈ s'.maps.map Prod.snd, t ∈ s.maps.map Prod.snd ∨ (s.next ≤ t ∧ t < s'.next)
  nums : Nums s → Nums s'
  fresh : Fresh s → Nums s → Fresh s'

theorem Frame.refl (s : Fs C) : Frame s s := ⟨Nat.le_refl _, fun _ _ _ => rfl, fun _ h => .inl h, id, fun h _ => h⟩

theorem Frame.trans {s s' s'' : Fs C} (h : Frame s s') (g : Frame s' s'') : Frame s s'' := by
  refine ⟨Nat.le_trans h.next g.next, ?_, ?_, fun n => g.nums (h.nums n), fun f n => g.fresh (h.fresh f n) (h.nums n)⟩
  · intro t ht hm
    rw [g.tmp t (Nat.lt_of_lt_of_le ht h.next), h.tmp t ht hm]
    intro hx
    rcases h.maps t hx with h1 | h1
    · exact hm h1
    · omega
  · intro t ht
    rcases g.maps t ht with h1 | h1
    · rcases h.maps t h1 with h2 | h2
      · exact .inl h2
      · have := g.next
        exact .inr ⟨h2.1, by omega⟩
    · have := h.next
      exact .inr ⟨by omega, h1.2⟩

/-- Only the lists of names are different. -/
theorem Frame.same {s s' : Fs C} (h1 : s'.next = s.next) (h2 : s'.tmp = s.tmp) (h3 : s'.maps = s.maps) : Frame s s' := by
  refine ⟨by omega, fun t _ _ => by rw [h2], fun t ht => .inl (by rw [← h3]; exact ht), fun n => ⟨by rw [h3]; exact n.nodup, ?_⟩, fun f _ => ?_⟩
  · rw [h3, h1]
    exact n.lt
  · intro t ht
    rw [h2]
    exact f t (by omega)

theorem Frame.attr (s : Fs C) (f : Str) : Frame s (attr s f) := .same (Fuse.attr_next s f) (Fuse.attr_tmp s f) (Fuse.attr_maps s f)

theorem Frame.set (s : Fs C) {f : Str} {t : Nat} (ht : findMap f s.maps = some t) (c : Option C) : Frame s (setTmp t c s) := by
  have hm : t ∈ s.maps.map Prod.snd := List.mem_map.2 ⟨_, Fuse.findMap_some ht, rfl⟩
  refine ⟨Nat.le_refl _, ?_, fun x hx => .inl hx, fun n => ⟨n.nodup, n.lt⟩, ?_⟩
  · intro x _ hx
    exact if_neg (fun e => hx (by rw [e]; exact hm))
  · intro h n x hx
    have := n.lt t hm
    have hx : s.next ≤ x := hx
    show (if x = t then c else s.tmp x) = none
    rw [if_neg (by omega)]
    exact h x hx

theorem Frame.del (s : Fs C) (f : Str) : Frame s { s with maps := delMap f s.maps } :=
  ⟨Nat.le_refl _, fun _ _ _ => rfl, fun _ h => .inl (((Fuse.delMap_sublist f s.maps).map Prod.snd).subset h), fun n => n.del f, fun h _ => h⟩

theorem Frame.rename (s : Fs C) (f g : Str) : Frame s { s with maps := renameMap f g s.maps } :=
  ⟨Nat.le_refl _, fun _ _ _ => rfl, fun t h => .inl (by rw [← Fuse.renameMap_snd f g]; exact h), fun n => n.rename f g, fun h _ => h⟩

theorem Frame.add (s : Fs C) (f : Str) : Frame s (addMap f s) := by
  refine ⟨by show s.next ≤ s.next + 1; omega, fun _ _ _ => rfl, ?_, fun n => n.add f, ?_⟩
  · show ∀ t ∈ (s.maps ++ [(f, s.next)]).map Prod.snd, t ∈ s.maps.map Prod.snd ∨ (s.next ≤ t ∧ t < s.next + 1)
    intro t ht
    rw [List.map_append, List.mem_append] at ht
    rcases ht with ht | ht
    · exact .inl ht
    · simp only [List.map_cons, List.map_nil, List.mem_singleton] at ht
      exact .inr (by omega)
  · intro h _ t ht
    have ht : s.next + 1 ≤ t := ht
    exact h t (by omega)

theorem Frame.create (s : Fs C) (f : Str) (c : C) : Frame s (Fuse.create f c s) := by
  refine ⟨by show s.next ≤ s.next + 1; omega, ?_, (Frame.add s f).maps, fun n => ⟨(n.add f).nodup, (n.add f).lt⟩, ?_⟩
  · intro t ht _
    exact if_neg (by omega)
  · intro h _ t ht
    have ht : s.next + 1 ≤ t := ht
    show (if t = s.next then some c else s.tmp t) = none
    rw [if_neg (by omega)]
    exact h t (by omega)

theorem Frame.dropTarget (s : Fs C) (g : Str) : Frame s (Fuse.dropTarget g s) := by
  unfold Fuse.dropTarget
  split
  · rename_i t ht
    exact (Frame.set s ht none).trans (Frame.del _ g)
  · exact .refl s

theorem Frame.renameOp (s : Fs C) (f g : Str) : Frame s (Fuse.renameOp f g s).1 := by
  unfold Fuse.renameOp
  split
  · exact .same rfl rfl rfl
  · simp only
    split
    · exact (Frame.dropTarget s g).trans ((Frame.rename _ f g).trans (.same rfl rfl rfl))
    · exact Frame.dropTarget s g

theorem Frame.rmdirOp (s : Fs C) (d : Str) : Frame s (Fuse.rmdirOp d s).1 := by
  unfold Fuse.rmdirOp
  split
  · exact .refl s
  · split
    · exact .same rfl rfl rfl
    · exact .refl s

theorem Frame.step (r : Str → Option (Node C)) (s : Fs C) (o : Op C) : Frame s (Fuse.step r s o).1 := by
  cases o with
  | read f => exact Frame.attr s f
  | put f c =>
    simp only [Fuse.step]
    split
    · exact (Frame.attr s f).trans (Frame.create _ f c)
    · exact Frame.attr s f
    · refine (Frame.attr s f).trans ?_
      unfold Fuse.openWrite
      split
      · rename_i t ht
        exact (Frame.set _ ht _).trans (.same rfl rfl rfl)
      · exact (Frame.add _ f).trans (.same rfl rfl rfl)
  | unlink f =>
    simp only [Fuse.step]
    split
    · refine (Frame.attr s f).trans ?_
      unfold Fuse.unlinkOp
      split
      · rename_i t ht
        exact (Frame.set _ ht none).trans ((Frame.del _ f).trans (.same rfl rfl rfl))
      · exact .refl _
    · exact Frame.attr s f
  | rename f g =>
    have h2 := (Frame.attr s f).trans (Frame.attr _ g)
    simp only [Fuse.step]
    split
    · exact Frame.attr s f
    · split
      · exact h2
      · exact h2
      · exact h2
      · split
        · exact h2
        · exact h2.trans (Frame.renameOp _ f g)
  | mkdir f =>
    simp only [Fuse.step]
    split
    · exact (Frame.attr s f).trans (.same rfl rfl rfl)
    · exact Frame.attr s f
  | rmdir f =>
    simp only [Fuse.step]
    split
    · exact (Frame.attr s f).trans (Frame.rmdirOp _ f)
    · exact Frame.attr s f
  | truncate f c =>
    simp only [Fuse.step]
    split
    · refine (Frame.attr s f).trans ?_
      unfold Fuse.truncateOp
      simp only
      split
      · rename_i t ht
        exact Frame.trans (s' := Fuse.recWrite f (Fuse.attr s f)) (.same rfl rfl rfl) (Frame.set _ ht _)
      · exact .same rfl rfl rfl
    · exact Frame.attr s f

/-! All jobs together. -/

structure Inv (m : Mount C) : Prop where
  nums : ∀ id s, m.jobs id = some s → Nums (load m s)
  apart : ∀ i j s s', i ≠ j → m.jobs i = some s → m.jobs j = some s' → ∀ t ∈ s.maps.map Prod.snd, t ∉ s'.maps.map Prod.snd
  fresh : ∀ t, m.next ≤ t → m.tmp t = none

theorem Inv.init (real : Str → Option (Node C)) : Inv ({ real := real } : Mount C) :=
  ⟨(fun _ _ h => by cases h), (fun _ _ _ _ _ h => by cases h), fun _ _ => rfl⟩

theorem Inv.step {m : Mount C} (h : Inv m) (e : Ev C) : Inv (step m e).1 := by
  cases e with
  | start id =>
    simp only [Mount.step]
    split
    · exact h
    · refine ⟨?_, ?_, h.fresh⟩
      · intro j s hj
        simp only at hj
        split at hj
        · cases hj
          exact ⟨List.nodup_nil, fun t ht => by cases ht⟩
        · exact ⟨(h.nums j s hj).nodup, (h.nums j s hj).lt⟩
      · intro i j s s' hij hi hj t ht ht'
        simp only at hi hj
        split at hi
        · cases hi
          cases ht
        · split at hj
          · cases hj
            cases ht'
          · exact h.apart i j s s' hij hi hj t ht ht'
  | call id o =>
    simp only [Mount.step]
    split
    · exact h
    · rename_i s hs
      have hf := Frame.step m.real (load m s) o
      refine ⟨?_, ?_, hf.fresh h.fresh (h.nums id s hs)⟩
      · intro j s' hj
        simp only at hj
        split at hj
        · cases hj
          have := hf.nums (h.nums id s hs)
          exact ⟨this.nodup, this.lt⟩
        · have := h.nums j s' hj
          exact ⟨this.nodup, fun t ht => Nat.lt_of_lt_of_le (this.lt t ht) hf.next⟩
      · have key : ∀ j s', j ≠ id → m.jobs j = some s' → ∀ t ∈ s'.maps.map Prod.snd, t ∉ (Fuse.step m.real (load m s) o).1.maps.map Prod.snd := by
          intro j s' hj hs' t ht ht'
          rcases hf.maps t ht' with h1 | h1
          · exact h.apart j id s' s hj hs' hs t ht h1
          · have h2 := (h.nums j s' hs').lt t ht
            have h2 : t < m.next := h2
            have h1 : m.next ≤ t := h1.1
            omega
        intro i j s1 s2 hij hi hj t ht ht'
        simp only at hi hj
        split at hi
        · rename_i hii
          cases hi
          rw [if_neg (by omega)] at hj
          exact key j s2 (by omega) hj t ht' ht
        · rename_i hii
          split at hj
          · cases hj
            exact key i s1 hii hi t ht ht'
          · exact h.apart i j s1 s2 hij hi hj t ht ht'
  | finish id keep =>
    simp only [Mount.step]
    split
    · exact h
    · refine ⟨?_, ?_, ?_⟩
      · intro j s hj
        simp only at hj
        split at hj
        · cases hj
        · exact ⟨(h.nums j s hj).nodup, (h.nums j s hj).lt⟩
      · intro i j s s' hij hi hj
        simp only at hi hj
        split at hi
        · cases hi
        · split at hj
          · cases hj
          · exact h.apart i j s s' hij hi hj
      · intro t ht
        simp only
        split
        · rfl
        · exact h.fresh t ht
  | change f n => exact ⟨fun j s hj => ⟨(h.nums j s hj).nodup, (h.nums j s hj).lt⟩, h.apart, h.fresh⟩

theorem Inv.run {m : Mount C} (h : Inv m) (es : List (Ev C)) : Inv (run m es).1 := by
  induction es generalizing m with
  | nil => exact h
  | cons e es ih => exact ih (h.step e)

theorem reachable_inv {m : Mount C} (h : Reachable m) : Inv m := by
  obtain ⟨real, es, rfl⟩ := h
  exact (Inv.init real).run es

theorem run_append (m : Mount C) (a b : List (Ev C)) : run m (a ++ b) = ((run (run m a).1 b).1, (run m a).2 ++ (run (run m a).1 b).2) := by
  induction a generalizing m with
  | nil => rfl
  | cons e a ih =>
    show ((run (step m e).1 (a ++ b)).1, (step m e).2.toList ++ (run (step m e).1 (a ++ b)).2) = _
    rw [ih]
    simp only [run, List.append_assoc]

/-- What the others do, does not concern the job. -/
theorem other {m : Mount C} (h : Inv m) {id : Nat} {s : Fs C} (hs : m.jobs id = some s) {e : Ev C} (he : ∀ o, e ≠ .call id o) (hst : e ≠ .start id) (hf : ∀ keep, e ≠ .finish id keep) :
    (step m e).1.jobs id = some s ∧ (∀ t ∈ s.maps.map Prod.snd, (step m e).1.tmp t = m.tmp t) ∧ m.next ≤ (step m e).1.next ∧ ∀ b, (step m e).2 ≠ some (id, b) := by
  cases e with
  | start j =>
    simp only [Mount.step]
    split
    · exact ⟨hs, fun _ _ => rfl, Nat.le_refl _, fun _ => by simp⟩
    · rename_i hj
      refine ⟨?_, fun _ _ => rfl, Nat.le_refl _, fun _ => by simp⟩
      simp only
      split
      · rename_i hx
        rw [← hx, hs] at hj
        cases hj
      · exact hs
  | call j o =>
    have hj : j ≠ id := fun hx => he o (by rw [hx])
    simp only [Mount.step]
    split
    · exact ⟨hs, fun _ _ => rfl, Nat.le_refl _, fun b hb => by cases hb; exact hj rfl⟩
    · rename_i s' hs'
      have hf := Frame.step m.real (load m s') o
      refine ⟨?_, ?_, hf.next, fun b hb => by cases hb; exact hj rfl⟩
      · simp only
        rw [if_neg (fun hx => hj hx.symm)]
        exact hs
      · intro t ht
        exact hf.tmp t ((h.nums id s hs).lt t ht) (h.apart id j s s' (fun hx => hj hx.symm) hs hs' t ht)
  | finish j keep =>
    have hj : j ≠ id := fun hx => hf keep (by rw [hx])
    simp only [Mount.step]
    split
    · exact ⟨hs, fun _ _ => rfl, Nat.le_refl _, fun _ => by simp⟩
    · rename_i s' hs'
      refine ⟨?_, ?_, Nat.le_refl _, fun _ => by simp⟩
      · simp only
        rw [if_neg (fun hx => hj hx.symm)]
        exact hs
      · intro t ht
        simp only
        rw [if_neg (h.apart id j s s' (fun hx => hj hx.symm) hs hs' t ht)]
  | change f n => exact ⟨hs, fun _ _ => rfl, Nat.le_refl _, fun _ => by simp [Mount.step]⟩

theorem answers_append (id : Nat) (a b : List (Nat × Bool)) : answers id (a ++ b) = answers id a ++ answers id b := by
  induction a with
  | nil => rfl
  | cons x a ih =>
    obtain ⟨j, y⟩ := x
    simp only [List.cons_append, answers]
    split
    · rw [ih]; rfl
    · exact ih

theorem still_tail {m : Mount C} {id : Nat} {e : Ev C} {es : List (Ev C)} (h : Still m id (e :: es)) (hsub : ∀ o ∈ ops id es, o ∈ ops id (e :: es)) : Still (step m e).1 id es := by
  intro a b hab o ho f hf
  have h1 := h (e :: a) b (by rw [hab]; rfl) o (hsub o ho) f hf
  have h2 := h [e] es rfl o (hsub o ho) f hf
  have h1 : (run (step m e).1 a).1.real f = m.real f := h1
  have h2 : (step m e).1.real f = m.real f := h2
  rw [h1, h2]

theorem fuse_run_cons (real : Str → Option (Node C)) (s : Fs C) (o : Op C) (os : List (Op C)) :
    Fuse.run real s (o :: os) = ((Fuse.run real (Fuse.step real s o).1 os).1, (Fuse.step real s o).2 :: (Fuse.run real (Fuse.step real s o).1 os).2) := rfl

/-- Among the others, the job does what it would do alone. -/
theorem alone {id : Nat} {real : Str → Option (Node C)} (es : List (Ev C)) : ∀ {m : Mount C} {s a : Fs C}, Inv m → m.jobs id = some s → Sim (load m s) a → Fresh a → Running id es →
    Still m id es → (∀ o ∈ ops id es, ∀ f ∈ o.names, m.real f = real f) →
    ∃ s', (run m es).1.jobs id = some s' ∧ Sim (load (run m es).1 s') (Fuse.run real a (ops id es)).1 ∧ answers id (run m es).2 = (Fuse.run real a (ops id es)).2 := by
  induction es with
  | nil =>
    intro m s a _ hs h _ _ _ _
    exact ⟨s, hs, h, rfl⟩
  | cons e es ih =>
    intro m s a hi hs h ha hrun hst hreal
    have hrun' : Running id es := fun x hx => hrun x (List.mem_cons_of_mem _ hx)
    by_cases hc : ∃ o, e = .call id o
    · obtain ⟨o, rfl⟩ := hc
      have hops : ops id (.call id o :: es) = o :: ops id es := by simp only [ops, if_true]
      rw [hops] at hreal ⊢
      have hst' := still_tail hst (fun x hx => by rw [hops]; exact List.mem_cons_of_mem _ hx)
      have h1 := h.step hi.fresh ha (r := m.real) (r' := real) o (hreal o List.mem_cons_self)
      have hstep : step m (.call id o) = ({ m with jobs := fun j => if j = id then some (Fuse.step m.real (load m s) o).1 else m.jobs j, next := (Fuse.step m.real (load m s) o).1.next, tmp := (Fuse.step m.real (load m s) o).1.tmp }, some (id, (Fuse.step m.real (load m s) o).2)) := by
        simp only [Mount.step]
        rw [hs]
      have hi' := hi.step (.call id o)
      have ha' := (Frame.step real a o).fresh ha h.num'
      show ∃ s', (run (step m (.call id o)).1 es).1.jobs id = some s' ∧ _
      rw [hstep] at hi' hst' ⊢
      obtain ⟨s', e1, e2, e3⟩ := ih (s := (Fuse.step m.real (load m s) o).1) hi' (by simp only [if_true]) h1.1 ha' hrun' hst' (fun x hx => hreal x (List.mem_cons_of_mem _ hx))
      refine ⟨s', e1, ?_, ?_⟩
      · simp only [run, hstep]
        exact e2
      · rw [fuse_run_cons]
        simp only [run, hstep, Option.toList_some, List.cons_append, List.nil_append, answers, if_true]
        rw [e3, h1.2]
    · have he : ∀ o, e ≠ .call id o := fun o ho => hc ⟨o, ho⟩
      have hops : ops id (e :: es) = ops id es := by
        cases e with
        | call j o =>
          simp only [ops]
          exact if_neg (fun hx => he o (by rw [hx]))
        | _ => rfl
      have hst' := still_tail hst (fun x hx => by rw [hops]; exact hx)
      rw [hops] at hreal ⊢
      obtain ⟨h1, h2⟩ := hrun e List.mem_cons_self
      obtain ⟨f1, f2, f3, f4⟩ := other hi hs he h1 h2
      have hsim : Sim (load (step m e).1 s) a := by
        refine ⟨h.maps.frame f2 (fun _ _ => rfl), h.dirs, h.reads, h.writes, h.unlinks, ⟨h.num.nodup, fun t ht => ?_⟩, h.num'⟩
        have : t < m.next := h.num.lt t ht
        show t < (step m e).1.next
        omega
      have hreal' : ∀ o ∈ ops id es, ∀ f ∈ o.names, (step m e).1.real f = real f := by
        intro o ho f hf
        rw [← hreal o ho f hf]
        exact hst [e] es rfl o (by rw [hops]; exact ho) f hf
      obtain ⟨s', e1, e2, e3⟩ := ih (hi.step e) f1 hsim ha hrun' hst' hreal'
      refine ⟨s', e1, e2, ?_⟩
      simp only [run]
      rw [answers_append, e3]
      have : answers id (step m e).2.toList = [] := by
        generalize (step m e).2 = x at f4
        cases x with
        | none => rfl
        | some p =>
          obtain ⟨j, b⟩ := p
          simp only [Option.toList_some, answers]
          split
          · rename_i hx
            exact absurd (by rw [hx]) (f4 b)
          · rfl
      rw [this]
      rfl

theorem settle_sim {s a : Fs C} {ms ns : List (Str × Nat)} (h : RL s.tmp a.tmp ms ns) (real : Str → Option (Node C)) : Fuse.settle s ms real = Fuse.settle a ns real := by
  generalize hst : s.tmp = st at h
  generalize hat : a.tmp = at' at h
  induction h generalizing real with
  | nil => rfl
  | cons h1 _ ih =>
    simp only [Fuse.settle]
    rw [hst, hat, h1]
    exact ih _

end Tup.Mount
