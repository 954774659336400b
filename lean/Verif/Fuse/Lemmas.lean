import Verif.Fuse.Spec

/- Lemmas for C22: tup's bookkeeping agrees with the private file system. -/

namespace Tup.Fuse

open Tup (Str)

variable {C : Type}

/-! ### Mappings -/

theorem findMap_some {f : Str} {t : Nat} : ∀ {ms : List (Str × Nat)}, findMap f ms = some t → (f, t) ∈ ms
  | [], h => by cases h
  | m :: ms, h => by
    unfold findMap at h
    split at h
    · rename_i e
      obtain ⟨a, b⟩ := m
      simp only at e h
      injection h with h
      subst e; subst h
      exact List.mem_cons_self
    · exact List.mem_cons_of_mem _ (findMap_some h)

theorem findMap_none {f : Str} : ∀ {ms : List (Str × Nat)}, findMap f ms = none ↔ f ∉ ms.map Prod.fst
  | [] => by simp [findMap]
  | m :: ms => by
    unfold findMap
    split
    · rename_i e; simp [e]
    · rename_i e
      rw [findMap_none]
      simp only [List.map_cons, List.mem_cons, not_or]
      exact ⟨fun h => ⟨fun h' => e h'.symm, h⟩, fun h => h.2⟩

theorem findMap_append (f : Str) (ms ns : List (Str × Nat)) : findMap f (ms ++ ns) = (findMap f ms).or (findMap f ns) := by
  induction ms with
  | nil => rfl
  | cons m ms ih =>
    simp only [List.cons_append]
    rw [findMap, findMap]
    split
    · rfl
    · exact ih

theorem findMap_iff {ms : List (Str × Nat)} (nd : (ms.map Prod.fst).Nodup) {f : Str} {t : Nat} : findMap f ms = some t ↔ (f, t) ∈ ms := by
  refine ⟨findMap_some, fun h => ?_⟩
  induction ms with
  | nil => cases h
  | cons m ms ih =>
    rw [List.map_cons, List.nodup_cons] at nd
    unfold findMap
    split
    · rename_i e
      rcases List.mem_cons.mp h with h | h
      · rw [← h]
      · exact absurd (List.mem_map.mpr ⟨_, h, e.symm⟩) nd.1
    · rename_i e
      rcases List.mem_cons.mp h with h | h
      · exact absurd (by rw [← h]) e
      · exact ih nd.2 h

theorem delMap_sublist (f : Str) : ∀ ms : List (Str × Nat), (delMap f ms).Sublist ms
  | [] => List.Sublist.refl _
  | m :: ms => by
    unfold delMap
    split
    · exact List.sublist_cons_self _ _
    · exact (delMap_sublist f ms).cons_cons _

theorem findMap_delMap {ms : List (Str × Nat)} (nd : (ms.map Prod.fst).Nodup) (f x : Str) :
    findMap x (delMap f ms) = if x = f then none else findMap x ms := by
  induction ms with
  | nil => simp [delMap, findMap]
  | cons m ms ih =>
    rw [List.map_cons, List.nodup_cons] at nd
    unfold delMap
    by_cases e : m.1 = f
    · rw [if_pos e]
      by_cases h : x = f
      · rw [if_pos h, h, ← e]
        exact findMap_none.mpr nd.1
      · rw [if_neg h]
        conv => rhs; unfold findMap
        rw [if_neg (fun h' => h (h'.symm.trans e))]
    · rw [if_neg e]
      unfold findMap
      by_cases h : m.1 = x
      · rw [if_pos h, if_neg (fun h' => e (h.trans h'))]
        simp [h]
      · rw [if_neg h, ih nd.2]
        simp [h]

theorem renameMap_snd (f g : Str) : ∀ ms : List (Str × Nat), (renameMap f g ms).map Prod.snd = ms.map Prod.snd
  | [] => rfl
  | m :: ms => by
    unfold renameMap
    split
    · rfl
    · simp only [List.map_cons, renameMap_snd f g ms]

theorem renameMap_fst {f g : Str} : ∀ {ms : List (Str × Nat)}, (ms.map Prod.fst).Nodup →
    (renameMap f g ms).map Prod.fst = (ms.map Prod.fst).map fun x => if x = f then g else x
  | [], _ => rfl
  | m :: ms, nd => by
    rw [List.map_cons, List.nodup_cons] at nd
    unfold renameMap
    split
    · rename_i e
      simp only [List.map_cons, if_pos e]
      congr 1
      have h : ∀ x ∈ ms.map Prod.fst, (if x = f then g else x) = x := fun x hx => if_neg (fun h => nd.1 (by rw [e, ← h]; exact hx))
      exact (List.map_congr_left h).symm ▸ (List.map_id' _).symm
    · rename_i e
      simp only [List.map_cons, if_neg e, renameMap_fst nd.2]

theorem findMap_renameMap {ms : List (Str × Nat)} (nd : (ms.map Prod.fst).Nodup) {f g : Str} (ng : g ∉ ms.map Prod.fst) (hf : f ∈ ms.map Prod.fst)
    (x : Str) : findMap x (renameMap f g ms) = if x = g then findMap f ms else if x = f then none else findMap x ms := by
  induction ms with
  | nil => simp at hf
  | cons m ms ih =>
    rw [List.map_cons, List.nodup_cons] at nd
    rw [List.map_cons, List.mem_cons, not_or] at ng
    unfold renameMap
    by_cases e : m.1 = f
    · rw [if_pos e]
      unfold findMap
      simp only
      by_cases h : x = g
      · subst h
        rw [if_pos rfl, if_pos rfl, if_pos e]
      · rw [if_neg (fun h' => h h'.symm), if_neg h]
        by_cases h2 : x = f
        · rw [if_pos h2, h2, ← e]
          exact findMap_none.mpr nd.1
        · rw [if_neg h2, if_neg (fun h' => h2 (h'.symm.trans e))]
    · rw [if_neg e]
      have hf' : f ∈ ms.map Prod.fst := by
        rcases List.mem_cons.mp hf with h | h
        · exact absurd h.symm e
        · exact h
      unfold findMap
      by_cases h : m.1 = x
      · rw [if_pos h, if_neg (fun h' => ng.1 (h'.symm.trans h.symm)), if_neg (fun h' => e (h.trans h'))]
        simp [h]
      · rw [if_neg h, ih nd.2 ng.2 hf', if_neg e]
        simp [h]

theorem below_iff (d f : Str) : below d f = true ↔ Inside d f := by
  unfold below Inside
  rw [List.isPrefixOf_iff_prefix]
  constructor
  · rintro ⟨t, h⟩
    exact ⟨t, by rw [← h]; simp⟩
  · rintro ⟨t, h⟩
    exact ⟨t, by rw [h]; simp⟩

theorem mem_keep {l : List Str} {x f : Str} : x ∈ l.filter (fun u => decide (u ≠ f)) ↔ x ∈ l ∧ x ≠ f := by
  rw [List.mem_filter]; simp

/-! ### Facts about every sequence of operations -/

/-- The mappings are in order, and each of them is recorded as written. -/
structure Inv (s : Fs C) : Prop where
  names : (s.maps.map Prod.fst).Nodup
  tmps : (s.maps.map Prod.snd).Nodup
  next : ∀ t ∈ s.maps.map Prod.snd, t < s.next
  present : ∀ t ∈ s.maps.map Prod.snd, ∃ c, s.tmp t = some c
  logged : ∀ f ∈ s.maps.map Prod.fst, f ∈ s.writes ∧ f ∉ s.unlinks

theorem Inv.read {s : Fs C} (h : Inv s) (f : Str) : Inv (recRead f s) := ⟨h.names, h.tmps, h.next, h.present, h.logged⟩

theorem Inv.attr {s : Fs C} (h : Inv s) (f : Str) : Inv (attr s f) := by
  unfold Fuse.attr
  split
  · exact h
  · exact h.read f

theorem Inv.write {s : Fs C} (h : Inv s) (f : Str) : Inv (recWrite f s) :=
  ⟨h.names, h.tmps, h.next, h.present, fun x hx => ⟨List.mem_append_left _ (h.logged x hx).1, fun hu => (h.logged x hx).2 (mem_keep.mp hu).1⟩⟩

theorem Inv.setTmp {s : Fs C} (h : Inv s) (t : Nat) (c : C) : Inv (setTmp t (some c) s) := by
  refine ⟨h.names, h.tmps, h.next, fun u hu => ?_, h.logged⟩
  simp only [Fuse.setTmp]
  split
  · exact ⟨c, rfl⟩
  · exact h.present u hu

theorem Inv.addMap {s : Fs C} (h : Inv s) {f : Str} (hf : findMap f s.maps = none) (c : C) : Inv (Fuse.setTmp s.next (some c) (addMap f s)) := by
  have hn : f ∉ s.maps.map Prod.fst := findMap_none.mp hf
  refine ⟨?_, ?_, ?_, ?_, ?_⟩
  · simp only [Fuse.setTmp, Fuse.addMap, recWrite, List.map_append, List.map_cons, List.map_nil]
    rw [List.nodup_append]
    refine ⟨h.names, by simp, fun a ha b hb => ?_⟩
    rw [List.mem_singleton] at hb
    subst hb
    exact fun e => hn (e ▸ ha)
  · simp only [Fuse.setTmp, Fuse.addMap, recWrite, List.map_append, List.map_cons, List.map_nil]
    rw [List.nodup_append]
    refine ⟨h.tmps, by simp, fun a ha b hb => ?_⟩
    rw [List.mem_singleton] at hb
    have := h.next a ha
    omega
  · intro t ht
    simp only [Fuse.setTmp, Fuse.addMap, recWrite, List.map_append, List.map_cons, List.map_nil, List.mem_append, List.mem_singleton] at ht ⊢
    rcases ht with ht | ht
    · have := h.next t ht; omega
    · omega
  · intro t ht
    simp only [Fuse.setTmp, Fuse.addMap, recWrite, List.map_append, List.map_cons, List.map_nil, List.mem_append, List.mem_singleton] at ht ⊢
    split
    · exact ⟨c, rfl⟩
    · rename_i hne
      rcases ht with ht | ht
      · exact h.present t ht
      · exact absurd ht hne
  · intro x hx
    simp only [Fuse.setTmp, Fuse.addMap, recWrite, List.map_append, List.map_cons, List.map_nil, List.mem_append, List.mem_singleton, mem_keep] at hx ⊢
    rcases hx with hx | hx
    · exact ⟨Or.inl (h.logged x hx).1, fun hu => (h.logged x hx).2 hu.1⟩
    · exact ⟨Or.inr hx, fun hu => hu.2 hx⟩

theorem delMap_tmp {f : Str} {t : Nat} : ∀ {ms : List (Str × Nat)}, (ms.map Prod.snd).Nodup → findMap f ms = some t →
    t ∉ (delMap f ms).map Prod.snd
  | [], _, h => by cases h
  | m :: ms, nd, h => by
    rw [List.map_cons, List.nodup_cons] at nd
    rw [findMap] at h
    rw [delMap]
    split at h
    · rename_i e
      rw [if_pos e]
      injection h with h
      exact h ▸ nd.1
    · rename_i e
      rw [if_neg e, List.map_cons, List.mem_cons, not_or]
      exact ⟨fun e2 => nd.1 (e2 ▸ List.mem_map.mpr ⟨_, findMap_some h, rfl⟩), delMap_tmp nd.2 h⟩

theorem Inv.delMap {s : Fs C} (h : Inv s) {f : Str} {t : Nat} (hf : findMap f s.maps = some t) :
    Inv { Fuse.setTmp t none s with maps := delMap f s.maps } := by
  have hs := delMap_sublist f s.maps
  refine ⟨h.names.sublist (hs.map _), h.tmps.sublist (hs.map _), fun t ht => h.next t ((hs.map _).subset ht), fun u hu => ?_,
    fun x hx => h.logged x ((hs.map _).subset hx)⟩
  simp only [Fuse.setTmp]
  split
  · rename_i e
    exact absurd (e ▸ hu) (delMap_tmp h.tmps hf)
  · exact h.present u ((hs.map _).subset hu)

theorem not_mem_delMap {s : Fs C} (h : Inv s) (f : Str) : f ∉ (delMap f s.maps).map Prod.fst := by
  rw [← findMap_none, findMap_delMap h.names, if_pos rfl]

theorem Inv.unlink {s : Fs C} (h : Inv s) {f : Str} (hf : f ∉ s.maps.map Prod.fst) : Inv (recUnlink f s) :=
  ⟨h.names, h.tmps, h.next, h.present, fun x hx => ⟨(h.logged x hx).1, fun hu => by
    simp only [recUnlink, List.mem_append, List.mem_singleton] at hu
    rcases hu with hu | hu
    · exact (h.logged x hx).2 hu
    · exact hf (hu ▸ hx)⟩⟩

theorem Inv.dropTarget {s : Fs C} (h : Inv s) (g : Str) : Inv (dropTarget g s) ∧ g ∉ (dropTarget g s).maps.map Prod.fst := by
  unfold Fuse.dropTarget
  split
  · rename_i t e
    exact ⟨h.delMap e, not_mem_delMap h g⟩
  · rename_i e
    exact ⟨h, findMap_none.mp e⟩

theorem Inv.rename {s : Fs C} (h : Inv s) {f g : Str} (hg : g ∉ s.maps.map Prod.fst) :
    Inv (recRename f g { s with maps := renameMap f g s.maps }) := by
  refine ⟨?_, ?_, ?_, ?_, ?_⟩
  · simp only [recRename, renameMap_fst h.names]
    have : ∀ l : List Str, l.Nodup → g ∉ l → (l.map fun x => if x = f then g else x).Nodup := by
      intro l
      induction l with
      | nil => intro _ _; exact List.nodup_nil
      | cons a l ih =>
        intro nd hn
        rw [List.nodup_cons] at nd
        rw [List.mem_cons, not_or] at hn
        rw [List.map_cons, List.nodup_cons]
        refine ⟨fun hm => ?_, ih nd.2 hn.2⟩
        obtain ⟨b, hb, e⟩ := List.mem_map.mp hm
        by_cases ha : a = f
        · rw [if_pos ha] at e
          by_cases hbf : b = f
          · exact nd.1 (ha ▸ hbf ▸ hb)
          · rw [if_neg hbf] at e
            exact hn.2 (e ▸ hb)
        · rw [if_neg ha] at e
          by_cases hbf : b = f
          · rw [if_pos hbf] at e
            exact hn.1 e
          · rw [if_neg hbf] at e
            exact nd.1 (e ▸ hb)
    exact this _ h.names hg
  · simpa only [recRename, renameMap_snd] using h.tmps
  · simpa only [recRename, renameMap_snd] using h.next
  · simpa only [recRename, renameMap_snd] using h.present
  · intro x hx
    simp only [recRename, renameMap_fst h.names] at hx ⊢
    obtain ⟨y, hy, e⟩ := List.mem_map.mp hx
    refine ⟨List.mem_map.mpr ⟨y, (h.logged y hy).1, e⟩, fun hu => ?_⟩
    obtain ⟨h1, h2⟩ := mem_keep.mp hu
    by_cases hyf : y = f
    · rw [if_pos hyf] at e; exact h2 e.symm
    · rw [if_neg hyf] at e; exact (h.logged y hy).2 (e ▸ h1)

theorem attr_maps (s : Fs C) (f : Str) : (attr s f).maps = s.maps := by unfold attr; split <;> rfl
theorem attr_tmp (s : Fs C) (f : Str) : (attr s f).tmp = s.tmp := by unfold attr; split <;> rfl
theorem attr_next (s : Fs C) (f : Str) : (attr s f).next = s.next := by unfold attr; split <;> rfl
theorem attr_dirs (s : Fs C) (f : Str) : (attr s f).dirs = s.dirs := by unfold attr; split <;> rfl
theorem attr_writes (s : Fs C) (f : Str) : (attr s f).writes = s.writes := by unfold attr; split <;> rfl
theorem attr_unlinks (s : Fs C) (f : Str) : (attr s f).unlinks = s.unlinks := by unfold attr; split <;> rfl

theorem lookup_none {real : Str → Option (Node C)} {s : Fs C} {f : Str} (h : lookup real s f = none) :
    f ∉ s.dirs ∧ ((∃ t, findMap f s.maps = some t ∧ s.tmp t = none) ∨ (findMap f s.maps = none ∧ real f = none)) := by
  unfold lookup at h
  split at h
  · cases h
  · rename_i hd
    refine ⟨hd, ?_⟩
    split at h
    · rename_i t e
      split at h
      · cases h
      · rename_i e2; exact Or.inl ⟨t, e, e2⟩
    · rename_i e; exact Or.inr ⟨e, h⟩

end Tup.Fuse
