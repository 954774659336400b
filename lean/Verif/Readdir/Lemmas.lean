import Verif.Readdir.Spec
import Verif.Fuse.Sim

/-! Lemmas for C80. -/

namespace Tup.Readdir

open Tup (Str)
open Tup.Fuse

variable {C : Type}

theorem child_iff {d f n : Str} : child d f = some n ↔ f = inDir d n ∧ '/' ∉ n := by
  unfold child inDir
  by_cases h : below d f = true
  · rw [if_pos h]
    obtain ⟨rest, rfl⟩ := (below_iff d f).1 h
    have : (d ++ '/' :: rest).drop (d.length + 1) = rest := by
      rw [← List.drop_drop, List.drop_left]; rfl
    rw [this]
    by_cases hs : '/' ∈ rest
    · rw [if_pos hs]
      constructor
      · intro h; cases h
      · rintro ⟨h1, h2⟩
        have := List.append_cancel_left h1
        cases this
        exact absurd hs h2
    · rw [if_neg hs]
      constructor
      · intro h; cases h; exact ⟨rfl, hs⟩
      · rintro ⟨h1, _⟩
        have := List.append_cancel_left h1
        cases this; rfl
  · rw [if_neg h]
    constructor
    · intro h; cases h
    · rintro ⟨h1, _⟩
      exact absurd ((below_iff d f).2 ⟨n, h1⟩) h

theorem inDir_inj {d n m : Str} (h : inDir d n = inDir d m) : n = m := by
  have := List.append_cancel_left h
  cases this; rfl

theorem listMaps_eq {s : Fs C} {d : Str} : ∀ {ms : List (Str × Nat)}, (∀ t ∈ ms.map Prod.snd, ∃ c, s.tmp t = some c) →
    listMaps s d ms = some ((ms.map Prod.fst).filterMap (child d)) := by
  intro ms
  induction ms with
  | nil => intro _; rfl
  | cons m ms ih =>
    intro h
    have h' := ih fun t ht => h t (List.mem_cons_of_mem _ ht)
    rw [listMaps, h', List.map_cons, List.filterMap_cons]
    cases child d m.1 with
    | none => rfl
    | some n =>
      obtain ⟨c, hc⟩ := h m.2 List.mem_cons_self
      simp only [hc]

theorem listDirs_eq {d : Str} {ts : List Str} : listDirs d ts = ts.filterMap (child d) := by
  induction ts with
  | nil => rfl
  | cons t ts ih =>
    rw [listDirs, ih, List.filterMap_cons]
    cases child d t <;> rfl

theorem mem_children {d n : Str} {l : List Str} : n ∈ l.filterMap (child d) ↔ inDir d n ∈ l ∧ '/' ∉ n := by
  rw [List.mem_filterMap]
  constructor
  · rintro ⟨f, h1, h2⟩
    obtain ⟨h3, h4⟩ := child_iff.1 h2
    exact ⟨h3 ▸ h1, h4⟩
  · rintro ⟨h1, h2⟩
    exact ⟨_, h1, child_iff.2 ⟨rfl, h2⟩⟩

theorem children_nodup {d : Str} {l : List Str} (h : l.Nodup) : (l.filterMap (child d)).Nodup := by
  induction l with
  | nil => exact List.nodup_nil
  | cons f l ih =>
    rw [List.nodup_cons] at h
    rw [List.filterMap_cons]
    cases hc : child d f with
    | none => exact ih h.2
    | some n =>
      refine List.nodup_cons.2 ⟨fun hm => ?_, ih h.2⟩
      rw [mem_children] at hm
      rw [(child_iff.1 hc).1] at h
      exact h.1 hm.1

/-- The command makes directories only where there is nothing. -/
theorem dirs_new {real : Str → Option (Node C)} {r r' : Own C} {os : List (Op C)} {bs : List Bool} (hr : Runs real r os bs r') :
    (∀ d, r.dirs d → real d = none) → ∀ d, r'.dirs d → real d = none := by
  have none_real : ∀ {r : Own C} {f : Str}, Sees real r f none → real f = none := by
    intro r f h
    generalize hn : (none : Option (Node C)) = n at h
    cases h with
    | dir _ => cases hn
    | file _ _ _ => cases hn
    | other _ _ => rfl
  induction hr with
  | nil r => exact id
  | cons r o b r₁ os bs r₂ _ hd _ ih =>
    intro h
    refine ih ?_
    have hset : ∀ (f : Str) (c : Option C) (r : Own C), (r.set f c).dirs = r.dirs := fun _ _ _ => rfl
    cases hd with
    | mkdir f hs =>
      intro d hd
      simp only [Own.setDir] at hd
      by_cases e : d = f
      · rw [e]; exact none_real hs
      · rw [if_neg e] at hd; exact h d hd
    | renameDir f g _ _ _ hs _ =>
      intro d hd
      simp only [Own.setDir] at hd
      by_cases e : d = g
      · rw [e]; exact none_real hs
      · rw [if_neg e] at hd
        by_cases e' : d = f
        · rw [if_pos e'] at hd; exact hd.elim
        · rw [if_neg e'] at hd; exact h d hd
    | rmdir f _ _ =>
      intro d hd
      simp only [Own.setDir] at hd
      by_cases e : d = f
      · rw [if_pos e] at hd; exact hd.elim
      · rw [if_neg e] at hd; exact h d hd
    | _ => exact h

theorem agree_read {s : Fs C} {r : Own C} (h : Agree s r) (d : Str) : Agree (recRead d s) r :=
  ⟨h.inv.read d, h.files, h.dirs, h.once, h.apart, h.writes⟩

/-- The list, if all mappings have their files. -/
theorem readdir_eq {ents : Str → Option (List Str)} {s : Fs C} {r : Own C} (h : Agree s r) (d : Str) :
    readdir ents s d =
      (if d ∈ s.dirs then s else recRead d s,
        some ((s.maps.map Prod.fst).filterMap (child d) ++ s.dirs.filterMap (child d) ++
          if d ∈ s.dirs then [] else actual ents d)) := by
  unfold readdir
  rw [listMaps_eq h.inv.present]
  simp only
  rw [listDirs_eq]
  by_cases hd : d ∈ s.dirs
  · rw [if_pos hd, if_pos hd, if_pos hd, List.append_nil]
  · rw [if_neg hd, if_neg hd, if_neg hd]

theorem mem_actual {real : Str → Option (Node C)} {ents : Str → Option (List Str)} (ht : Tree real ents) {d n : Str}
    (hd : real d = some .dir) (hn : Plain n) : n ∈ actual ents d ↔ real (inDir d n) ≠ none := by
  obtain ⟨l, h1, _, h2⟩ := ht.lists d hd
  unfold actual
  rw [h1]
  simp only [List.mem_filter, decide_eq_true_eq]
  rw [h2 n hn]
  exact ⟨fun h => h.1, fun h => ⟨h, hn.noTup⟩⟩

end Tup.Readdir
