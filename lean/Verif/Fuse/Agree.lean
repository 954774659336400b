import Verif.Fuse.Lemmas

/- Lemmas for C22: each operation does the same to tup's bookkeeping and to the private file system. -/

namespace Tup.Fuse

open Tup (Str)

variable {C : Type}

/-- The bookkeeping describes what the command has made. -/
structure Agree (s : Fs C) (r : Own C) : Prop where
  inv : Inv s
  files : ∀ f, r.files f = (findMap f s.maps).bind s.tmp
  dirs : ∀ f, r.dirs f ↔ f ∈ s.dirs
  once : s.dirs.Nodup
  apart : ∀ f, f ∈ s.dirs → findMap f s.maps = none
  writes : ∀ f, f ∈ s.writes → f ∉ s.unlinks → f ∈ s.maps.map Prod.fst

theorem Agree.init : Agree ({} : Fs C) {} := by
  have no : ∀ {α : Type} (x : α) {p : Prop}, x ∈ ([] : List α) → p := fun x p h => by cases h
  exact ⟨⟨List.nodup_nil, List.nodup_nil, fun t h => no t h, fun t h => no t h, fun f h => no f h⟩, fun _ => rfl,
    fun f => ⟨False.elim, fun h => no f h⟩, List.nodup_nil, fun f h => no f h, fun f h => no f h⟩

theorem Agree.attr {s : Fs C} {r : Own C} (h : Agree s r) (f : Str) : Agree (attr s f) r := by
  refine ⟨h.inv.attr f, ?_, ?_, ?_, ?_, ?_⟩
  · rw [attr_maps, attr_tmp]; exact h.files
  · rw [attr_dirs]; exact h.dirs
  · rw [attr_dirs]; exact h.once
  · rw [attr_dirs, attr_maps]; exact h.apart
  · rw [attr_writes, attr_unlinks, attr_maps]; exact h.writes

theorem Agree.present {s : Fs C} {r : Own C} (h : Agree s r) {f : Str} {t : Nat} (hf : findMap f s.maps = some t) : ∃ c, s.tmp t = some c :=
  h.inv.present t (List.mem_map.mpr ⟨_, findMap_some hf, rfl⟩)

theorem Agree.files_none {s : Fs C} {r : Own C} (h : Agree s r) (f : Str) : r.files f = none ↔ findMap f s.maps = none := by
  rw [h.files f]
  cases e : findMap f s.maps with
  | none => simp
  | some t =>
    obtain ⟨c, hc⟩ := h.present e
    simp [hc]

theorem Agree.made {s : Fs C} {r : Own C} (h : Agree s r) (f : Str) : r.made f ↔ f ∈ s.dirs ∨ findMap f s.maps ≠ none := by
  unfold Own.made
  rw [h.dirs, Ne, h.files_none]

theorem Agree.sees {s : Fs C} {r : Own C} (h : Agree s r) {real : Str → Option (Node C)} {f : Str} {n : Option (Node C)} :
    Sees real r f n ↔ lookup real s f = n := by
  constructor
  · intro hs
    unfold lookup
    cases hs with
    | dir hd => rw [if_pos ((h.dirs f).mp hd)]
    | file c hd hc =>
      rw [if_neg (fun hx => hd ((h.dirs f).mpr hx))]
      rw [h.files f] at hc
      cases e : findMap f s.maps with
      | none => rw [e] at hc; cases hc
      | some t =>
        rw [e] at hc
        simp only [Option.bind_some] at hc
        simp only [hc]
    | other hd hc =>
      rw [if_neg (fun hx => hd ((h.dirs f).mpr hx)), (h.files_none f).mp hc]
  · intro hl
    unfold lookup at hl
    split at hl
    · rename_i hd
      exact hl ▸ .dir ((h.dirs f).mpr hd)
    · rename_i hd
      have hd' : ¬ r.dirs f := fun hx => hd ((h.dirs f).mp hx)
      split at hl
      · rename_i t e
        obtain ⟨c, hc⟩ := h.present e
        rw [hc] at hl
        subst hl
        exact .file c hd' (by rw [h.files f, e]; exact hc)
      · rename_i e
        subst hl
        exact .other hd' ((h.files_none f).mpr e)

/-- Two mappings don't share a file. -/
theorem tmp_ne {s : Fs C} (h : Inv s) {f g : Str} {t u : Nat} (hf : findMap f s.maps = some t) (hg : findMap g s.maps = some u) (ne : f ≠ g) :
    t ≠ u := by
  have key : ∀ ms : List (Str × Nat), (ms.map Prod.snd).Nodup → (f, t) ∈ ms → (g, t) ∈ ms → f = g := by
    intro ms
    induction ms with
    | nil => intro _ h; cases h
    | cons m ms ih =>
      intro nd h1 h2
      rw [List.map_cons, List.nodup_cons] at nd
      rcases List.mem_cons.mp h1 with h1 | h1 <;> rcases List.mem_cons.mp h2 with h2 | h2
      · exact congrArg Prod.fst (h1.trans h2.symm)
      · exact absurd (List.mem_map.mpr ⟨_, h2, by rw [← h1]⟩) nd.1
      · exact absurd (List.mem_map.mpr ⟨_, h1, by rw [← h2]⟩) nd.1
      · exact ih nd.2 h1 h2
  intro e
  subst e
  exact ne (key _ h.tmps (findMap_some hf) (findMap_some hg))

theorem find_new {s : Fs C} {f : Str} (hf : findMap f s.maps = none) (x : Str) :
    findMap x (s.maps ++ [(f, s.next)]) = if x = f then some s.next else findMap x s.maps := by
  rw [findMap_append]
  by_cases h : x = f
  · rw [if_pos h, h, hf]; simp [findMap]
  · rw [if_neg h]
    have : findMap x [(f, s.next)] = none := by
      unfold findMap
      rw [if_neg (fun h' => h h'.symm)]
      rfl
    rw [this, Option.or_none]

theorem Agree.create {s : Fs C} {r : Own C} (h : Agree s r) {f : Str} (c : C) (hf : findMap f s.maps = none) (hd : f ∉ s.dirs) :
    Agree (create f c s) (r.set f (some c)) := by
  have hi : Inv (Fuse.create f c s) := by
    have := (h.inv.addMap hf c).write f
    exact this
  refine ⟨hi, fun x => ?_, h.dirs, h.once, fun x hx => ?_, fun x hw hu => ?_⟩
  · show (if x = f then some c else r.files x) = (findMap x (s.maps ++ [(f, s.next)])).bind fun i => if i = s.next then some c else s.tmp i
    rw [find_new hf]
    by_cases e : x = f
    · simp [e]
    · rw [if_neg e, if_neg e, h.files x]
      cases e2 : findMap x s.maps with
      | none => rfl
      | some t =>
        have := h.inv.next t (List.mem_map.mpr ⟨_, findMap_some e2, rfl⟩)
        simp only [Option.bind_some]
        rw [if_neg (by omega)]
  · show findMap x (s.maps ++ [(f, s.next)]) = none
    have hxf : x ≠ f := fun e => hd (e ▸ hx)
    rw [find_new hf, if_neg hxf]
    exact h.apart x hx
  · show x ∈ (s.maps ++ [(f, s.next)]).map Prod.fst
    simp only [Fuse.create, Fuse.setTmp, Fuse.addMap, recWrite, List.mem_append, List.mem_singleton, mem_keep, not_and] at hw hu
    simp only [List.map_append, List.map_cons, List.map_nil, List.mem_append, List.mem_singleton]
    by_cases e : x = f
    · exact Or.inr e
    · exact Or.inl (h.writes x (by grind) (by grind))

theorem Agree.change {s : Fs C} {r : Own C} (h : Agree s r) {f : Str} {t : Nat} (c : C) (hf : findMap f s.maps = some t) :
    Agree (recWrite f (setTmp t (some c) s)) (r.set f (some c)) := by
  have hm : f ∈ s.maps.map Prod.fst := List.mem_map.mpr ⟨_, findMap_some hf, rfl⟩
  refine ⟨(h.inv.setTmp t c).write f, fun x => ?_, h.dirs, h.once, h.apart, fun x hw hu => ?_⟩
  · show (if x = f then some c else r.files x) = (findMap x s.maps).bind fun i => if i = t then some c else s.tmp i
    by_cases e : x = f
    · rw [if_pos e, e, hf]; simp
    · rw [if_neg e, h.files x]
      cases e2 : findMap x s.maps with
      | none => rfl
      | some u =>
        simp only [Option.bind_some]
        rw [if_neg (tmp_ne h.inv e2 hf e)]
  · simp only [setTmp, recWrite, List.mem_append, List.mem_singleton, mem_keep, not_and] at hw hu
    by_cases e : x = f
    · exact e ▸ hm
    · exact h.writes x (by grind) (by grind)

/-- The mapping of a file and the file are removed. -/
theorem files_del {s : Fs C} {r : Own C} (h : Agree s r) {f : Str} {t : Nat} (hf : findMap f s.maps = some t) (x : Str) :
    (r.set f none).files x = (findMap x (delMap f s.maps)).bind fun i => if i = t then none else s.tmp i := by
  rw [findMap_delMap h.inv.names]
  show (if x = f then none else r.files x) = _
  by_cases e : x = f
  · rw [if_pos e, if_pos e]; rfl
  · rw [if_neg e, if_neg e, h.files x]
    cases e2 : findMap x s.maps with
    | none => rfl
    | some u =>
      simp only [Option.bind_some]
      rw [if_neg (tmp_ne h.inv e2 hf e)]

theorem mem_delMap {s : Fs C} (h : Inv s) {f x : Str} (hx : x ∈ s.maps.map Prod.fst) (ne : x ≠ f) : x ∈ (delMap f s.maps).map Prod.fst := by
  apply Classical.byContradiction
  intro hn
  rw [← findMap_none, findMap_delMap h.names, if_neg ne] at hn
  exact findMap_none.mp hn hx

theorem Agree.unlink {s : Fs C} {r : Own C} (h : Agree s r) {f : Str} {t : Nat} (hf : findMap f s.maps = some t) :
    Agree (recUnlink f { setTmp t none s with maps := delMap f s.maps }) (r.set f none) := by
  refine ⟨(h.inv.delMap hf).unlink (not_mem_delMap h.inv f), files_del h hf, h.dirs, h.once, fun x hx => ?_, fun x hw hu => ?_⟩
  · show findMap x (delMap f s.maps) = none
    rw [findMap_delMap h.inv.names]
    split
    · rfl
    · exact h.apart x hx
  · simp only [recUnlink, setTmp, List.mem_append, List.mem_singleton, not_or] at hw hu
    exact mem_delMap h.inv (h.writes x hw hu.1) hu.2

/-- Like `Agree`, but one name may be recorded as written though there is no such file. -/
structure Nearly (g : Str) (s : Fs C) (r : Own C) : Prop where
  inv : Inv s
  files : ∀ f, r.files f = (findMap f s.maps).bind s.tmp
  dirs : ∀ f, r.dirs f ↔ f ∈ s.dirs
  once : s.dirs.Nodup
  apart : ∀ f, f ∈ s.dirs → findMap f s.maps = none
  writes : ∀ f, f ∈ s.writes → f ∉ s.unlinks → f ∈ s.maps.map Prod.fst ∨ f = g
  gone : g ∉ s.maps.map Prod.fst

theorem set_none_of {r : Own C} {g : Str} (hg : r.files g = none) : r.set g none = r := by
  have : (fun x => if x = g then none else r.files x) = r.files := by
    funext x
    split
    · rename_i e; rw [e, hg]
    · rfl
  show ({ files := fun x => if x = g then none else r.files x, dirs := r.dirs } : Own C) = r
  rw [this]

theorem Agree.drop {s : Fs C} {r : Own C} (h : Agree s r) (g : Str) : Nearly g (dropTarget g s) (r.set g none) := by
  have hi := h.inv.dropTarget g
  refine ⟨hi.1, ?_, ?_, ?_, ?_, ?_, hi.2⟩ <;> unfold dropTarget
  · split
    · rename_i t e; exact files_del h e
    · rename_i e
      rw [set_none_of ((h.files_none g).mpr e)]
      exact h.files
  · split <;> exact h.dirs
  · split <;> exact h.once
  · split
    · intro x hx
      show findMap x (delMap g s.maps) = none
      rw [findMap_delMap h.inv.names]
      split
      · rfl
      · exact h.apart x hx
    · exact h.apart
  · split
    · intro x hw hu
      by_cases e : x = g
      · exact Or.inr e
      · exact Or.inl (mem_delMap h.inv (h.writes x hw hu) e)
    · exact fun x hw hu => Or.inl (h.writes x hw hu)

theorem Nearly.rename {s : Fs C} {r : Own C} {f g : Str} (h : Nearly g s r) {t : Nat} {c : C} (hf : findMap f s.maps = some t) (hc : s.tmp t = some c)
    (hd : g ∉ s.dirs) : Agree (recRename f g { s with maps := renameMap f g s.maps }) ((r.set f none).set g (some c)) := by
  have hm : f ∈ s.maps.map Prod.fst := List.mem_map.mpr ⟨_, findMap_some hf, rfl⟩
  have hfind := findMap_renameMap h.inv.names h.gone hm
  refine ⟨h.inv.rename h.gone, fun x => ?_, h.dirs, h.once, fun x hx => ?_, fun x hw hu => ?_⟩
  · show (if x = g then some c else if x = f then none else r.files x) = (findMap x (renameMap f g s.maps)).bind s.tmp
    rw [hfind]
    by_cases e : x = g
    · rw [if_pos e, if_pos e, hf]; exact hc.symm
    · rw [if_neg e, if_neg e]
      split
      · rfl
      · exact h.files x
  · show findMap x (renameMap f g s.maps) = none
    have hxg : x ≠ g := fun e => hd (e ▸ hx)
    rw [hfind, if_neg hxg]
    split
    · rfl
    · exact h.apart x hx
  · simp only [recRename] at hw hu ⊢
    rw [mem_keep] at hu
    rw [renameMap_fst h.inv.names]
    obtain ⟨y, hy, e⟩ := List.mem_map.mp hw
    by_cases hyf : y = f
    · exact List.mem_map.mpr ⟨f, hm, by rw [if_pos rfl]; rw [if_pos hyf] at e; exact e⟩
    · rw [if_neg hyf] at e
      subst e
      by_cases hyg : y = g
      · exact List.mem_map.mpr ⟨f, hm, by rw [if_pos rfl, hyg]⟩
      · rcases h.writes y hy (fun hx => hu ⟨hx, hyg⟩) with hz | hz
        · exact List.mem_map.mpr ⟨y, hz, if_neg hyf⟩
        · exact absurd hz hyg

theorem mem_renameDir {f g x : Str} : ∀ {ds : List Str}, ds.Nodup → f ∈ ds → (x ∈ renameDir f g ds ↔ x = g ∨ (x ∈ ds ∧ x ≠ f))
  | [], _, h => by cases h
  | d :: ds, nd, h => by
    rw [List.nodup_cons] at nd
    rw [renameDir]
    by_cases e : d = f
    · rw [if_pos e]
      subst e
      grind
    · rw [if_neg e]
      have := mem_renameDir (g := g) (x := x) nd.2 (f := f) (by grind)
      grind

theorem renameDir_nodup {f g : Str} : ∀ {ds : List Str}, ds.Nodup → f ∈ ds → g ∉ ds → (renameDir f g ds).Nodup
  | [], _, h, _ => by cases h
  | d :: ds, nd, h, hg => by
    rw [List.nodup_cons] at nd
    rw [renameDir]
    by_cases e : d = f
    · rw [if_pos e, List.nodup_cons]
      exact ⟨by grind, nd.2⟩
    · rw [if_neg e, List.nodup_cons]
      have hf : f ∈ ds := by grind
      refine ⟨?_, renameDir_nodup nd.2 hf (by grind)⟩
      rw [mem_renameDir nd.2 hf]
      grind

theorem Agree.full {s : Fs C} {r : Own C} (h : Agree s r) (d : Str) :
    r.full d ↔ (s.dirs.any (below d) || s.maps.any (fun m => below d m.1)) = true := by
  rw [Bool.or_eq_true, List.any_eq_true, List.any_eq_true]
  constructor
  · rintro ⟨f, hi, hm⟩
    rcases (h.made f).mp hm with hm | hm
    · exact Or.inl ⟨f, hm, (below_iff d f).mpr hi⟩
    · cases e : findMap f s.maps with
      | none => exact absurd e hm
      | some t => exact Or.inr ⟨_, findMap_some e, (below_iff d f).mpr hi⟩
  · rintro (⟨f, hf, hb⟩ | ⟨m, hm, hb⟩)
    · exact ⟨f, (below_iff d f).mp hb, (h.made f).mpr (Or.inl hf)⟩
    · refine ⟨m.1, (below_iff d m.1).mp hb, (h.made m.1).mpr (Or.inr fun e => ?_)⟩
      exact findMap_none.mp e (List.mem_map.mpr ⟨m, hm, rfl⟩)

end Tup.Fuse
