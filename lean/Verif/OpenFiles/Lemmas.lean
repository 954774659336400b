import Verif.OpenFiles.Spec
import Verif.Fuse.Lemmas

/-! Lemmas for C84. -/

namespace Tup.OpenFiles

open Tup (Str)
open Tup.Fuse (findMap delMap renameMap findMap_none findMap_append findMap_delMap findMap_renameMap delMap_sublist renameMap_fst)

/-- How an open file of tup is related to one of the private file system. -/
def HR (r : Own) (h : Handle) (o : OpenFile) : Prop :=
  h.wr = o.wr ∧ h.fd = (if o.late then none else some o.obj) ∧
    match h.name with
    | none => o.late = false ∧ ∃ t, o.obj = .tmp t ∧ t < r.made ∧ ∀ f, r.name f ≠ some t
    | some f => r.at f = some o.obj

abbrev Pair := Nat × Handle × OpenFile

def Pair.lo (x : Pair) : Nat × Handle := (x.1, x.2.1)
def Pair.hi (x : Pair) : Nat × OpenFile := (x.1, x.2.2)

structure Rel (s : St) (r : Own) : Prop where
  nd : (s.maps.map Prod.fst).Nodup
  name : ∀ f, findMap f s.maps = r.name f
  lk : ∀ f t, r.name f = some t → s.linked t = true ∧ t < s.next
  lk' : ∀ t, s.linked t = true → ∃ f, r.name f = some t
  inj : ∀ f g t, r.name f = some t → r.name g = some t → f = g
  next : s.next = r.made
  data : s.data = r.data
  real : s.real = r.real
  hnext : s.hnext = r.ids
  count : s.count = s.handles.length
  hs : ∃ l : List Pair, s.handles = l.map Pair.lo ∧ r.opened = l.map Pair.hi ∧ ∀ x ∈ l, HR r x.2.1 x.2.2

theorem Rel.present {s : St} {r : Own} (k : Rel s r) (f : Str) : present s f = (r.at f).isSome := by
  unfold OpenFiles.present Own.at
  rw [k.name]
  cases h : r.name f with
  | some t => simp [(k.lk f t h).1]
  | none => rw [k.real]; cases r.real f <;> rfl

theorem Rel.file {s : St} {r : Own} (k : Rel s r) (o : Obj) : s.file o = r.file o := by
  cases o <;> simp [St.file, Own.file, k.data, k.real]

theorem at_some {r : Own} {f : Str} {o : Obj} (h : r.at f = some o) : (∃ t, r.name f = some t ∧ o = .tmp t) ∨ (r.name f = none ∧ o = .real f ∧ (r.real f).isSome) := by
  unfold Own.at at h
  split at h
  · next t e => exact .inl ⟨t, e, by cases h; rfl⟩
  · next e =>
    split at h
    · next e' => exact .inr ⟨e, by cases h; rfl, e'⟩
    · cases h

theorem findHandle_lo (h : Nat) (l : List Pair) : findHandle h (l.map Pair.lo) = (l.find? fun x => decide (x.1 = h)).map fun x => x.2.1 := by
  induction l with
  | nil => rfl
  | cons x l ih =>
    simp only [List.map_cons, findHandle, Pair.lo, List.find?_cons]
    by_cases e : x.1 = h
    · simp [e]
    · rw [if_neg e, decide_eq_false e]; exact ih

theorem findHandle_hi (h : Nat) (l : List Pair) : findHandle h (l.map Pair.hi) = (l.find? fun x => decide (x.1 = h)).map fun x => x.2.2 := by
  induction l with
  | nil => rfl
  | cons x l ih =>
    simp only [List.map_cons, findHandle, Pair.hi, List.find?_cons]
    by_cases e : x.1 = h
    · simp [e]
    · rw [if_neg e, decide_eq_false e]; exact ih

/-- Both file systems find the same open file. -/
theorem Rel.find {s : St} {r : Own} (k : Rel s r) (h : Nat) :
    (findHandle h s.handles = none ∧ findHandle h r.opened = none) ∨
    ∃ x o, findHandle h s.handles = some x ∧ findHandle h r.opened = some o ∧ HR r x o := by
  obtain ⟨l, e1, e2, e3⟩ := k.hs
  rw [e1, e2, findHandle_lo, findHandle_hi]
  cases e : l.find? fun x => decide (x.1 = h) with
  | none => exact .inl ⟨rfl, rfl⟩
  | some x => exact .inr ⟨x.2.1, x.2.2, rfl, rfl, e3 x (List.mem_of_find?_eq_some e)⟩

/-- A file is open under a name if a process has opened what the name stands for. -/
theorem Rel.isOpen_name {s : St} {r : Own} (k : Rel s r) {f : Str} (h : isOpen s f = true) : ∃ x ∈ r.opened, r.at f = some x.2.obj := by
  obtain ⟨l, e1, e2, e3⟩ := k.hs
  unfold isOpen at h
  rw [e1, List.any_eq_true] at h
  obtain ⟨y, hy, e⟩ := h
  obtain ⟨x, hx, rfl⟩ := List.mem_map.mp hy
  have e := of_decide_eq_true e
  refine ⟨x.hi, e2 ▸ List.mem_map_of_mem hx, ?_⟩
  have := (e3 x hx).2.2
  change x.2.1.name = some f at e
  rw [e] at this
  exact this

/-- Opening a file. -/
theorem Rel.addHandle {s : St} {r : Own} (k : Rel s r) (c : Cfg) {f : Str} {o : Obj} (h : r.at f = some o) (wr : Bool) :
    Rel (addHandle c s f o wr).1 (r.addOpen c o wr).1 ∧ (OpenFiles.addHandle c s f o wr).2 = (r.addOpen c o wr).2 := by
  obtain ⟨l, e1, e2, e3⟩ := k.hs
  have el : s.count = r.opened.length := by rw [k.count, e1, e2]; simp
  refine ⟨⟨k.nd, k.name, k.lk, k.lk', k.inj, k.next, k.data, k.real, by simp [OpenFiles.addHandle, Own.addOpen, k.hnext], ?_, ?_⟩, by simp [OpenFiles.addHandle, Own.addOpen, k.hnext]⟩
  · simp [OpenFiles.addHandle, k.count]
  · refine ⟨l ++ [(s.hnext, ⟨some f, if s.count ≥ c.max then none else some o, wr⟩, ⟨o, wr, decide (c.max ≤ r.opened.length)⟩)], ?_, ?_, ?_⟩
    · simp [OpenFiles.addHandle, e1, Pair.lo]
    · simp [Own.addOpen, e2, Pair.hi, k.hnext]
    · intro x hx
      rcases List.mem_append.mp hx with hx | hx
      · exact e3 x hx
      · rw [List.mem_singleton.mp hx]
        refine ⟨rfl, ?_, h⟩
        by_cases g : c.max ≤ r.opened.length
        · have g' : s.count ≥ (c.max : Int) := by omega
          simp [g, g']
        · have g' : ¬ s.count ≥ (c.max : Int) := by omega
          simp only [if_neg g', g, decide_false]; rfl

theorem own_at_set {r : Own} {o : Obj} (x : File) (h : ∀ f, o = .real f → (r.real f).isSome) (g : Str) : (r.set o x).at g = r.at g := by
  cases o with
  | tmp t => rfl
  | real f =>
    unfold Own.at Own.set
    simp only
    cases r.name g with
    | some _ => rfl
    | none =>
      by_cases e : g = f
      · subst e; simp [h g rfl]
      · simp [e]

/-- Changing a file. -/
theorem Rel.set {s : St} {r : Own} (k : Rel s r) {o : Obj} (x : File) (h : ∀ f, o = .real f → (r.real f).isSome) : Rel (s.set o x) (r.set o x) := by
  obtain ⟨l, e1, e2, e3⟩ := k.hs
  cases o with
  | tmp t =>
    exact ⟨k.nd, k.name, k.lk, k.lk', k.inj, k.next, by simp [St.set, Own.set, k.data], k.real, k.hnext, k.count, l, e1, e2, e3⟩
  | real f =>
    refine ⟨k.nd, k.name, k.lk, k.lk', k.inj, k.next, k.data, by simp [St.set, Own.set, k.real], k.hnext, k.count, l, e1, e2, fun y hy => ?_⟩
    obtain ⟨a, b, d⟩ := e3 y hy
    refine ⟨a, b, ?_⟩
    split
    · next e => rw [e] at d; exact d
    · next e => rw [e] at d; rw [own_at_set x h]; exact d

theorem Rel.release {s : St} {r : Own} (k : Rel s r) (h : Nat) (nd : (s.handles.map Prod.fst).Nodup) (hh : (findHandle h s.handles).isSome) :
    Rel { s with handles := s.handles.filter fun x => x.1 ≠ h, count := s.count - 1 } { r with opened := r.opened.filter fun x => x.1 ≠ h } := by
  obtain ⟨l, e1, e2, e3⟩ := k.hs
  refine ⟨k.nd, k.name, k.lk, k.lk', k.inj, k.next, k.data, k.real, k.hnext, ?_, l.filter fun x => decide (x.1 ≠ h), ?_, ?_, fun x hx => e3 x (List.mem_filter.mp hx).1⟩
  · show s.count - 1 = ((s.handles.filter fun x => decide (x.1 ≠ h)).length : Int)
    rw [k.count]
    have : ∀ l : List (Nat × Handle), (l.map Prod.fst).Nodup → (findHandle h l).isSome → (l.filter fun x => decide (x.1 ≠ h)).length + 1 = l.length := by
      intro l
      induction l with
      | nil => intro _ g; cases g
      | cons y l ih =>
        intro nd g
        rw [List.map_cons, List.nodup_cons] at nd
        by_cases e : y.1 = h
        · rw [List.filter_cons_of_neg (by simp [e]), List.filter_eq_self.mpr, List.length_cons]
          intro z hz
          rw [decide_eq_true_eq]
          intro e'
          exact nd.1 (List.mem_map.mpr ⟨z, hz, by rw [e', e]⟩)
        · rw [List.filter_cons_of_pos (by simpa using e), List.length_cons, List.length_cons]
          have := ih nd.2 (by simpa [findHandle, e] using g)
          omega
    have := this _ nd hh
    omega
  · simp only [e1, List.filter_map]; rfl
  · simp only [e2, List.filter_map]; rfl

theorem moveName_idle {f : Str} {g : Option Str} {l : List (Nat × Handle)} (h : ∀ x ∈ l, x.2.name ≠ some f) : moveName f g l = l := by
  unfold moveName
  conv => rhs; rw [← List.map_id l]
  exact List.map_congr_left fun x hx => if_neg (h x hx)

theorem not_open {s : St} {f : Str} (h : isOpen s f = false) : ∀ x ∈ s.handles, x.2.name ≠ some f := by
  intro x hx e
  unfold isOpen at h
  rw [List.any_eq_false] at h
  exact h x hx (by rw [e]; exact decide_eq_true rfl)

/-- The pairs after `moveName`. -/
def movePair (f : Str) (g : Option Str) (x : Pair) : Pair := if x.2.1.name = some f then (x.1, { x.2.1 with name := g }, x.2.2) else x

theorem movePair_lo (f : Str) (g : Option Str) (l : List Pair) : (l.map (movePair f g)).map Pair.lo = moveName f g (l.map Pair.lo) := by
  unfold moveName
  rw [List.map_map, List.map_map]
  refine List.map_congr_left fun x _ => ?_
  simp only [Function.comp, movePair, Pair.lo]
  by_cases e : x.2.1.name = some f <;> simp [e]

theorem movePair_hi (f : Str) (g : Option Str) (l : List Pair) : (l.map (movePair f g)).map Pair.hi = l.map Pair.hi := by
  rw [List.map_map]
  refine List.map_congr_left fun x _ => ?_
  simp only [Function.comp, movePair, Pair.hi]
  split <;> rfl

/-- The private file system without a name. -/
def Own.forget (r : Own) (f : Str) : Own := { r with name := fun g => if g = f then none else r.name g }

theorem at_forget {r : Own} {f g : Str} (h : g ≠ f) : (r.forget f).at g = r.at g := by
  unfold Own.at Own.forget
  simp only [if_neg h]

/-- Removing a file that the command has made. -/
theorem Rel.drop {s : St} {r : Own} (k : Rel s r) {f : Str} {t : Nat} (hf : r.name f = some t) (sp : r.spares f) :
    Rel { drop s f t with handles := moveName f none s.handles } (r.forget f) := by
  obtain ⟨l, e1, e2, e3⟩ := k.hs
  have nm : ∀ g, findMap g (delMap f s.maps) = if g = f then none else r.name g := by
    intro g; rw [findMap_delMap k.nd, k.name]
  refine ⟨k.nd.sublist ((delMap_sublist f s.maps).map _), nm, ?_, ?_, ?_, k.next, k.data, k.real, k.hnext, ?_,
    l.map (movePair f none), ?_, ?_, ?_⟩
  · intro g u h
    simp only [Own.forget] at h
    split at h
    · cases h
    · next e =>
      refine ⟨?_, (k.lk g u h).2⟩
      simp only [OpenFiles.drop, (k.lk g u h).1, Bool.true_and, Bool.not_eq_true', decide_eq_false_iff_not]
      rintro rfl
      exact e (k.inj g f u h hf)
  · intro u h
    simp only [OpenFiles.drop, Bool.and_eq_true, Bool.not_eq_true', decide_eq_false_iff_not] at h
    obtain ⟨g, hg⟩ := k.lk' u h.1
    refine ⟨g, ?_⟩
    simp only [Own.forget]
    rw [if_neg, hg]
    rintro rfl
    rw [hf] at hg
    exact h.2 (by cases hg; rfl)
  · intro g g' u h h'
    simp only [Own.forget] at h h'
    split at h
    · cases h
    · split at h'
      · cases h'
      · exact k.inj g g' u h h'
  · simp only [moveName, List.length_map]; exact k.count
  · rw [movePair_lo, e1]
  · rw [movePair_hi]; exact e2
  · intro y hy
    obtain ⟨x, hx, rfl⟩ := List.mem_map.mp hy
    obtain ⟨a, b, d⟩ := e3 x hx
    unfold movePair
    split
    · next e =>
      rw [e] at d
      have d : r.at f = some x.2.2.obj := d
      have o : x.2.2.obj = .tmp t := by
        rcases at_some d with ⟨u, h1, h2⟩ | ⟨h1, _, _⟩
        · rw [hf] at h1; cases h1; exact h2
        · rw [hf] at h1; cases h1
      refine ⟨a, b, sp t hf x.hi (e2 ▸ List.mem_map_of_mem hx) o, t, o, k.next ▸ (k.lk f t hf).2, fun g hg => ?_⟩
      simp only [Own.forget] at hg
      split at hg
      · cases hg
      · next e => exact e (k.inj g f t hg hf)
    · next e =>
      refine ⟨a, b, ?_⟩
      split
      · next e' =>
        rw [e'] at d
        obtain ⟨d1, u, d2, d3, d4⟩ := d
        refine ⟨d1, u, d2, d3, fun g hg => ?_⟩
        simp only [Own.forget] at hg
        split at hg
        · cases hg
        · exact d4 g hg
      · next g e' =>
        rw [e'] at d
        rw [at_forget (by rintro rfl; exact e e')]
        exact d

/-- Giving a file a new name that nothing has. -/
theorem Rel.move {s : St} {r : Own} (k : Rel s r) {f g : Str} {t : Nat} (hf : r.name f = some t) (hg : r.name g = none) (fg : f ≠ g)
    (no : ∀ x ∈ r.opened, x.2.obj ≠ .real g) :
    Rel { s with maps := renameMap f g s.maps, handles := moveName f (some g) s.handles }
      { r with name := fun x => if x = g then some t else if x = f then none else r.name x } := by
  obtain ⟨l, e1, e2, e3⟩ := k.hs
  have ng : g ∉ s.maps.map Prod.fst := findMap_none.mp (by rw [k.name, hg])
  have mf : f ∈ s.maps.map Prod.fst := by
    apply Decidable.byContradiction
    intro h
    rw [← findMap_none, k.name, hf] at h
    cases h
  refine ⟨?_, ?_, ?_, ?_, ?_, k.next, k.data, k.real, k.hnext, ?_, l.map (movePair f (some g)), ?_, ?_, ?_⟩
  · simp only [renameMap_fst k.nd]
    refine List.pairwise_map.mpr (k.nd.imp_of_mem ?_)
    intro a b ha hb ab
    split
    · split
      · next h1 h2 => exact absurd (h1.trans h2.symm) ab
      · rintro rfl; exact ng hb
    · split
      · rintro rfl; exact ng ha
      · exact ab
  · intro x
    simp only [findMap_renameMap k.nd ng mf, k.name, hf]
  · intro x u h
    simp only at h
    split at h
    · cases h; exact k.lk f _ hf
    · split at h
      · cases h
      · exact k.lk x u h
  · intro u h
    obtain ⟨x, hx⟩ := k.lk' u h
    by_cases e : x = f
    · subst e
      refine ⟨g, ?_⟩
      simp only [if_pos]
      rw [← hf, hx]
    · refine ⟨x, ?_⟩
      simp only
      rw [if_neg, if_neg e, hx]
      rintro rfl
      rw [hg] at hx; cases hx
  · intro x y u h h'
    simp only at h h'
    split at h
    · next ex =>
      cases h
      split at h'
      · next ey => rw [ex, ey]
      · split at h'
        · cases h'
        · next e => exact absurd (k.inj y f _ h' hf) e
    · split at h
      · cases h
      · next e =>
        split at h'
        · cases h'; exact absurd (k.inj x f _ h hf) e
        · split at h'
          · cases h'
          · exact k.inj x y u h h'
  · simp only [moveName, List.length_map]; exact k.count
  · rw [movePair_lo, e1]
  · rw [movePair_hi]; exact e2
  · intro y hy
    obtain ⟨x, hx, rfl⟩ := List.mem_map.mp hy
    obtain ⟨a, b, d⟩ := e3 x hx
    unfold movePair
    split
    · next e =>
      rw [e] at d
      have d : r.at f = some x.2.2.obj := d
      refine ⟨a, b, ?_⟩
      rcases at_some d with ⟨u, h1, h2⟩ | ⟨h1, _, _⟩
      · rw [hf] at h1; cases h1
        simp only [Own.at, if_pos]
        rw [h2]
      · rw [hf] at h1; cases h1
    · next e =>
      refine ⟨a, b, ?_⟩
      split
      · next e' =>
        rw [e'] at d
        obtain ⟨d1, u, d2, d3, d4⟩ := d
        refine ⟨d1, u, d2, d3, fun w hw => ?_⟩
        simp only at hw
        split at hw
        · cases hw; exact d4 f hf
        · split at hw
          · cases hw
          · exact d4 w hw
      · next w e' =>
        rw [e'] at d
        have d : r.at w = some x.2.2.obj := d
        have wf : w ≠ f := by rintro rfl; exact e e'
        have wg : w ≠ g := by
          rintro rfl
          rcases at_some d with ⟨u, h1, _⟩ | ⟨_, h2, _⟩
          · rw [hg] at h1; cases h1
          · exact no x.hi (e2 ▸ List.mem_map_of_mem hx) h2
        show Own.at _ w = _
        unfold Own.at
        simp only [if_neg wf, if_neg wg]
        exact d

/-- Making a file. -/
theorem Rel.make {s : St} {r : Own} (k : Rel s r) {f : Str} (h : r.at f = none) (x : File) :
    Rel { s with maps := s.maps ++ [(f, s.next)], next := s.next + 1, linked := fun i => s.linked i || decide (i = s.next), data := fun i => if i = s.next then x else s.data i }
      { r with name := fun g => if g = f then some r.made else r.name g, made := r.made + 1, data := fun i => if i = r.made then x else r.data i } := by
  obtain ⟨l, e1, e2, e3⟩ := k.hs
  have hn : r.name f = none := by
    unfold Own.at at h
    split at h
    · cases h
    · assumption
  have nf : f ∉ s.maps.map Prod.fst := findMap_none.mp (by rw [k.name, hn])
  refine ⟨?_, ?_, ?_, ?_, ?_, by simp [k.next], by simp [k.next, k.data], k.real, k.hnext, k.count, l, e1, e2, ?_⟩
  · simp only [List.map_append, List.map_cons, List.map_nil]
    rw [List.nodup_append]
    refine ⟨k.nd, by simp, ?_⟩
    intro a ha b hb
    rw [List.mem_singleton.mp hb]
    rintro rfl
    exact nf ha
  · intro g
    simp only [findMap_append, k.name, findMap]
    by_cases e : g = f
    · subst e; simp [hn, k.next]
    · rw [if_neg (Ne.symm e), if_neg e]; simp
  · intro g u hu
    simp only at hu
    split at hu
    · cases hu; simp [k.next]
    · have := k.lk g u hu
      simp only [this.1, Bool.true_or, true_and]
      omega
  · intro u hu
    simp only [Bool.or_eq_true, decide_eq_true_eq] at hu
    rcases hu with hu | hu
    · obtain ⟨g, hg⟩ := k.lk' u hu
      refine ⟨g, ?_⟩
      simp only
      rw [if_neg, hg]
      rintro rfl
      rw [hn] at hg; cases hg
    · exact ⟨f, by simp [hu, k.next]⟩
  · intro g g' u hu hu'
    have lt : ∀ g u, r.name g = some u → u < r.made := fun g u h => k.next ▸ (k.lk g u h).2
    simp only at hu hu'
    split at hu
    · next e =>
      cases hu
      split at hu'
      · next e' => rw [e, e']
      · exact absurd (lt _ _ hu') (Nat.lt_irrefl _)
    · split at hu'
      · cases hu'; exact absurd (lt _ _ hu) (Nat.lt_irrefl _)
      · exact k.inj g g' u hu hu'
  · intro y hy
    obtain ⟨a, b, d⟩ := e3 y hy
    refine ⟨a, b, ?_⟩
    split
    · next e =>
      rw [e] at d
      obtain ⟨d1, u, d2, d3, d4⟩ := d
      refine ⟨d1, u, d2, by simp only; omega, fun w hw => ?_⟩
      simp only at hw
      split at hw
      · cases hw; exact absurd d3 (Nat.lt_irrefl _)
      · exact d4 w hw
    · next w e =>
      rw [e] at d
      have d : r.at w = some y.2.2.obj := d
      have wf : w ≠ f := by rintro rfl; rw [h] at d; cases d
      show Own.at _ w = _
      unfold Own.at
      simp only [if_neg wf]
      exact d

end Tup.OpenFiles
