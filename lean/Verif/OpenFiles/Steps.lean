import Verif.OpenFiles.Lemmas

/-! What one operation does, for C84. -/

namespace Tup.OpenFiles

open Tup (Str)
open Tup.Fuse (findMap delMap renameMap)

/-- What holds for every sequence of operations. -/
structure Inv (c : Cfg) (s : St) : Prop where
  nd : (s.handles.map Prod.fst).Nodup
  lt : ∀ x ∈ s.handles, x.1 < s.hnext
  count : s.count = s.handles.length
  fds : (s.handles.filter fun x => x.2.fd.isSome).length ≤ c.max
  wr : c.fuse3 = true → ∀ x ∈ s.handles, ∀ f, x.2.fd = some (.real f) → x.2.wr = true → c.freeOpen f = true

/-- The handles are the same but for their names. -/
def Same (a b : List (Nat × Handle)) : Prop := ∃ k : Nat × Handle → Option Str, b = a.map fun x => (x.1, { x.2 with name := k x })

theorem Same.refl (a : List (Nat × Handle)) : Same a a := ⟨fun x => x.2.name, (List.map_id a).symm⟩

theorem same_moveName (f : Str) (g : Option Str) (l : List (Nat × Handle)) : Same l (moveName f g l) := by
  refine ⟨fun x => if x.2.name = some f then g else x.2.name, ?_⟩
  unfold moveName
  refine List.map_congr_left fun x _ => ?_
  by_cases e : x.2.name = some f <;> simp [e]

theorem Same.trans {a b d : List (Nat × Handle)} (h : Same a b) (h' : Same b d) : Same a d := by
  obtain ⟨k, rfl⟩ := h
  obtain ⟨k', rfl⟩ := h'
  exact ⟨fun x => k' (x.1, { x.2 with name := k x }), by rw [List.map_map]; rfl⟩

theorem Inv.same {c : Cfg} {s s' : St} (i : Inv c s) (h : Same s.handles s'.handles) (hn : s'.hnext = s.hnext) (hc : s'.count = s.count) : Inv c s' := by
  obtain ⟨k, e⟩ := h
  refine ⟨?_, ?_, ?_, ?_, ?_⟩
  · rw [e, List.map_map]; exact i.nd
  · intro x hx
    rw [e] at hx
    obtain ⟨y, hy, rfl⟩ := List.mem_map.mp hx
    rw [hn]; exact i.lt y hy
  · rw [hc, i.count, e, List.length_map]
  · rw [e, List.filter_map, List.length_map]; exact i.fds
  · intro g x hx f
    rw [e] at hx
    obtain ⟨y, hy, rfl⟩ := List.mem_map.mp hx
    exact i.wr g y hy f

theorem Inv.add {c : Cfg} {s : St} (i : Inv c s) (f : Str) (o : Obj) (wr : Bool) (h : c.fuse3 = true → ∀ g, o = .real g → wr = true → c.freeOpen g = true) :
    Inv c (addHandle c s f o wr).1 := by
  refine ⟨?_, ?_, ?_, ?_, ?_⟩
  · simp only [addHandle, List.map_append, List.map_cons, List.map_nil]
    rw [List.nodup_append]
    refine ⟨i.nd, by simp, ?_⟩
    intro a ha b hb
    rw [List.mem_singleton.mp hb]
    obtain ⟨x, hx, rfl⟩ := List.mem_map.mp ha
    exact Nat.ne_of_lt (i.lt x hx)
  · intro x hx
    simp only [addHandle, List.mem_append, List.mem_singleton] at hx ⊢
    rcases hx with hx | rfl
    · exact Nat.lt_succ_of_lt (i.lt x hx)
    · exact Nat.lt_succ_self _
  · simp [addHandle, i.count]
  · simp only [addHandle, List.filter_append, List.length_append]
    by_cases g : s.count ≥ (c.max : Int)
    · simp only [if_pos g]; simpa using i.fds
    · simp only [if_neg g]
      have := List.length_filter_le (fun x : Nat × Handle => x.2.fd.isSome) s.handles
      have := i.count
      simp only [Option.isSome_some, List.filter_cons_of_pos, List.filter_nil, List.length_cons, List.length_nil]
      omega
  · intro a x hx g e w
    simp only [addHandle, List.mem_append, List.mem_singleton] at hx
    rcases hx with hx | rfl
    · exact i.wr a x hx g e w
    · simp only at e w
      split at e
      · cases e
      · cases e; exact h a g rfl w

theorem count_release {h : Nat} : ∀ l : List (Nat × Handle), (l.map Prod.fst).Nodup → (findHandle h l).isSome → (l.filter fun x => decide (x.1 ≠ h)).length + 1 = l.length := by
  intro l
  induction l with
  | nil => intro _ g; cases g
  | cons y l ih =>
    intro nd g
    rw [List.map_cons, List.nodup_cons] at nd
    by_cases e : y.1 = h
    · rw [List.filter_cons_of_neg (by simp [e]), List.filter_eq_self.mpr, List.length_cons]
      intro z hz
      rw [decide_eq_true_eq]
      intro e'
      exact nd.1 (List.mem_map.mpr ⟨z, hz, by rw [e', e]⟩)
    · rw [List.filter_cons_of_pos (by simpa using e), List.length_cons, List.length_cons]
      have := ih nd.2 (by simpa [findHandle, e] using g)
      omega

theorem Inv.release {c : Cfg} {s : St} (i : Inv c s) (h : Nat) (hh : (findHandle h s.handles).isSome) :
    Inv c { s with handles := s.handles.filter fun x => x.1 ≠ h, count := s.count - 1 } := by
  have sub := List.filter_sublist (p := fun x : Nat × Handle => decide (x.1 ≠ h)) (l := s.handles)
  refine ⟨i.nd.sublist (sub.map _), fun x hx => i.lt x (sub.subset hx), ?_, ?_, fun a x hx => i.wr a x (sub.subset hx)⟩
  · have := count_release s.handles i.nd hh
    have := i.count
    show s.count - 1 = ((s.handles.filter fun x => decide (x.1 ≠ h)).length : Int)
    omega
  · exact Nat.le_trans (sub.filter _).length_le i.fds

theorem set_handles (s : St) (o : Obj) (x : File) : (s.set o x).handles = s.handles ∧ (s.set o x).hnext = s.hnext ∧ (s.set o x).count = s.count := by
  cases o <;> exact ⟨rfl, rfl, rfl⟩

/-- What an operation does to the open files, if it is neither an open nor a release: at most their names change. -/
theorem hide_same {s s' : St} {f : Str} (h : hide s f = some s') : Same s.handles s'.handles ∧ s'.hnext = s.hnext ∧ s'.count = s.count ∧ s'.real = s.real := by
  unfold hide at h
  split at h
  · cases h
  · cases h; exact ⟨same_moveName _ _ _, rfl, rfl, rfl⟩

theorem unlinkOp_same (c : Cfg) (s : St) (f : Str) :
    Same s.handles (unlinkOp c s f).1.handles ∧ (unlinkOp c s f).1.hnext = s.hnext ∧ (unlinkOp c s f).1.count = s.count ∧
      ∀ g, c.hid g = false → (unlinkOp c s f).1.real g = s.real g := by
  unfold unlinkOp
  split
  · split
    · next h => exact ⟨(hide_same h).1, (hide_same h).2.1, (hide_same h).2.2.1, fun g _ => by rw [(hide_same h).2.2.2]⟩
    · exact ⟨.refl _, rfl, rfl, fun _ _ => rfl⟩
  · split
    · exact ⟨.refl _, rfl, rfl, fun _ _ => rfl⟩
    · split
      · next e =>
        refine ⟨.refl _, rfl, rfl, fun g hg => ?_⟩
        simp only
        rw [if_neg]
        rintro rfl
        rw [hg] at e; cases e
      · exact ⟨.refl _, rfl, rfl, fun _ _ => rfl⟩

theorem renameMapped_same (c : Cfg) (s : St) (f g : Str) :
    Same s.handles (renameMapped c s f g).1.handles ∧ (renameMapped c s f g).1.hnext = s.hnext ∧ (renameMapped c s f g).1.count = s.count ∧ (renameMapped c s f g).1.real = s.real := by
  unfold renameMapped
  have : ∀ s1 : St, s1.handles = s.handles → s1.hnext = s.hnext → s1.count = s.count → s1.real = s.real →
      let x := (match findMap f s1.maps with
        | none => (s1, Res.fail)
        | some t =>
          if c.hid g then ({ drop s1 f t with handles := moveName f (some g) s1.handles }, .ok)
          else ({ s1 with maps := renameMap f g s1.maps, handles := moveName f (some g) s1.handles }, .ok))
      Same s.handles x.1.handles ∧ x.1.hnext = s.hnext ∧ x.1.count = s.count ∧ x.1.real = s.real := by
    intro s1 h1 h2 h3 h4
    dsimp only
    split
    · exact ⟨h1 ▸ .refl _, h2, h3, h4⟩
    · split
      · exact ⟨h1 ▸ same_moveName _ _ _, h2, h3, h4⟩
      · exact ⟨h1 ▸ same_moveName _ _ _, h2, h3, h4⟩
  cases findMap g s.maps with
  | none => exact this s rfl rfl rfl rfl
  | some t => exact this (drop s g t) rfl rfl rfl rfl

theorem renameOp_same (c : Cfg) (s : St) (f g : Str) :
    Same s.handles (renameOp c s f g).1.handles ∧ (renameOp c s f g).1.hnext = s.hnext ∧ (renameOp c s f g).1.count = s.count ∧ (renameOp c s f g).1.real = s.real := by
  unfold renameOp
  split
  · split
    · next s' h =>
      obtain ⟨a, b, d, e⟩ := hide_same h
      obtain ⟨a', b', d', e'⟩ := renameMapped_same c s' f g
      exact ⟨a.trans a', b'.trans b, d'.trans d, e'.trans e⟩
    · exact ⟨.refl _, rfl, rfl, rfl⟩
  · exact renameMapped_same c s f g

/-- May the command change a name in the tree? -/
def Cfg.open (c : Cfg) (f : Str) : Bool := c.free f || c.freeOpen f || c.hid f

theorem findHandle_mem {α : Type} {h : Nat} {x : α} : ∀ {l : List (Nat × α)}, findHandle h l = some x → ∃ y ∈ l, y.2 = x
  | [], e => by cases e
  | y :: l, e => by
    unfold findHandle at e
    split at e
    · cases e; exact ⟨y, .head _, rfl⟩
    · obtain ⟨z, hz, hx⟩ := findHandle_mem e
      exact ⟨z, .tail _ hz, hx⟩

theorem set_real_ne {s : St} {o : Obj} {x : File} {g : Str} (h : o ≠ .real g) : (s.set o x).real g = s.real g := by
  cases o with
  | tmp => rfl
  | real f => simp only [St.set]; rw [if_neg]; rintro rfl; exact h rfl

theorem Inv.setStep {c : Cfg} {s : St} (i : Inv c s) (o : Obj) (x : File) : Inv c (s.set o x) :=
  i.same (by rw [(set_handles s o x).1]; exact .refl _) (set_handles s o x).2.1 (set_handles s o x).2.2

/-- The operations keep the invariant. -/
theorem Inv.step {c : Cfg} {s : St} (i : Inv c s) (o : Op) : Inv c (step c s o).1 := by
  cases o with
  | create f r w =>
    simp only [OpenFiles.step]
    split
    · exact i
    · exact Inv.add (s := { s with maps := s.maps ++ [(f, s.next)], next := s.next + 1, linked := fun i => s.linked i || decide (i = s.next), data := fun i => if i = s.next then ⟨[], r, w, 0, 0⟩ else s.data i })
        (i.same (.refl _) rfl rfl) f (.tmp s.next) true fun _ g e => by cases e
  | «open» f wr =>
    simp only [OpenFiles.step]
    split
    · unfold openOp
      split
      · split
        · next o e =>
          refine i.add f o wr fun _ g e' => ?_
          unfold openTmp at e
          split at e
          · cases e; cases e'
          · cases e
        · exact i
      · split
        · exact i.same (.refl _) rfl rfl
        · next h =>
          split
          · next o e =>
            refine i.add f o wr fun h3 g e' hw => ?_
            unfold openReal at e
            split at e
            · split at e
              · cases e; cases e'
                rw [h3, hw] at h
                simpa using h
              · cases e
            · cases e
          · exact i
    · exact i
  | read h off n => exact i
  | write h off b =>
    simp only [OpenFiles.step, write.eq_def]
    split
    · exact i
    · split
      · try dsimp only
        split
        · exact i
        · split
          · exact i.setStep _ _
          · exact i
      · exact i
  | release h =>
    simp only [OpenFiles.step, OpenFiles.release]
    split
    · exact i
    · next e => exact i.release h (by rw [e]; rfl)
  | unlink f =>
    simp only [OpenFiles.step]
    split
    · have := unlinkOp_same c s f; exact i.same this.1 this.2.1 this.2.2.1
    · exact i
  | rename f g =>
    simp only [OpenFiles.step]
    split
    · split
      · exact i
      · have := renameOp_same c s f g; exact i.same this.1 this.2.1 this.2.2.1
    · exact i
  | truncate f n =>
    simp only [OpenFiles.step, truncateOp]
    repeat' (first | exact i | (dsimp only; exact i.setStep _ _) | split)
  | chmod f a w =>
    simp only [OpenFiles.step, attrOp]
    repeat' (first | exact i | (dsimp only; exact i.setStep _ _) | split)
  | chown f u =>
    simp only [OpenFiles.step, attrOp]
    repeat' (first | exact i | (dsimp only; exact i.setStep _ _) | split)
  | utimens f m =>
    simp only [OpenFiles.step, utimensOp]
    repeat' (first | exact i | (dsimp only; exact i.setStep _ _) | split)
  | link f g => exact i

theorem Cfg.not_open {c : Cfg} {g : Str} (h : c.open g = false) : c.free g = false ∧ c.freeOpen g = false ∧ c.hid g = false := by
  unfold Cfg.open at h
  simp only [Bool.or_eq_false_iff] at h
  exact ⟨h.1.1, h.1.2, h.2⟩

/-- No operation changes a name in the tree that is not open to the command. -/
theorem step_real {c : Cfg} {s : St} (h3 : c.fuse3 = true) (i : Inv c s) (o : Op) {g : Str} (h : c.open g = false) : (step c s o).1.real g = s.real g := by
  obtain ⟨h1, h2, h4⟩ := Cfg.not_open h
  cases o with
  | create f r w => simp only [OpenFiles.step]; split <;> rfl
  | «open» f wr =>
    simp only [OpenFiles.step, openOp]
    repeat' (first | rfl | split)
  | read x off n => rfl
  | write x off b =>
    simp only [OpenFiles.step, write.eq_def]
    split
    · rfl
    · next x e =>
      split
      · next hw =>
        try dsimp only
        split
        · rfl
        · next o eo =>
          split
          · refine set_real_ne ?_
            rintro rfl
            split at eo
            · next o' e' =>
              cases eo
              obtain ⟨y, hy, rfl⟩ := findHandle_mem e
              have := i.wr h3 y hy g e' hw
              rw [h2] at this; cases this
            · split at eo
              · cases eo
              · split at eo
                · split at eo <;> cases eo
                · cases eo
          · rfl
      · rfl
  | release x => simp only [OpenFiles.step, OpenFiles.release]; split <;> rfl
  | unlink f =>
    simp only [OpenFiles.step]
    split
    · exact (unlinkOp_same c s f).2.2.2 g h4
    · rfl
  | rename f k =>
    simp only [OpenFiles.step]
    split
    · split
      · rfl
      · rw [(renameOp_same c s f k).2.2.2]
    · rfl
  | truncate f n =>
    simp only [OpenFiles.step, truncateOp]
    repeat' (first | rfl | (dsimp only; refine set_real_ne ?_; intro e; cases e; simp_all; done) | split)
  | chmod f a w =>
    simp only [OpenFiles.step, attrOp]
    repeat' (first | rfl | split)
  | chown f u =>
    simp only [OpenFiles.step, attrOp]
    repeat' (first | rfl | split)
  | utimens f m =>
    simp only [OpenFiles.step, utimensOp]
    repeat' (first | rfl | (dsimp only; refine set_real_ne ?_; intro e; cases e; simp_all; done) | split)
  | link f k => rfl

end Tup.OpenFiles
