import Verif.Tree.Spec

namespace Tup.Tree

variable {α : Type}

/-- A comparison of keys that is a strict total order on the keys in `D`. -/
structure Lawful {κ : Type} (cmp : κ → κ → Int) (D : κ → Prop) : Prop where
  eq : ∀ a b, D a → D b → (cmp a b = 0 ↔ a = b)
  flip : ∀ a b, D a → D b → (cmp a b < 0 ↔ cmp b a > 0)
  trans : ∀ a b c, D a → D b → D c → cmp a b < 0 → cmp b c < 0 → cmp a c < 0

/-- In order, and all keys in `D`. -/
def Ordered {κ : Type} (cmp : κ → κ → Int) (D : κ → Prop) (key : α → κ) (l : List α) : Prop :=
  (∀ x ∈ l, D (key x)) ∧ l.Pairwise fun x y => cmp (key x) (key y) < 0

section
variable {κ : Type} {cmp : κ → κ → Int} {D : κ → Prop} {key : α → κ}

theorem Rot.toList {a b : T α} (h : Rot a b) : b.toList = a.toList := by
  induction h with
  | refl => rfl
  | trans _ _ h1 h2 => rw [h2, h1]
  | left => simp [T.toList]
  | right => simp [T.toList]
  | inl _ ih => simp [T.toList, ih]
  | inr _ ih => simp [T.toList, ih]

theorem ordered_node {l : T α} {x : α} {r : T α} (h : Ordered cmp D key (T.node l x r).toList) :
    Ordered cmp D key l.toList ∧ Ordered cmp D key r.toList ∧ D (key x) ∧
    (∀ y ∈ l.toList, cmp (key y) (key x) < 0) ∧ (∀ y ∈ r.toList, cmp (key x) (key y) < 0) := by
  obtain ⟨h1, h2⟩ := h
  rw [T.toList] at h1 h2
  rw [List.pairwise_append, List.pairwise_cons] at h2
  obtain ⟨h2, ⟨h3, h4⟩, h5⟩ := h2
  exact ⟨⟨fun y hy => h1 y (by simp [hy]), h2⟩, ⟨fun y hy => h1 y (by simp [hy]), h4⟩, h1 x (by simp),
    fun y hy => h5 y hy x (by simp), h3⟩

theorem find_mem {c : α → Int} {t : T α} {x : α} (h : find c t = some x) : x ∈ t.toList ∧ c x = 0 := by
  induction t with
  | nil => cases h
  | node l y r ihl ihr =>
    rw [find] at h
    rw [T.toList]
    split at h
    · have := ihl h; simp [this]
    split at h
    · have := ihr h; simp [this]
    · next h1 h2 =>
      simp only [Option.some.injEq] at h
      subst h
      exact ⟨by simp, by omega⟩

/-- `find` decides membership. -/
theorem find_iff (law : Lawful cmp D) {t : T α} (ht : Ordered cmp D key t.toList) {k : κ} (hk : D k) (x : α) :
    find (fun y => cmp k (key y)) t = some x ↔ x ∈ t.toList ∧ key x = k := by
  constructor
  · intro h
    obtain ⟨h1, h2⟩ := find_mem h
    exact ⟨h1, ((law.eq _ _ hk (ht.1 x h1)).1 h2).symm⟩
  · rintro ⟨hx, rfl⟩
    induction t with
    | nil => cases hx
    | node l y r ihl ihr =>
      obtain ⟨hl, hr, hy, h1, h2⟩ := ordered_node ht
      rw [T.toList, List.mem_append, List.mem_cons] at hx
      rw [find]
      rcases hx with hx | rfl | hx
      · have := h1 x hx
        simp only [if_pos this]
        exact ihl hl hx
      · have := (law.eq _ _ hk hk).2 (rfl : key x = key x)
        simp only [this]
        rfl
      · have hgt := (law.flip _ _ hy hk).1 (h2 x hx)
        simp only [if_neg (show ¬ cmp (key x) (key y) < 0 by omega), if_pos hgt]
        exact ihr hr hx

theorem find_none_iff (law : Lawful cmp D) {t : T α} (ht : Ordered cmp D key t.toList) {k : κ} (hk : D k) :
    find (fun y => cmp k (key y)) t = none ↔ ∀ x ∈ t.toList, key x ≠ k := by
  constructor
  · intro h x hx he
    rw [(find_iff law ht hk x).2 ⟨hx, he⟩] at h
    cases h
  · intro h
    cases hf : find (fun y => cmp k (key y)) t with
    | none => rfl
    | some x =>
      obtain ⟨h1, h2⟩ := (find_iff law ht hk x).1 hf
      exact absurd h2 (h x h1)

/-- Two lists around an element. -/
theorem ordered_insert (law : Lawful cmp D) {a b : List α} {e : α} (h : Ordered cmp D key (a ++ b))
    (he : D (key e)) (ha : ∀ y ∈ a, cmp (key y) (key e) < 0) (hb : ∀ y ∈ b, cmp (key e) (key y) < 0) :
    Ordered cmp D key (a ++ e :: b) := by
  obtain ⟨h1, h2⟩ := h
  rw [List.pairwise_append] at h2
  refine ⟨?_, ?_⟩
  · intro x hx
    rw [List.mem_append, List.mem_cons] at hx
    rcases hx with hx | rfl | hx
    · exact h1 x (by simp [hx])
    · exact he
    · exact h1 x (by simp [hx])
  · rw [List.pairwise_append, List.pairwise_cons]
    refine ⟨h2.1, ⟨hb, h2.2.1⟩, ?_⟩
    intro x hx y hy
    rw [List.mem_cons] at hy
    rcases hy with rfl | hy
    · exact ha x hx
    · exact h2.2.2 x hx y hy

/-- Where `insert` puts a new element: all smaller elements are before it, all greater ones behind it. -/
theorem insert_spec (law : Lawful cmp D) {t : T α} (ht : Ordered cmp D key t.toList) {e : α} (he : D (key e)) :
    (insert (fun y => cmp (key e) (key y)) e t = none ∧ ∃ y ∈ t.toList, key y = key e) ∨
    (∃ t' a b, insert (fun y => cmp (key e) (key y)) e t = some t' ∧ t.toList = a ++ b ∧ t'.toList = a ++ e :: b ∧
      (∀ y ∈ a, cmp (key y) (key e) < 0) ∧ (∀ y ∈ b, cmp (key e) (key y) < 0)) := by
  induction t with
  | nil => right; exact ⟨_, [], [], rfl, rfl, rfl, by simp, by simp⟩
  | node l x r ihl ihr =>
    obtain ⟨hl, hr, hx, h1, h2⟩ := ordered_node ht
    rw [insert]
    by_cases hlt : cmp (key e) (key x) < 0
    · simp only [if_pos hlt]
      rcases ihl hl with ⟨h, y, hy, hye⟩ | ⟨t', a, b, h, ha, hb, h3, h4⟩
      · left; rw [h]; exact ⟨rfl, y, by simp [T.toList, hy], hye⟩
      · right
        rw [h]
        refine ⟨_, a, b ++ x :: r.toList, rfl, by simp [T.toList, ha], by simp [T.toList, hb], h3, ?_⟩
        intro y hy
        rw [List.mem_append, List.mem_cons] at hy
        rcases hy with hy | rfl | hy
        · exact h4 y hy
        · exact hlt
        · exact law.trans _ _ _ he hx (hr.1 y hy) hlt (h2 y hy)
    · simp only [if_neg hlt]
      by_cases hgt : cmp (key e) (key x) > 0
      · simp only [if_pos hgt]
        have hxe := (law.flip _ _ hx he).2 hgt
        rcases ihr hr with ⟨h, y, hy, hye⟩ | ⟨t', a, b, h, ha, hb, h3, h4⟩
        · left; rw [h]; exact ⟨rfl, y, by simp [T.toList, hy], hye⟩
        · right
          rw [h]
          refine ⟨_, l.toList ++ x :: a, b, rfl, by simp [T.toList, ha], by simp [T.toList, hb], ?_, h4⟩
          intro y hy
          rw [List.mem_append, List.mem_cons] at hy
          rcases hy with hy | rfl | hy
          · exact law.trans _ _ _ (hl.1 y hy) hx he (h1 y hy) hxe
          · exact hxe
          · exact h3 y hy
      · simp only [if_neg hgt]
        left
        exact ⟨trivial, x, by simp [T.toList], ((law.eq _ _ he hx).1 (by omega)).symm⟩

theorem popMin_spec (l : T α) : ∀ (x : α) (r : T α),
    (popMin l x r).1 :: (popMin l x r).2.toList = (T.node l x r).toList := by
  induction l with
  | nil => intro x r; rfl
  | node ll lx lr ihl _ =>
    intro x r
    have := ihl lx lr
    rw [popMin]
    simp only [T.toList]
    rw [← List.cons_append, this]
    simp [T.toList]

theorem removeRoot_spec (l r : T α) : (removeRoot l r).toList = l.toList ++ r.toList := by
  unfold removeRoot
  split
  · rfl
  · simp [T.toList]
  · next rl rx rr =>
    dsimp only
    rw [T.toList, popMin_spec]

theorem remove_spec (law : Lawful cmp D) {t : T α} (ht : Ordered cmp D key t.toList) {k : κ} (hk : D k) :
    (remove (fun y => cmp k (key y)) t).toList.Sublist t.toList ∧
    (∀ x, x ∈ (remove (fun y => cmp k (key y)) t).toList ↔ x ∈ t.toList ∧ key x ≠ k) ∧
    ((∃ x ∈ t.toList, key x = k) → (remove (fun y => cmp k (key y)) t).toList.length + 1 = t.toList.length) := by
  induction t with
  | nil => simp [remove, T.toList]
  | node l x r ihl ihr =>
    obtain ⟨hl, hr, hx, h1, h2⟩ := ordered_node ht
    have ne_of : ∀ {a b}, D a → D b → cmp a b < 0 → a ≠ b := by
      intro a b ha hb hlt he
      have := (law.eq a b ha hb).2 he
      omega
    rw [remove]
    by_cases hlt : cmp k (key x) < 0
    · simp only [if_pos hlt, T.toList]
      obtain ⟨s1, s2, s3⟩ := ihl hl
      have hxk : key x ≠ k := Ne.symm (ne_of hk hx hlt)
      have hrk : ∀ y ∈ r.toList, key y ≠ k := fun y hy =>
        Ne.symm (ne_of hk (hr.1 y hy) (law.trans _ _ _ hk hx (hr.1 y hy) hlt (h2 y hy)))
      refine ⟨s1.append (List.Sublist.refl _), ?_, ?_⟩
      · intro y
        simp only [List.mem_append, List.mem_cons, s2]
        constructor
        · rintro (⟨h, h'⟩ | rfl | h)
          · exact ⟨.inl h, h'⟩
          · exact ⟨.inr (.inl rfl), hxk⟩
          · exact ⟨.inr (.inr h), hrk y h⟩
        · rintro ⟨h | h | h, h'⟩
          · exact .inl ⟨h, h'⟩
          · exact .inr (.inl h)
          · exact .inr (.inr h)
      · rintro ⟨y, hy, hyk⟩
        simp only [List.mem_append, List.mem_cons] at hy
        rcases hy with hy | rfl | hy
        · have := s3 ⟨y, hy, hyk⟩
          simp only [List.length_append, List.length_cons]; omega
        · exact absurd hyk hxk
        · exact absurd hyk (hrk y hy)
    · simp only [if_neg hlt]
      by_cases hgt : cmp k (key x) > 0
      · simp only [if_pos hgt, T.toList]
        obtain ⟨s1, s2, s3⟩ := ihr hr
        have hxlt := (law.flip _ _ hx hk).2 hgt
        have hxk : key x ≠ k := ne_of hx hk hxlt
        have hlk : ∀ y ∈ l.toList, key y ≠ k := fun y hy =>
          ne_of (hl.1 y hy) hk (law.trans _ _ _ (hl.1 y hy) hx hk (h1 y hy) hxlt)
        refine ⟨(List.Sublist.refl _).append (s1.cons_cons _), ?_, ?_⟩
        · intro y
          simp only [List.mem_append, List.mem_cons, s2]
          constructor
          · rintro (h | rfl | ⟨h, h'⟩)
            · exact ⟨.inl h, hlk y h⟩
            · exact ⟨.inr (.inl rfl), hxk⟩
            · exact ⟨.inr (.inr h), h'⟩
          · rintro ⟨h | h | h, h'⟩
            · exact .inl h
            · exact .inr (.inl h)
            · exact .inr (.inr ⟨h, h'⟩)
        · rintro ⟨y, hy, hyk⟩
          simp only [List.mem_append, List.mem_cons] at hy
          rcases hy with hy | rfl | hy
          · exact absurd hyk (hlk y hy)
          · exact absurd hyk hxk
          · have := s3 ⟨y, hy, hyk⟩
            simp only [List.length_append, List.length_cons]; omega
      · simp only [if_neg hgt, removeRoot_spec, T.toList]
        have hkx : k = key x := (law.eq _ _ hk hx).1 (by omega)
        subst hkx
        refine ⟨(List.Sublist.refl _).append (List.sublist_cons_self _ _), ?_, ?_⟩
        · intro y
          simp only [List.mem_append, List.mem_cons]
          constructor
          · rintro (h | h)
            · exact ⟨.inl h, ne_of (hl.1 y h) hx (h1 y h)⟩
            · exact ⟨.inr (.inr h), Ne.symm (ne_of hx (hr.1 y h) (h2 y h))⟩
          · rintro ⟨h | rfl | h, h'⟩
            · exact .inl h
            · exact absurd rfl h'
            · exact .inr h
        · intro _
          simp only [List.length_append, List.length_cons]; omega

theorem Ordered.sublist {a b : List α} (h : Ordered cmp D key b) (hs : a.Sublist b) : Ordered cmp D key a :=
  ⟨fun x hx => h.1 x (hs.subset hx), h.2.sublist hs⟩

/-- `update` changes exactly the element with the key. -/
theorem update_spec (law : Lawful cmp D) {t : T α} (ht : Ordered cmp D key t.toList) {k : κ} (hk : D k)
    (f : α → α) :
    ∃ g : α → α, (update (fun y => cmp k (key y)) f t).toList = t.toList.map g ∧
      ∀ y ∈ t.toList, (key y = k → g y = f y) ∧ (key y ≠ k → g y = y) := by
  classical
  refine ⟨fun y => if key y = k then f y else y, ?_, fun y _ => ⟨fun h => if_pos h, fun h => if_neg h⟩⟩
  have ne_of : ∀ {a b}, D a → D b → cmp a b < 0 → a ≠ b := by
    intro a b ha hb hlt he
    have := (law.eq a b ha hb).2 he
    omega
  have keep : ∀ l : List α, (∀ y ∈ l, key y ≠ k) → l.map (fun y => if key y = k then f y else y) = l := by
    intro l hl
    induction l with
    | nil => rfl
    | cons y l ih =>
      rw [List.map_cons, if_neg (hl y List.mem_cons_self), ih fun z hz => hl z (List.mem_cons_of_mem _ hz)]
  induction t with
  | nil => rfl
  | node l x r ihl ihr =>
    obtain ⟨hl, hr, hx, h1, h2⟩ := ordered_node ht
    rw [update]
    by_cases hlt : cmp k (key x) < 0
    · simp only [if_pos hlt, T.toList]
      rw [ihl hl, List.map_append, List.map_cons, if_neg (Ne.symm (ne_of hk hx hlt)), keep r.toList]
      exact fun y hy => Ne.symm (ne_of hk (hr.1 y hy) (law.trans _ _ _ hk hx (hr.1 y hy) hlt (h2 y hy)))
    · simp only [if_neg hlt]
      by_cases hgt : cmp k (key x) > 0
      · simp only [if_pos hgt, T.toList]
        have hxlt := (law.flip _ _ hx hk).2 hgt
        rw [ihr hr, List.map_append, List.map_cons, if_neg (ne_of hx hk hxlt), keep l.toList]
        exact fun y hy => ne_of (hl.1 y hy) hk (law.trans _ _ _ (hl.1 y hy) hx hk (h1 y hy) hxlt)
      · simp only [if_neg hgt, T.toList]
        have hkx : k = key x := (law.eq _ _ hk hx).1 (by omega)
        rw [List.map_append, List.map_cons, if_pos hkx.symm, keep l.toList, keep r.toList]
        · exact fun y hy => hkx ▸ Ne.symm (ne_of hx (hr.1 y hy) (h2 y hy))
        · exact fun y hy => hkx ▸ ne_of (hl.1 y hy) hx (h1 y hy)

end

/-! ### The comparisons -/

/-- Ids whose differences fit an `int`. -/
def Window (lo i : Int) : Prop := lo ≤ i ∧ i < lo + 2147483648

theorem idCmp_window {lo a b : Int} (ha : Window lo a) (hb : Window lo b) : idCmp a b = a - b := by
  unfold idCmp toInt32
  obtain ⟨h1, h2⟩ := ha
  obtain ⟨h3, h4⟩ := hb
  omega

theorem idCmp_lawful (lo : Int) : Lawful idCmp (Window lo) where
  eq a b ha hb := by rw [idCmp_window ha hb]; omega
  flip a b ha hb := by rw [idCmp_window ha hb, idCmp_window hb ha]; omega
  trans a b c ha hb hc := by
    rw [idCmp_window ha hb, idCmp_window hb hc, idCmp_window ha hc]; omega

theorem strcmp_eq (s : Str) : ∀ t, strcmp s t = 0 ↔ s = t := by
  induction s with
  | nil => intro t; cases t <;> simp [strcmp]
  | cons a s ih =>
    intro t
    cases t with
    | nil => simp [strcmp]
    | cons b t =>
      rw [strcmp]
      by_cases h1 : a.toNat < b.toNat
      · rw [if_pos h1]
        simp only [List.cons.injEq]
        constructor
        · intro h; omega
        · rintro ⟨rfl, _⟩; omega
      · rw [if_neg h1]
        by_cases h2 : a.toNat > b.toNat
        · rw [if_pos h2]
          simp only [List.cons.injEq]
          constructor
          · intro h; omega
          · rintro ⟨rfl, _⟩; omega
        · rw [if_neg h2, ih, List.cons.injEq]
          constructor
          · intro h; exact ⟨Char.toNat_inj.1 (by omega), h⟩
          · intro h; exact h.2

theorem strcmp_flip (s : Str) : ∀ t, strcmp s t < 0 ↔ strcmp t s > 0 := by
  induction s with
  | nil => intro t; cases t <;> simp [strcmp]
  | cons a s ih =>
    intro t
    cases t with
    | nil => simp [strcmp]
    | cons b t =>
      rw [strcmp, strcmp]
      by_cases h1 : a.toNat < b.toNat
      · rw [if_pos h1, if_neg (by omega), if_pos h1]; omega
      · by_cases h2 : a.toNat > b.toNat
        · rw [if_neg h1, if_pos h2, if_pos h2]; omega
        · rw [if_neg h1, if_neg h2, if_neg h2, if_neg h1]; exact ih t

theorem strcmp_trans (s : Str) : ∀ t u, strcmp s t < 0 → strcmp t u < 0 → strcmp s u < 0 := by
  induction s with
  | nil =>
    intro t u h1 h2
    cases u with
    | nil =>
      cases t with
      | nil => exact h1
      | cons b t => simp [strcmp] at h2
    | cons c u => simp [strcmp]
  | cons a s ih =>
    intro t u h1 h2
    cases t with
    | nil => simp [strcmp] at h1
    | cons b t =>
      cases u with
      | nil => simp [strcmp] at h2
      | cons c u =>
        rw [strcmp] at h1 h2 ⊢
        by_cases hab : a.toNat < b.toNat
        · by_cases hbc : b.toNat < c.toNat
          · rw [if_pos (by omega)]; omega
          · rw [if_neg hbc] at h2
            by_cases hcb : b.toNat > c.toNat
            · rw [if_pos hcb] at h2; omega
            · rw [if_pos (by omega)]; omega
        · rw [if_neg hab] at h1
          by_cases hba : a.toNat > b.toNat
          · rw [if_pos hba] at h1; omega
          · rw [if_neg hba] at h1
            by_cases hbc : b.toNat < c.toNat
            · rw [if_pos (by omega)]; omega
            · rw [if_neg hbc] at h2
              by_cases hcb : b.toNat > c.toNat
              · rw [if_pos hcb] at h2; omega
              · rw [if_neg hcb] at h2
                rw [if_neg (by omega), if_neg (by omega)]
                exact ih t u h1 h2

theorem strcmp_lawful : Lawful strcmp (fun _ => True) where
  eq a b _ _ := strcmp_eq a b
  flip a b _ _ := strcmp_flip a b
  trans a b c _ _ _ := strcmp_trans a b c

/-! ### Histories of id sets -/

/-- The tree and the set have the same ids, and the counter counts them. -/
structure SameIds (lo : Int) (s : IdSet) (S : Int → Bool) : Prop where
  ordered : Ordered idCmp (Window lo) id s.root.toList
  mem : ∀ i, i ∈ s.root.toList ↔ S i = true
  count : s.count = s.root.toList.length

theorem SameIds.rot {lo : Int} {s : IdSet} {S} (h : SameIds lo s S) {t} (hr : Rot s.root t) :
    SameIds lo ⟨t, s.count⟩ S := by
  have := hr.toList
  exact ⟨by simpa [this] using h.ordered, by simpa [this] using h.mem, by simpa [this] using h.count⟩

theorem sameIds_add {lo : Int} {s : IdSet} {S} (h : SameIds lo s S) {i : Int} (hi : Window lo i) :
    (insert (idCmp i) i s.root = none ∧ S i = true) ∨
    (∃ t, insert (idCmp i) i s.root = some t ∧ S i = false ∧
      SameIds lo ⟨t, s.count + 1⟩ fun j => S j || decide (j = i)) := by
  have := insert_spec (idCmp_lawful lo) (key := id) h.ordered (e := i) hi
  rcases this with ⟨h1, y, hy, rfl⟩ | ⟨t, a, b, h1, h2, h3, h4, h5⟩
  · exact .inl ⟨h1, (h.mem _).1 hy⟩
  · right
    refine ⟨t, h1, ?_, ?_⟩
    · cases hS : S i with
      | false => rfl
      | true =>
        have hm := (h.mem i).2 hS
        have h0 : idCmp i i = 0 := ((idCmp_lawful lo).eq i i hi hi).2 rfl
        rw [h2, List.mem_append] at hm
        rcases hm with hm | hm
        · have := h4 i hm; simp only [id] at this; omega
        · have := h5 i hm; simp only [id] at this; omega
    · refine ⟨?_, ?_, ?_⟩
      · show Ordered idCmp (Window lo) id t.toList
        rw [h3]
        exact ordered_insert (idCmp_lawful lo) (h2 ▸ h.ordered) hi h4 h5
      · intro j
        show j ∈ t.toList ↔ _
        rw [h3, Bool.or_eq_true, ← h.mem, h2]
        simp only [List.mem_append, List.mem_cons, decide_eq_true_eq]
        constructor
        · rintro (h | h | h)
          · exact .inl (.inl h)
          · exact .inr h
          · exact .inl (.inr h)
        · rintro ((h | h) | h)
          · exact .inl h
          · exact .inr (.inr h)
          · exact .inr (.inl h)
      · show s.count + 1 = (t.toList.length : Int)
        rw [h3, h.count, h2]
        simp only [List.length_append, List.length_cons]
        omega

theorem sameIds_find {lo : Int} {s : IdSet} {S} (h : SameIds lo s S) {i : Int} (hi : Window lo i) :
    (find (idCmp i) s.root).isSome = S i := by
  cases hS : S i with
  | true =>
    have := (find_iff (idCmp_lawful lo) (key := id) h.ordered hi i).2 ⟨(h.mem i).2 hS, rfl⟩
    simp only [id] at this
    rw [show find (idCmp i) s.root = some i from this]; rfl
  | false =>
    have := (find_none_iff (idCmp_lawful lo) (key := id) h.ordered hi).2 (by
      rintro x hx rfl
      have h2 := (h.mem _).1 hx
      rw [show x = id x from rfl, hS] at h2
      cases h2)
    simp only [id] at this
    rw [show find (idCmp i) s.root = none from this]; rfl

theorem sameIds_step {lo : Int} {s : IdSet} {S} (h : SameIds lo s S) {op : IdOp} (hi : Window lo op.id) :
    (idStep s op).1 = (setStep S op).1 ∧ SameIds lo (idStep s op).2 (setStep S op).2 := by
  have same : ∀ {i}, S i = true → SameIds lo s fun j => S j || decide (j = i) := by
    intro i hS
    refine ⟨h.ordered, fun j => ?_, h.count⟩
    rw [h.mem, Bool.or_eq_true, decide_eq_true_eq]
    constructor
    · exact .inl
    · rintro (h | rfl)
      · exact h
      · exact hS
  cases op with
  | add i =>
    rcases sameIds_add h hi with ⟨h1, h2⟩ | ⟨t, h1, h2, h3⟩
    · simp only [IdOp.id] at h1 h2
      simp only [idStep, h1, setStep, h2]; exact ⟨rfl, same h2⟩
    · simp only [IdOp.id] at h1 h2 h3
      simp only [idStep, h1, setStep, h2]; exact ⟨rfl, h3⟩
  | addDup i =>
    rcases sameIds_add h hi with ⟨h1, h2⟩ | ⟨t, h1, h2, h3⟩
    · simp only [IdOp.id] at h1 h2
      simp only [idStep, h1, setStep]; exact ⟨trivial, same h2⟩
    · simp only [IdOp.id] at h1 h2 h3
      simp only [idStep, h1, setStep]; exact ⟨trivial, h3⟩
  | search i =>
    simp only [idStep, setStep]
    exact ⟨sameIds_find h hi, h⟩
  | remove i =>
    have hf := sameIds_find h hi
    simp only [IdOp.id] at hf
    cases hfi : find (idCmp i) s.root with
    | none =>
      rw [hfi] at hf
      simp only [idStep, hfi, setStep, true_and]
      refine ⟨h.ordered, fun j => ?_, h.count⟩
      rw [h.mem, Bool.and_eq_true, decide_eq_true_eq]
      constructor
      · intro hj
        refine ⟨hj, ?_⟩
        rintro rfl
        rw [hj] at hf
        cases hf
      · exact fun hj => hj.1
    | some x =>
      rw [hfi] at hf
      simp only [idStep, hfi, setStep, true_and]
      obtain ⟨r1, r2, r3⟩ := remove_spec (idCmp_lawful lo) (key := id) h.ordered hi
      simp only [id, IdOp.id] at r1 r2 r3
      have r3 := r3 ⟨i, (h.mem i).2 hf.symm, rfl⟩
      refine ⟨h.ordered.sublist r1, fun j => ?_, ?_⟩
      · show j ∈ (Tree.remove (idCmp i) s.root).toList ↔ _
        rw [Bool.and_eq_true, decide_eq_true_eq, ← h.mem]
        exact r2 j
      · show s.count - 1 = ((Tree.remove (idCmp i) s.root).toList.length : Int)
        have := h.count
        have e : (Tree.remove (idCmp i) s.root) = Tree.remove (fun y => idCmp i y) s.root := rfl
        rw [e]
        omega

theorem sameIds_run {lo : Int} {s : IdSet} {l u} (hr : IdRun s l u) : ∀ {S}, SameIds lo s S →
    (∀ p ∈ l, Window lo p.1.id) → ∃ S', setRun S l = some S' ∧ SameIds lo u S' := by
  induction hr with
  | nil s => intro S h _; exact ⟨S, rfl, h⟩
  | cons h1 h2 _ ih =>
    intro S h hw
    obtain ⟨h3, h4⟩ := sameIds_step h (hw _ List.mem_cons_self)
    rw [h1] at h3 h4
    obtain ⟨S', h5, h6⟩ := ih (h4.rot h2) fun p hp => hw p (List.mem_cons_of_mem _ hp)
    refine ⟨S', ?_, h6⟩
    rw [setRun, if_pos h3.symm]
    exact h5

/-! ### Histories of variable stores -/

structure SameVars (s : Vardb) (M : Str → Option (Option Str)) : Prop where
  ordered : Ordered strcmp (fun _ => True) Var.name s.root.toList
  mem : ∀ n v, ⟨n, v⟩ ∈ s.root.toList ↔ M n = some v
  count : s.count = s.root.toList.length

theorem SameVars.rot {s : Vardb} {M} (h : SameVars s M) {t} (hr : Rot s.root t) : SameVars ⟨t, s.count⟩ M := by
  have := hr.toList
  exact ⟨by simpa [this] using h.ordered, by simpa [this] using h.mem, by simpa [this] using h.count⟩

theorem sameVars_find {s : Vardb} {M} (h : SameVars s M) (n : Str) :
    (find (varCmp n) s.root) = (M n).map (Var.mk n) := by
  cases hM : M n with
  | some v =>
    exact (find_iff strcmp_lawful (key := Var.name) h.ordered trivial ⟨n, v⟩).2 ⟨(h.mem n v).2 hM, rfl⟩
  | none =>
    refine (find_none_iff strcmp_lawful (key := Var.name) h.ordered trivial).2 ?_
    rintro ⟨m, v⟩ hx rfl
    have h2 := (h.mem _ _).1 hx
    rw [hM] at h2
    cases h2

theorem sameVars_update {s : Vardb} {M} (h : SameVars s M) {n : Str} {v : Option Str} (hM : M n = some v)
    (g : Option Str → Option Str) :
    SameVars ⟨update (varCmp n) (fun e => { e with value := g e.value }) s.root, s.count⟩
      fun m => if m = n then some (g v) else M m := by
  obtain ⟨f, h1, h2⟩ := update_spec strcmp_lawful (key := Var.name) h.ordered (k := n) trivial
    (fun e => { e with value := g e.value })
  have hname : ∀ y ∈ s.root.toList, (f y).name = y.name := by
    intro y hy
    by_cases hyn : y.name = n
    · rw [(h2 y hy).1 hyn]
    · rw [(h2 y hy).2 hyn]
  refine ⟨⟨fun _ _ => trivial, ?_⟩, ?_, ?_⟩
  · show List.Pairwise _ (update (fun y => strcmp n y.name) _ s.root).toList
    rw [h1, List.pairwise_map]
    refine List.Pairwise.imp_of_mem ?_ h.ordered.2
    intro a b ha hb hab
    rw [hname a ha, hname b hb]
    exact hab
  · intro m w
    show _ ∈ (update (fun y => strcmp n y.name) _ s.root).toList ↔ _
    rw [h1, List.mem_map]
    by_cases hmn : m = n
    · subst hmn
      rw [if_pos rfl]
      constructor
      · rintro ⟨⟨a, av⟩, ha, he⟩
        have hn := hname _ ha
        rw [he] at hn
        simp only at hn
        subst hn
        rw [(h2 _ ha).1 rfl] at he
        have h3 := (h.mem m av).1 ha
        rw [hM] at h3
        simp only [Option.some.injEq] at h3
        subst h3
        simp only [Var.mk.injEq, true_and] at he
        rw [he]
      · intro he
        simp only [Option.some.injEq] at he
        exact ⟨⟨m, v⟩, (h.mem m v).2 hM, by rw [(h2 _ ((h.mem m v).2 hM)).1 rfl, he]⟩
    · rw [if_neg hmn]
      constructor
      · rintro ⟨⟨a, av⟩, ha, he⟩
        have hn := hname _ ha
        rw [he] at hn
        simp only at hn
        subst hn
        rw [(h2 _ ha).2 hmn] at he
        rw [he] at ha
        exact (h.mem m w).1 ha
      · intro he
        have := (h.mem m w).2 he
        exact ⟨_, this, (h2 _ this).2 hmn⟩
  · show s.count = ((update (fun y => strcmp n y.name) _ s.root).toList.length : Int)
    rw [h1, List.length_map]
    exact h.count

theorem sameVars_set {s : Vardb} {M} (h : SameVars s M) (n : Str) (x : Option Str) :
    SameVars (s.set n x) fun m => if m = n then some x else M m := by
  have hf := sameVars_find h n
  cases hM : M n with
  | some v =>
    rw [hM] at hf
    simp only [Vardb.set, hf, Option.map_some]
    exact sameVars_update h hM fun _ => x
  | none =>
    rw [hM] at hf
    rcases insert_spec strcmp_lawful (key := Var.name) h.ordered (e := ⟨n, x⟩) trivial with
      ⟨h1, ⟨m, y⟩, hy, rfl⟩ | ⟨t, a, b, h1, h2, h3, h4, h5⟩
    · have := (h.mem _ _).1 hy
      simp only at hM
      rw [hM] at this
      cases this
    · have h1 : insert (varCmp n) ⟨n, x⟩ s.root = some t := h1
      simp only [Vardb.set, hf, Option.map_none, h1]
      refine ⟨?_, ?_, ?_⟩
      · show Ordered strcmp (fun _ => True) Var.name t.toList
        rw [h3]
        exact ordered_insert strcmp_lawful (h2 ▸ h.ordered) trivial h4 h5
      · intro m w
        show _ ∈ t.toList ↔ _
        have hm := h.mem m w
        rw [h2, List.mem_append] at hm
        rw [h3, List.mem_append, List.mem_cons]
        by_cases hmn : m = n
        · subst hmn
          rw [if_pos rfl]
          rw [hM] at hm
          constructor
          · rintro (h | h | h)
            · exact absurd (hm.1 (.inl h)) (by simp)
            · simp only [Var.mk.injEq, true_and] at h; rw [h]
            · exact absurd (hm.1 (.inr h)) (by simp)
          · intro he
            simp only [Option.some.injEq] at he
            rw [he]
            exact .inr (.inl rfl)
        · rw [if_neg hmn]
          constructor
          · rintro (h | h | h)
            · exact hm.1 (.inl h)
            · exact absurd (congrArg Var.name h) hmn
            · exact hm.1 (.inr h)
          · intro he
            rcases hm.2 he with h | h
            · exact .inl h
            · exact .inr (.inr h)
      · show s.count + 1 = (t.toList.length : Int)
        rw [h3, h.count, h2]
        simp only [List.length_append, List.length_cons]
        omega

theorem sameVars_step {s : Vardb} {M} (h : SameVars s M) (op : VarOp) :
    (varStep s op).1 = (mapStep M op).1 ∧ SameVars (varStep s op).2 (mapStep M op).2 := by
  cases op with
  | set n x => exact ⟨rfl, sameVars_set h n x⟩
  | get n =>
    have hf := sameVars_find h n
    simp only [varStep, mapStep, hf]
    refine ⟨?_, h⟩
    cases M n <;> rfl
  | copy n =>
    have hf := sameVars_find h n
    cases hM : M n with
    | none => rw [hM] at hf; simp only [varStep, mapStep, hf, hM, Option.map_none, true_and]; exact h
    | some v =>
      rw [hM] at hf
      simp only [varStep, mapStep, hf, hM, Option.map_some]
      refine ⟨?_, h⟩
      cases v <;> rfl
  | append n x =>
    have hf := sameVars_find h n
    cases hM : M n with
    | none =>
      rw [hM] at hf
      simp only [varStep, mapStep, Vardb.append, hf, hM, Option.map_none, true_and]
      exact sameVars_set h n (some x)
    | some v =>
      rw [hM] at hf
      simp only [varStep, mapStep, Vardb.append, hf, hM, Option.map_some, true_and]
      have := sameVars_update h hM fun o => some (o.getD [] ++ ' ' :: x)
      cases v <;> exact this

theorem sameVars_run {s : Vardb} {l u} (hr : VarRun s l u) : ∀ {M}, SameVars s M →
    ∃ M', mapRun M l = some M' ∧ SameVars u M' := by
  induction hr with
  | nil s => intro M h; exact ⟨M, rfl, h⟩
  | cons h1 h2 _ ih =>
    intro M h
    obtain ⟨h3, h4⟩ := sameVars_step h _
    rw [h1] at h3 h4
    obtain ⟨M', h5, h6⟩ := ih (h4.rot h2)
    refine ⟨M', ?_, h6⟩
    rw [mapRun, if_pos h3.symm]
    exact h5

/-! ### Walks -/

section
variable {κ : Type} {cmp : κ → κ → Int} {D : κ → Prop} {key : α → κ}

theorem walk_spec (law : Lawful cmp D) (a b : List α) (ha : Ordered cmp D key a) (hb : Ordered cmp D key b) :
    (∀ x, .onlyA x ∈ walk (fun x y => cmp (key x) (key y)) a b ↔ x ∈ a ∧ ∀ y ∈ b, key y ≠ key x) ∧
    (∀ y, .onlyB y ∈ walk (fun x y => cmp (key x) (key y)) a b ↔ y ∈ b ∧ ∀ x ∈ a, key x ≠ key y) ∧
    (∀ x y, .both x y ∈ walk (fun x y => cmp (key x) (key y)) a b ↔ x ∈ a ∧ y ∈ b ∧ key x = key y) := by
  have ne_of : ∀ {a b}, D a → D b → cmp a b < 0 → a ≠ b := by
    intro a b ha hb hlt he
    have := (law.eq a b ha hb).2 he
    omega
  have tail : ∀ {x : α} {l}, Ordered cmp D key (x :: l) → Ordered cmp D key l := fun h =>
    h.sublist (List.sublist_cons_self _ _)
  fun_induction walk (fun x y => cmp (key x) (key y)) a b with
  | case1 => simp
  | case2 y b ih =>
    obtain ⟨i1, i2, i3⟩ := ih ha (tail hb)
    refine ⟨?_, ?_, ?_⟩
    · intro x; simp [i1]
    · intro z; simp [i2]
    · intro x z; simp [i3]
  | case3 x a ih =>
    obtain ⟨i1, i2, i3⟩ := ih (tail ha) hb
    refine ⟨?_, ?_, ?_⟩
    · intro x; simp [i1]
    · intro z; simp [i2]
    · intro x z; simp [i3]
  | case4 x a y b h ih =>
    obtain ⟨i1, i2, i3⟩ := ih (tail ha) (tail hb)
    have hDx := ha.1 x List.mem_cons_self
    have hDy := hb.1 y List.mem_cons_self
    have hxy : key x = key y := (law.eq _ _ hDx hDy).1 h
    have hxa : ∀ z ∈ a, key z ≠ key x := fun z hz =>
      Ne.symm (ne_of hDx (ha.1 z (List.mem_cons_of_mem _ hz)) ((List.pairwise_cons.1 ha.2).1 z hz))
    have hyb : ∀ z ∈ b, key z ≠ key y := fun z hz =>
      Ne.symm (ne_of hDy (hb.1 z (List.mem_cons_of_mem _ hz)) ((List.pairwise_cons.1 hb.2).1 z hz))
    refine ⟨?_, ?_, ?_⟩
    · intro z
      simp only [List.mem_cons, reduceCtorEq, false_or, i1, forall_eq_or_imp]
      constructor
      · rintro ⟨h1, h2⟩
        exact ⟨.inr h1, fun he => hxa z h1 (by rw [hxy, he]), h2⟩
      · rintro ⟨rfl | h1, h2, h3⟩
        · exact absurd hxy.symm h2
        · exact ⟨h1, h3⟩
    · intro z
      simp only [List.mem_cons, reduceCtorEq, false_or, i2, forall_eq_or_imp]
      constructor
      · rintro ⟨h1, h2⟩
        exact ⟨.inr h1, fun he => hyb z h1 (by rw [← hxy, he]), h2⟩
      · rintro ⟨rfl | h1, h2, h3⟩
        · exact absurd hxy h2
        · exact ⟨h1, h3⟩
    · intro u v
      simp only [List.mem_cons, Diff.both.injEq, i3]
      constructor
      · rintro (⟨rfl, rfl⟩ | ⟨h1, h2, h3⟩)
        · exact ⟨.inl rfl, .inl rfl, hxy⟩
        · exact ⟨.inr h1, .inr h2, h3⟩
      · rintro ⟨rfl | h1, rfl | h2, h3⟩
        · exact .inl ⟨rfl, rfl⟩
        · exact absurd (h3.symm.trans hxy) (hyb v h2)
        · exact absurd (h3.trans hxy.symm) (hxa u h1)
        · exact .inr ⟨h1, h2, h3⟩
  | case5 x a y b h0 h ih =>
    obtain ⟨i1, i2, i3⟩ := ih (tail ha) hb
    have hDx := ha.1 x List.mem_cons_self
    have hDy := hb.1 y List.mem_cons_self
    have hxb : ∀ z ∈ y :: b, key z ≠ key x := by
      intro z hz
      rcases List.mem_cons.1 hz with rfl | hz'
      · exact Ne.symm (ne_of hDx hDy h)
      · exact Ne.symm (ne_of hDx (hb.1 z hz)
          (law.trans _ _ _ hDx hDy (hb.1 z hz) h ((List.pairwise_cons.1 hb.2).1 z hz')))
    refine ⟨?_, ?_, ?_⟩
    · intro z
      rw [List.mem_cons, i1, List.mem_cons]
      simp only [Diff.onlyA.injEq]
      constructor
      · rintro (rfl | ⟨h1, h2⟩)
        · exact ⟨.inl rfl, hxb⟩
        · exact ⟨.inr h1, h2⟩
      · rintro ⟨rfl | h1, h2⟩
        · exact .inl rfl
        · exact .inr ⟨h1, h2⟩
    · intro z
      rw [List.mem_cons, i2]
      simp only [reduceCtorEq, false_or]
      constructor
      · rintro ⟨h1, h2⟩
        refine ⟨h1, fun w hw => ?_⟩
        rcases List.mem_cons.1 hw with rfl | hw
        · exact Ne.symm (hxb z h1)
        · exact h2 w hw
      · rintro ⟨h1, h2⟩
        exact ⟨h1, fun w hw => h2 w (List.mem_cons_of_mem _ hw)⟩
    · intro u v
      rw [List.mem_cons, i3, List.mem_cons (a := u)]
      simp only [reduceCtorEq, false_or]
      constructor
      · rintro ⟨h1, h2, h3⟩
        exact ⟨.inr h1, h2, h3⟩
      · rintro ⟨rfl | h1, h2, h3⟩
        · exact absurd h3.symm (hxb v h2)
        · exact ⟨h1, h2, h3⟩
  | case6 x a y b h0 h ih =>
    obtain ⟨i1, i2, i3⟩ := ih ha (tail hb)
    have hDx := ha.1 x List.mem_cons_self
    have hDy := hb.1 y List.mem_cons_self
    have hyx : cmp (key y) (key x) < 0 := (law.flip _ _ hDy hDx).2 (by omega)
    have hya : ∀ z ∈ x :: a, key z ≠ key y := by
      intro z hz
      rcases List.mem_cons.1 hz with rfl | hz'
      · exact Ne.symm (ne_of hDy hDx hyx)
      · exact Ne.symm (ne_of hDy (ha.1 z hz)
          (law.trans _ _ _ hDy hDx (ha.1 z hz) hyx ((List.pairwise_cons.1 ha.2).1 z hz')))
    refine ⟨?_, ?_, ?_⟩
    · intro z
      rw [List.mem_cons, i1]
      simp only [reduceCtorEq, false_or]
      constructor
      · rintro ⟨h1, h2⟩
        refine ⟨h1, fun w hw => ?_⟩
        rcases List.mem_cons.1 hw with rfl | hw
        · exact Ne.symm (hya z h1)
        · exact h2 w hw
      · rintro ⟨h1, h2⟩
        exact ⟨h1, fun w hw => h2 w (List.mem_cons_of_mem _ hw)⟩
    · intro z
      rw [List.mem_cons, i2, List.mem_cons]
      simp only [Diff.onlyB.injEq]
      constructor
      · rintro (rfl | ⟨h1, h2⟩)
        · exact ⟨.inl rfl, hya⟩
        · exact ⟨.inr h1, h2⟩
      · rintro ⟨rfl | h1, h2⟩
        · exact .inl rfl
        · exact .inr ⟨h1, h2⟩
    · intro u v
      rw [List.mem_cons, i3, List.mem_cons (a := v)]
      simp only [reduceCtorEq, false_or]
      constructor
      · rintro ⟨h1, h2, h3⟩
        exact ⟨h1, .inr h2, h3⟩
      · rintro ⟨h1, rfl | h2, h3⟩
        · exact absurd h3 (hya u h1)
        · exact ⟨h1, h2, h3⟩

theorem walk_keys (c : α → α → Int) (a b : List α) (e : Diff α) (he : e ∈ walk c a b) :
    e.elem ∈ a ∨ e.elem ∈ b := by
  fun_induction walk c a b with
  | case1 => cases he
  | case2 y b ih =>
    rcases List.mem_cons.1 he with rfl | he
    · exact .inr List.mem_cons_self
    · rcases ih he with h | h
      · cases h
      · exact .inr (List.mem_cons_of_mem _ h)
  | case3 x a ih =>
    rcases List.mem_cons.1 he with rfl | he
    · exact .inl List.mem_cons_self
    · rcases ih he with h | h
      · exact .inl (List.mem_cons_of_mem _ h)
      · cases h
  | case4 x a y b h ih =>
    rcases List.mem_cons.1 he with rfl | he
    · exact .inl List.mem_cons_self
    · rcases ih he with h | h
      · exact .inl (List.mem_cons_of_mem _ h)
      · exact .inr (List.mem_cons_of_mem _ h)
  | case5 x a y b h0 h ih =>
    rcases List.mem_cons.1 he with rfl | he
    · exact .inl List.mem_cons_self
    · rcases ih he with h | h
      · exact .inl (List.mem_cons_of_mem _ h)
      · exact .inr h
  | case6 x a y b h0 h ih =>
    rcases List.mem_cons.1 he with rfl | he
    · exact .inr List.mem_cons_self
    · rcases ih he with h | h
      · exact .inl h
      · exact .inr (List.mem_cons_of_mem _ h)

/-- The calls come in ascending order of their keys, so there is one call per key at most. -/
theorem walk_sorted (law : Lawful cmp D) (a b : List α) (ha : Ordered cmp D key a) (hb : Ordered cmp D key b) :
    (walk (fun x y => cmp (key x) (key y)) a b).Pairwise fun e f => cmp (key e.elem) (key f.elem) < 0 := by
  have tail : ∀ {x : α} {l}, Ordered cmp D key (x :: l) → Ordered cmp D key l := fun h =>
    h.sublist (List.sublist_cons_self _ _)
  have hd : ∀ {x : α} {l}, Ordered cmp D key (x :: l) → ∀ z ∈ l, cmp (key x) (key z) < 0 := fun h =>
    (List.pairwise_cons.1 h.2).1
  fun_induction walk (fun x y => cmp (key x) (key y)) a b with
  | case1 => exact List.Pairwise.nil
  | case2 y b ih =>
    refine List.Pairwise.cons ?_ (ih ha (tail hb))
    intro e he
    rcases walk_keys _ _ _ _ he with h | h
    · cases h
    · exact hd hb _ h
  | case3 x a ih =>
    refine List.Pairwise.cons ?_ (ih (tail ha) hb)
    intro e he
    rcases walk_keys _ _ _ _ he with h | h
    · exact hd ha _ h
    · cases h
  | case4 x a y b h ih =>
    refine List.Pairwise.cons ?_ (ih (tail ha) (tail hb))
    have hxy : key x = key y := (law.eq _ _ (ha.1 x List.mem_cons_self) (hb.1 y List.mem_cons_self)).1 h
    intro e he
    rcases walk_keys _ _ _ _ he with h | h
    · exact hd ha _ h
    · show cmp (key x) _ < 0
      rw [hxy]
      exact hd hb _ h
  | case5 x a y b h0 h ih =>
    refine List.Pairwise.cons ?_ (ih (tail ha) hb)
    intro e he
    rcases walk_keys _ _ _ _ he with h' | h'
    · exact hd ha _ h'
    · rcases List.mem_cons.1 h' with h'' | h''
      · show cmp (key x) _ < 0
        rw [h'']; exact h
      · exact law.trans _ _ _ (ha.1 x List.mem_cons_self) (hb.1 y List.mem_cons_self) (hb.1 _ h') h (hd hb _ h'')
  | case6 x a y b h0 h ih =>
    refine List.Pairwise.cons ?_ (ih ha (tail hb))
    have hDx := ha.1 x List.mem_cons_self
    have hDy := hb.1 y List.mem_cons_self
    have hyx : cmp (key y) (key x) < 0 := (law.flip _ _ hDy hDx).2 (by omega)
    intro e he
    rcases walk_keys _ _ _ _ he with h' | h'
    · rcases List.mem_cons.1 h' with h'' | h''
      · show cmp (key y) _ < 0
        rw [h'']; exact hyx
      · exact law.trans _ _ _ hDy hDx (ha.1 _ h') hyx (hd ha _ h'')
    · exact hd hb _ h'

end

end Tup.Tree
