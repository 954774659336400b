import Verif.Lua.Spec

/-! Lemmas about tables for C85. -/

namespace Tup.Lua

open Tup (Str)

/-- What `put` makes of the table. -/
def upd (k : Str) (v : Val) (t : Tab) : Tab :=
  { t with fields := if v = .nil then t.fields.filter fun x => decide (x.1 ≠ k) else (t.fields.filter fun x => decide (x.1 ≠ k)) ++ [(k, v)] }

theorem put_at (h : Heap) (i j : Nat) (k : Str) (v : Val) : (put h i k v)[j]? = (h[j]?).map fun t => if i = j then upd k v t else t := by
  unfold put
  cases hi : h[i]? with
  | none =>
    dsimp only
    by_cases e : i = j
    · subst e; rw [hi]; rfl
    · simp [e]
  | some t =>
    dsimp only
    by_cases e : i = j
    · subst e
      have hl := (List.getElem?_eq_some_iff.mp hi).1
      rw [List.getElem?_set_self hl, hi]
      simp [upd]
    · rw [List.getElem?_set_ne e]
      simp [e]

theorem put_length (h : Heap) (i : Nat) (k : Str) (v : Val) : (put h i k v).length = h.length := by
  unfold put
  split
  · simp
  · rfl

theorem field_filter_ne {k k' : Str} (h : k ≠ k') (l : List (Str × Val)) : field k (l.filter fun x => decide (x.1 ≠ k')) = field k l := by
  induction l with
  | nil => rfl
  | cons x l ih =>
    by_cases hx : x.1 = k'
    · rw [List.filter_cons_of_neg (by simp [hx]), ih]
      conv => rhs; unfold field
      rw [if_neg (by rw [hx]; exact fun e => h e.symm)]
    · rw [List.filter_cons_of_pos (by simp [hx])]
      unfold field
      rw [ih]

theorem field_filter_self (k : Str) (l : List (Str × Val)) : field k (l.filter fun x => decide (x.1 ≠ k)) = .nil := by
  induction l with
  | nil => rfl
  | cons x l ih =>
    by_cases hx : x.1 = k
    · rw [List.filter_cons_of_neg (by simp [hx]), ih]
    · rw [List.filter_cons_of_pos (by simp [hx])]
      unfold field
      rw [if_neg hx, ih]

theorem field_append_one (k k' : Str) (v : Val) (l : List (Str × Val)) (hl : ∀ x ∈ l, x.1 ≠ k') : field k (l ++ [(k', v)]) = if k = k' then v else field k l := by
  induction l with
  | nil =>
    by_cases e : k = k'
    · subst e; simp [field]
    · have e' : ¬ k' = k := fun x => e x.symm
      simp [field, e, e']
  | cons x l ih =>
    have := ih fun y hy => hl y (.tail _ hy)
    show (if x.1 = k then x.2 else field k (l ++ [(k', v)])) = if k = k' then v else if x.1 = k then x.2 else field k l
    rw [this]
    by_cases hx : x.1 = k
    · have : k ≠ k' := by rw [← hx]; exact hl x (.head _)
      simp [hx, this]
    · simp [hx]

theorem field_upd (k k' : Str) (v : Val) (t : Tab) : field k (upd k' v t).fields = if k = k' then v else field k t.fields := by
  unfold upd
  dsimp only
  by_cases hv : v = .nil
  · rw [if_pos hv, hv]
    by_cases e : k = k'
    · subst e; rw [if_pos rfl, field_filter_self]
    · rw [if_neg e, field_filter_ne e]
  · rw [if_neg hv, field_append_one k k' v _ (by intro x hx; simpa using (List.mem_filter.mp hx).2)]
    by_cases e : k = k'
    · rw [if_pos e, if_pos e]
    · rw [if_neg e, if_neg e, field_filter_ne e]

theorem upd_nil (k : Str) (t : Tab) : upd k .nil t = strip [k] t := by
  unfold upd strip
  simp

theorem strip_strip (a b : List Str) (t : Tab) : strip a (strip b t) = strip (b ++ a) t := by
  unfold strip
  simp only [List.filter_filter, Tab.mk.injEq, and_true, true_and]
  congr 1
  funext x
  by_cases h1 : x.1 ∈ a <;> by_cases h2 : x.1 ∈ b <;> simp [h1, h2]

theorem strip_nil (t : Tab) : strip [] t = t := by
  show ({ t with fields := t.fields.filter fun x => decide (x.1 ∉ []) } : Tab) = t
  rw [List.filter_eq_self.mpr (by simp)]

theorem strip_absent {ks : List Str} {t : Tab} (h : ∀ x ∈ t.fields, x.1 ∉ ks) : strip ks t = t := by
  unfold strip
  rw [List.filter_eq_self.mpr fun x hx => by simpa using h x hx]

theorem field_nil_absent {k : Str} {l : List (Str × Val)} (h : field k l = .nil) (hn : ∀ x ∈ l, x.2 ≠ .nil) : ∀ x ∈ l, x.1 ≠ k := by
  induction l with
  | nil => intro x hx; cases hx
  | cons y l ih =>
    have h : (if y.1 = k then y.2 else field k l) = .nil := h
    by_cases hy : y.1 = k
    · rw [if_pos hy] at h; exact absurd h (hn y (.head _))
    · rw [if_neg hy] at h
      intro x hx
      rcases List.mem_cons.mp hx with rfl | hx
      · exact hy
      · exact ih h (fun z hz => hn z (.tail _ hz)) x hx

theorem field_strip (k : Str) (ks : List Str) (t : Tab) : field k (strip ks t).fields = if k ∈ ks then .nil else field k t.fields := by
  unfold strip
  dsimp only
  induction t.fields with
  | nil => simp [field]
  | cons x l ih =>
    by_cases hx : x.1 ∈ ks
    · rw [List.filter_cons_of_neg (by simp [hx]), ih]
      by_cases hk : k ∈ ks
      · rw [if_pos hk, if_pos hk]
      · rw [if_neg hk, if_neg hk]
        show _ = if x.1 = k then x.2 else field k l
        rw [if_neg (by rintro rfl; exact hk hx)]
    · rw [List.filter_cons_of_pos (by simp [hx])]
      show (if x.1 = k then x.2 else field k _) = if k ∈ ks then .nil else if x.1 = k then x.2 else field k l
      rw [ih]
      by_cases e : x.1 = k
      · subst e; simp [hx]
      · simp [e]

theorem all_str (addr : Nat → Str) (h : Heap) (l : List Str) : all (toStr addr h) (l.map .str) = some l := by
  induction l with
  | nil => rfl
  | cons w l ih => simp [all, toStr, ih]

/-- A table of strings without fields is its strings. -/
theorem listOf_table {addr : Nat → Str} {h : Heap} {i : Nat} {t : Tab} {l : List Str} (ht : h[i]? = some t) (ha : t.arr = l.map .str) (hf : t.fields = []) :
    listOf addr h (.ref i) = some l := by
  unfold listOf
  dsimp only
  rw [ht]
  dsimp only
  rw [hf, ha, List.map_nil, List.append_nil, all_str]

theorem get_of {h : Heap} {i : Nat} {t : Tab} {k : Str} (ht : h[i]? = some t) : get h i k = field k t.fields := by
  unfold get
  rw [ht]

/-- What `tableize` gives. -/
theorem tableize_spec {h : Heap} {v : Val} {names l : List Str} (hl : Lists h v names l) :
    ∃ (h' : Heap) (j : Nat), tableize h v = (h', .ref j) ∧ (∀ (k : Nat) (t : Tab), h[k]? = some t → h'[k]? = some t) ∧ h.length ≤ h'.length ∧
      (∃ t, h'[j]? = some t ∧ t.arr = l.map .str ∧ ∀ x ∈ t.fields, x.1 ∈ names ∧ x.2 ≠ .nil) ∧ (v = .ref j ∨ h.length = j) := by
  rcases hl with ⟨w, rfl, rfl⟩ | ⟨i, t, rfl, ht, ha, hf⟩
  · refine ⟨h ++ [{ arr := [.str w] }], h.length, rfl, fun k t hk => ?_, by simp, ⟨{ arr := [.str w] }, by simp, rfl, by intro x hx; cases hx⟩, .inr rfl⟩
    rw [List.getElem?_append_left (List.getElem?_eq_some_iff.mp hk).1]; exact hk
  · exact ⟨h, i, rfl, fun _ _ h => h, Nat.le_refl _, ⟨t, ht, ha, hf⟩, .inl rfl⟩

/-- A field of an argument is moved to the table of arguments. -/
def move (h : Heap) (a i : Nat) (k : Str) : Heap :=
  let e := get h i k
  if truthy e then
    let (h, e) := tableize h e
    let h := put h a k e
    put h i k .nil
  else h

/-- `v` will be read as these strings. -/
def Ready (h : Heap) (a : Nat) (v : Val) (l : List Str) : Prop :=
  (v = .nil ∧ l = []) ∨ ∃ j t, v = .ref j ∧ j ≠ a ∧ h[j]? = some t ∧ t.arr = l.map .str ∧ t.fields = []

theorem Ready.listOf {addr : Nat → Str} {h : Heap} {a : Nat} {v : Val} {l : List Str} (r : Ready h a v l) : Lua.listOf addr h v = some l := by
  rcases r with ⟨rfl, rfl⟩ | ⟨j, t, rfl, _, ht, ha, hf⟩
  · rfl
  · exact listOf_table ht ha hf

/-- Tables are as before, but for the fields that were taken. -/
def Kept (h h' : Heap) (a : Nat) (ks : Nat → List Str) : Prop := ∀ j t, j ≠ a → h[j]? = some t → h'[j]? = some (strip (ks j) t)

theorem Ready.kept {h h' : Heap} {a : Nat} {v : Val} {l : List Str} {ks : Nat → List Str} (r : Ready h a v l) (k : Kept h h' a ks) : Ready h' a v l := by
  rcases r with r | ⟨j, t, rfl, hj, ht, ha, hf⟩
  · exact .inl r
  · refine .inr ⟨j, t, rfl, hj, ?_, ha, hf⟩
    have := k j t hj ht
    rw [strip_absent (by rw [hf]; intro x hx; cases hx)] at this
    exact this

theorem Kept.trans {h h' h'' : Heap} {a : Nat} {ks ks' : Nat → List Str} (k : Kept h h' a ks) (k' : Kept h' h'' a ks') : Kept h h'' a fun j => ks j ++ ks' j := by
  intro j t hj ht
  rw [k' j _ hj (k j t hj ht), strip_strip]

theorem Kept.refl (h : Heap) (a : Nat) : Kept h h a fun _ => [] := by
  intro j t _ ht
  rw [strip_nil]; exact ht

theorem move_spec {h : Heap} {a i : Nat} {k : Str} {A I : Tab} {l : List Str} (hA : h[a]? = some A) (hI : h[i]? = some I) (hia : i ≠ a)
    (hn : ∀ x ∈ I.fields, x.2 ≠ .nil) (hl : Arg h (field k I.fields) [] l) (hr : field k I.fields ≠ .ref a) (hk : field k A.fields = .nil) :
    ∃ A', (move h a i k)[a]? = some A' ∧ (∀ k', k' ≠ k → field k' A'.fields = field k' A.fields) ∧ Ready (move h a i k) a (field k A'.fields) l ∧
      Kept h (move h a i k) a fun j => if j = i then [k] else [] := by
  unfold move
  rw [get_of hI]
  rcases hl with ⟨hv, rfl⟩ | hl
  · rw [hv]
    refine ⟨A, hA, fun _ _ => rfl, .inl ⟨hk, rfl⟩, ?_⟩
    intro j t hj ht
    show h[j]? = _
    dsimp only
    by_cases e : j = i
    · subst e
      rw [hI] at ht
      cases ht
      rw [if_pos rfl, strip_absent (by intro x hx; simpa using field_nil_absent hv hn x hx)]
      exact hI
    · rw [if_neg e, strip_nil]; exact ht
  · have ht : truthy (field k I.fields) = true := by
      rcases hl with ⟨w, e, _⟩ | ⟨j, t, e, _⟩ <;> rw [e] <;> rfl
    rw [if_pos ht]
    obtain ⟨h1, j, e, keep, _, ⟨t, htj, ha, hf⟩, hj⟩ := tableize_spec hl
    rw [e]
    dsimp only
    have hf : t.fields = [] := by
      cases hx : t.fields with
      | nil => rfl
      | cons x r => have := (hf x (by rw [hx]; exact .head _)).1; cases this
    have al := (List.getElem?_eq_some_iff.mp hA).1
    have il := (List.getElem?_eq_some_iff.mp hI).1
    have hja : j ≠ a := by
      rcases hj with hj | hj
      · intro e; rw [e] at hj; exact hr hj
      · omega
    have hji : j ≠ i := by
      intro e
      subst e
      rcases hj with hj | hj
      · have : h1[j]? = some I := keep j I hI
        rw [htj] at this
        cases this
        rw [hf] at hj
        cases hj
      · omega
    have hA1 : (put (put h1 a k (.ref j)) i k .nil)[a]? = some (upd k (.ref j) A) := by
      rw [put_at, put_at, keep a A hA]
      simp [hia]
    refine ⟨_, hA1, fun k' hk' => ?_, .inr ⟨j, t, ?_, hja, ?_, ha, hf⟩, ?_⟩
    · rw [field_upd, if_neg hk']
    · rw [field_upd, if_pos rfl]
    · rw [put_at, put_at, htj]
      simp [fun e => hja (Eq.symm e), fun e => hji (Eq.symm e), Ne.symm hja, Ne.symm hji]
    · intro m u hm hu
      rw [put_at, put_at, keep m u hu]
      by_cases e : m = i
      · subst e
        simp [fun e => hm (Eq.symm e), Ne.symm hm, upd_nil]
      · simp [Ne.symm hm, Ne.symm e, e, strip_nil]

/-- What an argument has to be when `tup.frule` begins. -/
def Given (h : Heap) (a : Nat) (v : Val) (names : List Str) (l : List Str) : Prop :=
  (v = .nil ∧ l = []) ∨ ∃ i t, v = .ref i ∧ i ≠ a ∧ h[i]? = some t ∧ t.arr = l.map .str ∧ ∀ x ∈ t.fields, x.1 ∈ names ∧ x.2 ≠ .nil

theorem put_same {h : Heap} {a : Nat} {A : Tab} {k : Str} {v : Val} (hA : h[a]? = some A) :
    (put h a k v)[a]? = some (upd k v A) ∧ Kept h (put h a k v) a fun _ => [] := by
  refine ⟨by rw [put_at, hA]; simp, fun j t hj ht => ?_⟩
  rw [put_at, ht, strip_nil]
  simp [Ne.symm hj]

theorem stripped_fields {t : Tab} {ks : List Str} (h : ∀ x ∈ t.fields, x.1 ∈ ks) : (strip ks t).fields = [] := by
  unfold strip
  rw [List.filter_eq_nil_iff]
  intro x hx
  simpa using h x hx

theorem fruleInputs_spec {h : Heap} {a : Nat} {A : Tab} {v : Val} {l x : List Str} (hA : h[a]? = some A) (hv : field "inputs".toList A.fields = v)
    (g : Given h a v [xIn] l) (gx : Arg h (fieldOf h v xIn) [] x) (hr : fieldOf h v xIn ≠ .ref a) (hk : field xIn A.fields = .nil) :
    ∃ A', (fruleInputs h a)[a]? = some A' ∧ (∀ k, k ≠ xIn → k ≠ "inputs".toList → field k A'.fields = field k A.fields) ∧
      Ready (fruleInputs h a) a (field "inputs".toList A'.fields) l ∧ Ready (fruleInputs h a) a (field xIn A'.fields) x ∧
      Kept h (fruleInputs h a) a fun j => if v = .ref j then [xIn] else [] := by
  have hget : get h a "inputs".toList = v := by rw [get_of hA, hv]
  rcases g with ⟨rfl, rfl⟩ | ⟨i, t, rfl, hia, ht, ha, hf⟩
  · have e : fruleInputs h a = h := by
      unfold fruleInputs
      rw [hget]; rfl
    rw [e]
    refine ⟨A, hA, fun _ _ _ => rfl, .inl ⟨hv, rfl⟩, .inl ⟨hk, ?_⟩, ?_⟩
    · rcases gx with ⟨_, rfl⟩ | gx
      · rfl
      · rcases gx with ⟨w, e, _⟩ | ⟨i, t, e, _⟩ <;> cases e
    · have := Kept.refl h a
      intro j t hj ht
      have := this j t hj ht
      simpa using this
  · have hfo : fieldOf h (.ref i) xIn = field xIn t.fields := get_of ht
    rw [hfo] at gx hr
    obtain ⟨A1, hA1, hother, hready, hkept⟩ := move_spec hA ht hia (fun x hx => (hf x hx).2) gx hr hk
    have hin : field "inputs".toList A1.fields = .ref i := by rw [hother _ (by decide), hv]
    have e : fruleInputs h a = put (move h a i xIn) a "inputs".toList (.ref i) := by
      unfold fruleInputs
      rw [hget]
      show (let (h', v) := tableize (move h a i xIn) (get (move h a i xIn) a "inputs".toList); put h' a "inputs".toList v) = _
      rw [get_of hA1, hin]
      rfl
    obtain ⟨hA2, hkept2⟩ := put_same (k := "inputs".toList) (v := .ref i) hA1
    rw [e]
    have hkt := hkept.trans hkept2
    refine ⟨_, hA2, fun k h1 h2 => ?_, ?_, ?_, ?_⟩
    · rw [field_upd, if_neg h2, hother k h1]
    · rw [field_upd, if_pos rfl]
      have h2 := hkt i t hia ht
      simp only [if_true, List.append_nil] at h2
      exact .inr ⟨i, _, rfl, hia, h2, ha, stripped_fields fun x hx => (hf x hx).1⟩
    · rw [field_upd, if_neg (by decide)]
      exact hready.kept hkept2
    · intro j u hj hu
      have := hkt j u hj hu
      simp only [List.append_nil] at this
      rw [this]
      by_cases e : j = i
      · subst e; simp
      · have : ¬ (Val.ref i = .ref j) := by intro h; cases h; exact e rfl
        simp [e, this]

/-- The value of a bin. -/
def binVal : Option Str → Val
  | none => .nil
  | some s => .str s

theorem fruleOutputs_spec {h : Heap} {a : Nat} {A : Tab} {v : Val} {l x : List Str} {b : Option Str} (hA : h[a]? = some A) (hv : field "outputs".toList A.fields = v)
    (g : Given h a v [xOut, kBin] l) (gx : Arg h (fieldOf h v xOut) [] x) (gb : BinIs (fieldOf h v kBin) b) (hr : fieldOf h v xOut ≠ .ref a)
    (hk : field xOut A.fields = .nil) (hkb : field kBin A.fields = .nil) :
    ∃ h' A', fruleOutputs h a = some h' ∧ h'[a]? = some A' ∧
      (∀ k, k ≠ xOut → k ≠ kBin → k ≠ "outputs".toList → field k A'.fields = field k A.fields) ∧
      Ready h' a (field "outputs".toList A'.fields) l ∧ Ready h' a (field xOut A'.fields) x ∧ field kBin A'.fields = binVal b ∧
      Kept h h' a fun j => if v = .ref j then [xOut, kBin] else [] := by
  have hget : get h a "outputs".toList = v := by rw [get_of hA, hv]
  rcases g with ⟨rfl, rfl⟩ | ⟨i, t, rfl, hia, ht, ha, hf⟩
  · have e : fruleOutputs h a = some h := by
      unfold fruleOutputs
      rw [hget]; rfl
    have hb : b = none := by
      rcases gb with ⟨_, rfl⟩ | ⟨w, e, _⟩
      · rfl
      · cases e
    subst hb
    refine ⟨h, A, e, hA, fun _ _ _ _ => rfl, .inl ⟨hv, rfl⟩, .inl ⟨hk, ?_⟩, hkb, ?_⟩
    · rcases gx with ⟨_, rfl⟩ | gx
      · rfl
      · rcases gx with ⟨w, e, _⟩ | ⟨i, t, e, _⟩ <;> cases e
    · have := Kept.refl h a
      intro j t hj ht
      have := this j t hj ht
      simpa using this
  · have hfo : ∀ k, fieldOf h (.ref i) k = field k t.fields := fun k => get_of ht
    rw [hfo] at gx hr gb
    obtain ⟨A1, hA1, hother, hready, hkept⟩ := move_spec hA ht hia (fun x hx => (hf x hx).2) gx hr hk
    have ht1 := hkept i t hia ht
    simp only [if_true] at ht1
    have hb1 : get (move h a i xOut) i kBin = field kBin t.fields := by
      rw [get_of ht1, field_strip, if_neg (by decide)]
    have hout : ∀ {h' : Heap} {A' : Tab}, h'[a]? = some A' → field "outputs".toList A'.fields = .ref i →
        (let (h'', v) := tableize h' (get h' a "outputs".toList); some (put h'' a "outputs".toList v)) = some (put h' a "outputs".toList (.ref i)) := by
      intro h' A' h1 h2
      rw [get_of h1, h2]
      rfl
    have hin : field "outputs".toList A1.fields = .ref i := by rw [hother _ (by decide), hv]
    rcases gb with ⟨gn, rfl⟩ | ⟨w, gn, rfl⟩
    · have e : fruleOutputs h a = some (put (move h a i xOut) a "outputs".toList (.ref i)) := by
        unfold fruleOutputs
        rw [hget, ← hout hA1 hin]
        show (match (if truthy (get (move h a i xOut) i kBin) then
            (match get (move h a i xOut) i kBin with
              | .str s => some (put (put (move h a i xOut) a "bin".toList (.str (noBraces s))) i "bin".toList .nil)
              | _ => none)
          else some (move h a i xOut)) with
          | none => none
          | some h' => _) = _
        rw [hb1, gn]
        rfl
      obtain ⟨hA2, hkept2⟩ := put_same (k := "outputs".toList) (v := .ref i) hA1
      have hkt := hkept.trans hkept2
      have nob : ∀ x ∈ t.fields, x.1 ≠ kBin := field_nil_absent gn fun x hx => (hf x hx).2
      have hstr : strip [xOut, kBin] t = strip [xOut] t := by
        have : [xOut, kBin] = [kBin] ++ [xOut] ∨ True := .inr trivial
        have h1 : strip [xOut] (strip [kBin] t) = strip ([kBin] ++ [xOut]) t := strip_strip _ _ _
        have h2 : strip ([kBin] ++ [xOut]) t = strip [xOut, kBin] t := by
          unfold strip
          simp only [Tab.mk.injEq, and_true, true_and]
          congr 1
          funext x
          simp [and_comm]
        rw [← h2, ← h1, strip_absent (ks := [kBin]) (t := t) (by intro x hx; simpa using nob x hx)]
      refine ⟨_, _, e, hA2, fun k h1 _ h2 => ?_, ?_, ?_, ?_, ?_⟩
      · rw [field_upd, if_neg h2, hother k h1]
      · rw [field_upd, if_pos rfl]
        have h2 := hkt i t hia ht
        simp only [if_true, List.append_nil] at h2
        rw [← hstr] at h2
        exact .inr ⟨i, _, rfl, hia, h2, ha, stripped_fields fun x hx => (hf x hx).1⟩
      · rw [field_upd, if_neg (by decide)]
        exact hready.kept hkept2
      · rw [field_upd, if_neg (by decide), hother _ (by decide), hkb]
        rfl
      · intro j u hj hu
        have := hkt j u hj hu
        simp only [List.append_nil] at this
        rw [this]
        by_cases e : j = i
        · subst e
          rw [ht] at hu
          cases hu
          rw [if_pos rfl, ← hstr]; simp
        · have : ¬ (Val.ref i = .ref j) := by intro h; cases h; exact e rfl
          simp [e, this]
    · have e : fruleOutputs h a = some (put (put (put (move h a i xOut) a kBin (.str (noBraces w))) i kBin .nil) a "outputs".toList (.ref i)) := by
        have hA2 : (put (put (move h a i xOut) a kBin (.str (noBraces w))) i kBin .nil)[a]? = some (upd kBin (.str (noBraces w)) A1) := by
          rw [put_at, put_at, hA1]
          simp [hia]
        unfold fruleOutputs
        rw [hget, ← hout hA2 (by rw [field_upd, if_neg (by decide), hin])]
        show (match (if truthy (get (move h a i xOut) i kBin) then
            (match get (move h a i xOut) i kBin with
              | .str s => some (put (put (move h a i xOut) a "bin".toList (.str (noBraces s))) i "bin".toList .nil)
              | _ => none)
          else some (move h a i xOut)) with
          | none => none
          | some h' => _) = _
        rw [hb1, gn]
        rfl
      have hA2 : (put (put (move h a i xOut) a kBin (.str (noBraces w))) i kBin .nil)[a]? = some (upd kBin (.str (noBraces w)) A1) := by
        rw [put_at, put_at, hA1]
        simp [hia]
      have hk2 : Kept (move h a i xOut) (put (put (move h a i xOut) a kBin (.str (noBraces w))) i kBin .nil) a fun j => if j = i then [kBin] else [] := by
        intro j u hj hu
        rw [put_at, put_at, hu]
        by_cases e : j = i
        · subst e; simp [Ne.symm hj, upd_nil]
        · simp [Ne.symm hj, Ne.symm e, e, strip_nil]
      obtain ⟨hA3, hkept3⟩ := put_same (k := "outputs".toList) (v := .ref i) hA2
      have hkt := (hkept.trans hk2).trans hkept3
      refine ⟨_, _, e, hA3, fun k h1 h3 h2 => ?_, ?_, ?_, ?_, ?_⟩
      · rw [field_upd, if_neg h2, field_upd, if_neg h3, hother k h1]
      · rw [field_upd, if_pos rfl]
        have h2 := hkt i t hia ht
        simp only [if_true, List.append_nil] at h2
        exact .inr ⟨i, _, rfl, hia, h2, ha, stripped_fields fun x hx => (hf x hx).1⟩
      · rw [field_upd, if_neg (by decide), field_upd, if_neg (by decide)]
        exact (hready.kept hk2).kept hkept3
      · rw [field_upd, if_neg (by decide), field_upd, if_pos rfl]
        rfl
      · intro j u hj hu
        have := hkt j u hj hu
        simp only [List.append_nil] at this
        rw [this]
        by_cases e : j = i
        · subst e; simp
        · have : ¬ (Val.ref i = .ref j) := by intro h; cases h; exact e rfl
          simp [e, this]

theorem stringOrTable_spec {h : Heap} {v : Val} {names l : List Str} (hl : Arg h v names l) :
    ∃ (h' : Heap) (v' : Val), stringOrTable h v = (h', v') ∧ (∀ (k : Nat) (t : Tab), h[k]? = some t → h'[k]? = some t) ∧
      ((v' = .nil ∧ l = []) ∨ ∃ (j : Nat) (t : Tab), v' = .ref j ∧ h'[j]? = some t ∧ t.arr = l.map .str ∧ ∀ x ∈ t.fields, x.1 ∈ names ∧ x.2 ≠ .nil) ∧
      (∀ k, fieldOf h' v' k = fieldOf h v k) ∧ ∀ j, j < h.length → (v' = .ref j ↔ v = .ref j) := by
  rcases hl with ⟨rfl, rfl⟩ | ⟨w, rfl, rfl⟩ | ⟨i, t, rfl, ht, ha, hf⟩
  · exact ⟨h, .nil, rfl, fun _ _ h => h, .inl ⟨rfl, rfl⟩, fun _ => rfl, fun _ _ => Iff.rfl⟩
  · refine ⟨h ++ [{ arr := [.str w] }], .ref h.length, rfl, fun k t hk => ?_, .inr ⟨h.length, { arr := [.str w] }, rfl, by simp, rfl, by intro x hx; cases hx⟩, fun k => ?_, fun j hj => ?_⟩
    · rw [List.getElem?_append_left (List.getElem?_eq_some_iff.mp hk).1]; exact hk
    · show get _ _ _ = .nil
      rw [get_of (t := { arr := [.str w] }) (by simp)]
      rfl
    · constructor
      · intro e; cases e; omega
      · intro e; cases e
  · exact ⟨h, .ref i, rfl, fun _ _ h => h, .inr ⟨i, t, rfl, ht, ha, hf⟩, fun _ => rfl, fun _ _ => Iff.rfl⟩

/-- The values of `get_abc`. -/
theorem getAbc_spec {h : Heap} {a b c i o : Val} {s : Str} {l m n n' : List Str} (f : Form a b c i s o) (hi : Arg h i n l) (ho : Arg h o n' m) :
    ∃ (h' : Heap) (i' o' : Val), getAbc h a b c = some (h', i', .str s, o') ∧ (∀ (k : Nat) (t : Tab), h[k]? = some t → h'[k]? = some t) ∧
      ((i' = .nil ∧ l = []) ∨ ∃ (j : Nat) (t : Tab), i' = .ref j ∧ h'[j]? = some t ∧ t.arr = l.map .str ∧ ∀ x ∈ t.fields, x.1 ∈ n ∧ x.2 ≠ .nil) ∧
      ((o' = .nil ∧ m = []) ∨ ∃ (j : Nat) (t : Tab), o' = .ref j ∧ h'[j]? = some t ∧ t.arr = m.map .str ∧ ∀ x ∈ t.fields, x.1 ∈ n' ∧ x.2 ≠ .nil) ∧
      (∀ k, fieldOf h' i' k = fieldOf h i k) ∧ (∀ k, fieldOf h' o' k = fieldOf h o k) ∧
      ∀ j, j < h.length → (i' = .ref j ↔ i = .ref j) ∧ (o' = .ref j ↔ o = .ref j) := by
  have keep : ∀ {h : Heap} {v : Val} {n l : List Str}, Arg h v n l → (∀ s, v ≠ .str s) →
      (v = .nil ∧ l = []) ∨ ∃ (j : Nat) (t : Tab), v = .ref j ∧ h[j]? = some t ∧ t.arr = l.map .str ∧ ∀ x ∈ t.fields, x.1 ∈ n ∧ x.2 ≠ .nil := by
    intro h v n l ha hs
    rcases ha with ha | ⟨w, e, _⟩ | ⟨j, t, e, ht, h1, h2⟩
    · exact .inl ha
    · exact absurd e (hs w)
    · exact .inr ⟨j, t, e, ht, h1, h2⟩
  cases f with
  | command => exact ⟨h, .nil, .nil, rfl, fun _ _ h => h, keep hi (by simp), keep ho (by simp), fun _ => rfl, fun _ => rfl, fun _ _ => ⟨Iff.rfl, Iff.rfl⟩⟩
  | noInputs => exact ⟨h, _, _, rfl, fun _ _ h => h, keep hi (by simp), keep ho (by simp), fun _ => rfl, fun _ => rfl, fun _ _ => ⟨Iff.rfl, Iff.rfl⟩⟩
  | noOutputs => exact ⟨h, _, _, rfl, fun _ _ h => h, keep hi (by simp), keep ho (by simp), fun _ => rfl, fun _ => rfl, fun _ _ => ⟨Iff.rfl, Iff.rfl⟩⟩
  | three hc =>
    obtain ⟨h1, i', e1, k1, g1, f1, r1⟩ := stringOrTable_spec hi
    have ho1 : Arg h1 c n' m := by
      rcases ho with ho | ho | ⟨j, t, e, ht, h2, h3⟩
      · exact .inl ho
      · exact .inr (.inl ho)
      · exact .inr (.inr ⟨j, t, e, k1 _ _ ht, h2, h3⟩)
    obtain ⟨h2, o', e2, k2, g2, f2, r2⟩ := stringOrTable_spec ho1
    have len : ∀ {h h' : Heap}, (∀ (k : Nat) (t : Tab), h[k]? = some t → h'[k]? = some t) → ∀ j, j < h.length → j < h'.length := by
      intro h h' hk j hj
      exact (List.getElem?_eq_some_iff.mp (hk j h[j] (List.getElem?_eq_getElem hj))).1
    refine ⟨h2, i', o', ?_, fun k t ht => k2 k t (k1 k t ht), ?_, g2, fun k => ?_, fun k => ?_, fun j hj => ⟨r1 j hj, r2 j (len k1 j hj)⟩⟩
    · unfold getAbc
      cases c with
      | nil => exact absurd rfl hc
      | _ => dsimp only; rw [e1]; dsimp only; rw [e2]
    · rcases g1 with g1 | ⟨j, t, e, ht, h2', h3⟩
      · exact .inl g1
      · exact .inr ⟨j, t, e, k2 _ _ ht, h2', h3⟩
    · rcases g1 with ⟨rfl, _⟩ | ⟨j, t, rfl, ht, _⟩
      · exact f1 k
      · rw [← f1 k]
        show get h2 j k = get h1 j k
        rw [get_of (k2 _ _ ht), get_of ht]
    · rw [f2 k]
      rcases ho with ⟨rfl, _⟩ | ⟨w, rfl, _⟩ | ⟨j, t, rfl, ht, _⟩
      · rfl
      · rfl
      · show get h1 j k = get h j k
        rw [get_of (k1 _ _ ht), get_of ht]

/-- The table of arguments. -/
def args (fe : Bool) (i o : Val) (s : Str) : Tab :=
  { fields := fieldsOf ([("inputs".toList, i), ("command".toList, .str s), ("outputs".toList, o)] ++ if fe then [("foreach".toList, .num ['1'])] else []) }

theorem args_fields (fe : Bool) (i o : Val) (s : Str) :
    field "inputs".toList (args fe i o s).fields = i ∧ field "outputs".toList (args fe i o s).fields = o ∧ field "command".toList (args fe i o s).fields = .str s ∧
      truthy (field "foreach".toList (args fe i o s).fields) = fe ∧ field xIn (args fe i o s).fields = .nil ∧ field xOut (args fe i o s).fields = .nil ∧
      field kBin (args fe i o s).fields = .nil := by
  cases fe <;> cases i <;> cases o <;> exact ⟨rfl, rfl, rfl, rfl, rfl, rfl, rfl⟩

theorem rule_spec {addr : Nat → Str} {h : Heap} {a b c i o : Val} {call : Call} (f : Form a b c i call.command o) (st : Stands h i o call) :
    ∃ h' : Heap, rule addr call.foreach_ h a b c = some (h', call) ∧ ∀ (j : Nat) (t : Tab), h[j]? = some t → h'[j]? = some (strip (taken i o j) t) := by
  obtain ⟨h1, i', o', e1, k1, gi, go, fi, fo, rio⟩ := getAbc_spec f st.ins st.outs
  have len : h.length ≤ h1.length := by
    cases hl : h.length with
    | zero => omega
    | succ n =>
      have : n < h.length := by omega
      have := (List.getElem?_eq_some_iff.mp (k1 n h[n] (List.getElem?_eq_getElem this))).1
      omega
  let A := args call.foreach_ i' o' call.command
  have k2 : ∀ (k : Nat) (t : Tab), h1[k]? = some t → (h1 ++ [A])[k]? = some t := by
    intro k t hk
    rw [List.getElem?_append_left (List.getElem?_eq_some_iff.mp hk).1]; exact hk
  have hA : (h1 ++ [A])[h1.length]? = some A := by simp
  obtain ⟨q1, q2, q3, q4, q5, q6, q7⟩ := args_fields call.foreach_ i' o' call.command
  have ne : ∀ (k : Nat) (t : Tab), h1[k]? = some t → k ≠ h1.length := by
    intro k t hk e
    have := (List.getElem?_eq_some_iff.mp hk).1
    omega
  have given : ∀ {v : Val} {n l : List Str}, ((v = .nil ∧ l = []) ∨ ∃ (j : Nat) (t : Tab), v = .ref j ∧ h1[j]? = some t ∧ t.arr = l.map .str ∧ ∀ x ∈ t.fields, x.1 ∈ n ∧ x.2 ≠ .nil) →
      Given (h1 ++ [A]) h1.length v n l := by
    intro v n l g
    rcases g with g | ⟨j, t, e, ht, h2, h3⟩
    · exact .inl g
    · exact .inr ⟨j, t, e, ne j t ht, k2 _ _ ht, h2, h3⟩
  have fo2 : ∀ {v : Val} {n l : List Str}, ((v = .nil ∧ l = []) ∨ ∃ (j : Nat) (t : Tab), v = .ref j ∧ h1[j]? = some t ∧ t.arr = l.map .str ∧ ∀ x ∈ t.fields, x.1 ∈ n ∧ x.2 ≠ .nil) →
      ∀ k, fieldOf (h1 ++ [A]) v k = fieldOf h1 v k := by
    intro v n l g k
    rcases g with ⟨rfl, _⟩ | ⟨j, t, rfl, ht, _⟩
    · rfl
    · show get _ _ _ = get _ _ _
      rw [get_of (k2 _ _ ht), get_of ht]
  have argUp : ∀ {v : Val} {l : List Str}, Arg h v [] l → Arg (h1 ++ [A]) v [] l := by
    intro v l g
    rcases g with g | g | ⟨j, t, e, ht, h2, h3⟩
    · exact .inl g
    · exact .inr (.inl g)
    · exact .inr (.inr ⟨j, t, e, k2 _ _ (k1 _ _ ht), h2, h3⟩)
  have argNe : ∀ {v : Val} {l : List Str}, Arg h v [] l → v ≠ .ref h1.length := by
    intro v l g e
    rcases g with ⟨g, _⟩ | ⟨w, g, _⟩ | ⟨j, t, g, ht, h2, h3⟩
    · rw [e] at g; cases g
    · rw [e] at g; cases g
    · rw [e] at g; cases g
      exact ne _ _ (k1 _ _ ht) rfl
  have hxi : fieldOf (h1 ++ [A]) i' xIn = fieldOf h i xIn := by rw [fo2 gi, fi]
  obtain ⟨A1, hA1, other1, rin, rxin, kept1⟩ := fruleInputs_spec hA q1 (given gi) (by rw [hxi]; exact argUp st.extraIns) (by rw [hxi]; exact argNe st.extraIns) q5
  -- the outputs are still there
  have go2 := given go
  have go3 : Given (fruleInputs (h1 ++ [A]) h1.length) h1.length o' [xOut, kBin] call.outputs ∧
      ∀ k, fieldOf (fruleInputs (h1 ++ [A]) h1.length) o' k = fieldOf (h1 ++ [A]) o' k := by
    rcases go2 with ⟨e, e'⟩ | ⟨j, t, e, hj, ht, h2, h3⟩
    · exact ⟨.inl ⟨e, e'⟩, fun k => by rw [e]; rfl⟩
    · have hst := kept1 j t hj ht
      have : strip (if i' = .ref j then [xIn] else []) t = t := by
        refine strip_absent fun x hx => ?_
        have := (h3 x hx).1
        intro hm
        split at hm
        · rw [List.mem_singleton] at hm
          rw [hm] at this
          exact absurd this (by decide)
        · cases hm
      simp only [this] at hst
      refine ⟨.inr ⟨j, t, e, hj, hst, h2, h3⟩, fun k => ?_⟩
      rw [e]
      show get _ _ _ = get _ _ _
      rw [get_of hst, get_of ht]
  have fo3 : ∀ k, fieldOf (fruleInputs (h1 ++ [A]) h1.length) o' k = fieldOf h o k := fun k => by rw [go3.2, fo2 go, fo]
  have argKept : ∀ {v : Val} {l : List Str}, Arg h v [] l → Arg (fruleInputs (h1 ++ [A]) h1.length) v [] l := by
    intro v l g
    rcases g with g | g | ⟨j, t, e, ht, h2, h3⟩
    · exact .inl g
    · exact .inr (.inl g)
    · have hf : t.fields = [] := by
        cases hx : t.fields with
        | nil => rfl
        | cons x r => have := (h3 x (by rw [hx]; exact .head _)).1; cases this
      have := kept1 j t (ne _ _ (k1 _ _ ht)) (k2 _ _ (k1 _ _ ht))
      rw [strip_absent (by rw [hf]; intro x hx; cases hx)] at this
      exact .inr (.inr ⟨j, t, e, this, h2, h3⟩)
  have hA1o : field "outputs".toList A1.fields = o' := by rw [other1 _ (by decide) (by decide), q2]
  obtain ⟨h', A', e2, hA', other2, rout, rxout, hbin, kept2⟩ := fruleOutputs_spec (b := call.bin) hA1 hA1o go3.1 (by rw [fo3]; exact argKept st.extraOuts)
    (by rw [fo3]; exact st.bin) (by rw [fo3]; exact argNe st.extraOuts) (by rw [other1 _ (by decide) (by decide), q6]) (by rw [other1 _ (by decide) (by decide), q7])
  have rin' : Ready h' h1.length (field "inputs".toList A'.fields) call.inputs := by
    rw [other2 _ (by decide) (by decide) (by decide)]; exact rin.kept kept2
  have rxin' : Ready h' h1.length (field xIn A'.fields) call.extraInputs := by
    rw [other2 _ (by decide) (by decide) (by decide)]; exact rxin.kept kept2
  have hcmd : field "command".toList A'.fields = .str call.command := by
    rw [other2 _ (by decide) (by decide) (by decide), other1 _ (by decide) (by decide), q3]
  have hfe : truthy (field "foreach".toList A'.fields) = call.foreach_ := by
    rw [other2 _ (by decide) (by decide) (by decide), other1 _ (by decide) (by decide), q4]
  have hread : readCall addr h' h1.length = some call := by
    unfold readCall
    rw [get_of hA', get_of hA', get_of hA', get_of hA', get_of hA', get_of hA', get_of hA', hcmd, hfe]
    have := rin'.listOf (addr := addr)
    rw [this]
    have := rxin'.listOf (addr := addr)
    unfold xIn at this
    rw [this]
    have := rout.listOf (addr := addr)
    rw [this]
    have := rxout.listOf (addr := addr)
    unfold xOut at this
    rw [this]
    unfold kBin at hbin
    rw [hbin]
    cases hb : call.bin with
    | none => dsimp only [toStr, binVal]; rw [← hb]
    | some b => dsimp only [toStr, binVal]; rw [← hb]
  refine ⟨h', ?_, fun j t ht => ?_⟩
  · unfold rule
    rw [e1]
    show frule addr (h1 ++ [A]) h1.length = _
    unfold frule
    rw [e2]
    dsimp only
    rw [hread]
  · have hj := (List.getElem?_eq_some_iff.mp ht).1
    have h2 := (kept1.trans kept2) j t (ne _ _ (k1 _ _ ht)) (k2 _ _ (k1 _ _ ht))
    rw [h2]
    have r := rio j hj
    unfold taken
    simp only [r.1, r.2]

end Tup.Lua
