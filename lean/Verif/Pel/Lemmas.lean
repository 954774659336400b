import Verif.Pel.Spec

/-! Lemmas for C11 to C13. -/

namespace Tup.Pel

theorem splitLoop_nil {g : Group} {s : Str} (h : s.dropWhile (· == '/') = []) : splitLoop g s = some g := by
  rw [splitLoop]
  split
  · rfl
  · next h' => rw [h] at h'; cases h'

theorem splitLoop_cons {g : Group} {s t : Str} {c : Char} (h : s.dropWhile (· == '/') = c :: t) :
    splitLoop g s =
      match addElem g ((c :: t).takeWhile (· != '/')) with
      | none => none
      | some g => splitLoop g ((c :: t).dropWhile (· != '/')) := by
  rw [splitLoop]
  split
  · next h' => rw [h] at h'; cases h'
  · next h' =>
    rw [h] at h'
    cases h'
    rfl

theorem dropSlashes {w s : Str} (hw : ∀ c ∈ w, c = '/') (hs : ∀ c, s.head? = some c → c ≠ '/') :
    (w ++ s).dropWhile (· == '/') = s := by
  induction w with
  | nil =>
    cases s with
    | nil => rfl
    | cons c s =>
      have := hs c rfl
      simp [this]
  | cons c w ih =>
    have := hw c List.mem_cons_self
    subst this
    simp only [List.cons_append, List.dropWhile_cons, beq_self_eq_true, if_true]
    exact ih fun x hx => hw x (List.mem_cons_of_mem _ hx)

theorem takeElem {e t : Str} (he : '/' ∉ e) (ht : ∀ c, t.head? = some c → c = '/') :
    (e ++ t).takeWhile (· != '/') = e ∧ (e ++ t).dropWhile (· != '/') = t := by
  induction e with
  | nil =>
    cases t with
    | nil => exact ⟨rfl, rfl⟩
    | cons c t =>
      obtain rfl := ht c rfl
      exact ⟨rfl, rfl⟩
  | cons c e ih =>
    simp only [List.mem_cons, not_or] at he
    obtain ⟨h1, h2⟩ := ih he.2
    have : c ≠ '/' := Ne.symm he.1
    simp [this, h1, h2]

/-- The loop goes through the components. -/
theorem splitLoop_comps {s : Str} {l : List Str} (h : Comps s l) : ∀ g, splitLoop g s = l.foldlM addElem g := by
  induction h with
  | @nil w hw =>
    intro g
    have := dropSlashes (s := []) hw (by simp)
    rw [List.append_nil] at this
    rw [splitLoop_nil this]
    rfl
  | @cons w e t l hw hne he ht _ ih =>
    intro g
    cases e with
    | nil => exact absurd rfl hne
    | cons c e =>
      have hc : c ≠ '/' := by
        intro hc; apply he; rw [hc]; exact List.mem_cons_self
      have h1 : (w ++ (c :: e) ++ t).dropWhile (· == '/') = c :: (e ++ t) := by
        rw [List.append_assoc]
        exact dropSlashes hw (by intro d hd; cases hd; exact hc)
      rw [splitLoop_cons h1]
      obtain ⟨h2, h3⟩ := takeElem he ht
      rw [List.cons_append] at h2 h3
      rw [h2, h3, List.foldlM_cons]
      cases addElem g (c :: e) with
      | none => rfl
      | some g => exact ih g

theorem comps_exists (s : Str) : ∃ l, Comps s l := by
  generalize hn : s.length = n
  induction n using Nat.strongRecOn generalizing s with
  | ind n ih =>
    have hs : s = s.takeWhile (· == '/') ++ s.dropWhile (· == '/') := List.takeWhile_append_dropWhile.symm
    have hw : ∀ c ∈ s.takeWhile (· == '/'), c = '/' := by
      intro c hc
      have := List.all_eq_true.1 List.all_takeWhile c hc
      simpa using this
    cases hd : s.dropWhile (· == '/') with
    | nil =>
      rw [hd, List.append_nil] at hs
      rw [hs]
      exact ⟨[], .nil hw⟩
    | cons c t =>
      have hc : c ≠ '/' := by
        intro hc
        have := List.head?_dropWhile_not (· == '/') s
        rw [hd] at this
        simp [hc] at this
      have ht : c :: t = (c :: t).takeWhile (· != '/') ++ (c :: t).dropWhile (· != '/') :=
        List.takeWhile_append_dropWhile.symm
      have hlen : ((c :: t).dropWhile (· != '/')).length < n := by
        have h1 : (t.dropWhile (· != '/')).length ≤ t.length := (List.dropWhile_suffix _).length_le
        have h2 : (c :: t).length ≤ s.length := by rw [← hd]; exact (List.dropWhile_suffix _).length_le
        rw [List.dropWhile_cons, if_pos (by simpa using hc)]
        simp only [List.length_cons] at h2
        omega
      obtain ⟨l, hl⟩ := ih _ hlen _ rfl
      refine ⟨(c :: t).takeWhile (· != '/') :: l, ?_⟩
      have hsplit : s = s.takeWhile (· == '/') ++ (c :: t).takeWhile (· != '/') ++ (c :: t).dropWhile (· != '/') := by
        rw [List.append_assoc, ← ht, ← hd]; exact hs
      rw [hsplit]
      refine .cons hw ?_ ?_ ?_ hl
      · rw [List.takeWhile_cons, if_pos (by simpa using hc)]; simp
      · intro hm
        have := List.all_eq_true.1 List.all_takeWhile _ hm
        simp at this
      · intro d hd'
        have := List.head?_dropWhile_not (· != '/') (c :: t)
        rw [hd'] at this
        simpa using this

/-- The shape of the group while a path is taken apart. -/
structure Inv (g : Group) (k : Nat) (ns : List Str) : Prop where
  elems : g.elems = List.replicate k "..".toList ++ ns
  num : g.num = ns.length
  names : ∀ n ∈ ns, Name n

/-- Components. -/
def Good (e : Str) : Prop := e ≠ [] ∧ '/' ∉ e

theorem comps_good {s : Str} {l : List Str} (h : Comps s l) : ∀ e ∈ l, Good e := by
  induction h with
  | nil => intro e he; cases he
  | cons _ h1 h2 _ _ ih =>
    intro e he
    rcases List.mem_cons.1 he with rfl | he
    · exact ⟨h1, h2⟩
    · exact ih e he

/-- One element. -/
theorem addElem_inv {g : Group} {k : Nat} {ns : List Str} {e : Str} (h : Inv g k ns) (he : Good e) :
    (e = ".".toList ∧ addElem g e = some g) ∨
    (e = "..".toList ∧ ns = [] ∧ ∃ g', addElem g e = some g' ∧ Inv g' (k + 1) []) ∨
    (e = "..".toList ∧ ∃ a n g', ns = a ++ [n] ∧ addElem g e = some g' ∧ Inv g' k a) ∨
    (Name e ∧ ∃ g', addElem g e = some g' ∧ Inv g' k (ns ++ [e])) := by
  unfold addElem
  by_cases h1 : e = ".".toList
  · exact .inl ⟨h1, by rw [if_pos h1]⟩
  · rw [if_neg h1]
    by_cases h2 : e = "..".toList
    · rw [if_pos h2]
      right
      cases hn : ns with
      | nil =>
        left
        refine ⟨h2, rfl, ?_⟩
        have : ¬ g.num ≠ 0 := by rw [h.num, hn]; simp
        rw [if_neg this]
        refine ⟨_, rfl, ?_, ?_, by simp⟩
        · rw [h.elems, hn, h2, List.append_nil, List.append_nil, List.replicate_succ']
        · rw [h.num, hn]
      | cons n0 ns0 =>
        right; left
        refine ⟨h2, ?_⟩
        have hne : ns ≠ [] := by rw [hn]; simp
        have : g.num ≠ 0 := by rw [h.num, hn]; simp only [List.length_cons]; omega
        rw [if_pos this]
        unfold delLast
        have hge : g.elems ≠ [] := by
          rw [h.elems, hn]; simp
        rw [if_neg hge]
        rw [← hn]
        refine ⟨ns.dropLast, ns.getLast hne, _, (List.dropLast_concat_getLast hne).symm, rfl, ?_, ?_, ?_⟩
        · simp only [h.elems]
          rw [List.dropLast_append_of_ne_nil hne]
        · simp only [h.num, List.length_dropLast]
          have := List.length_pos_iff.2 hne
          omega
        · exact fun n hm => h.names n (List.dropLast_subset _ hm)
    · rw [if_neg h2]
      right; right; right
      have hname : Name e := ⟨he.1, he.2, h1, h2⟩
      refine ⟨hname, _, rfl, ?_, ?_, ?_⟩
      · simp only [h.elems, List.append_assoc]
      · simp only [h.num, List.length_append, List.length_singleton]; omega
      · intro n hm
        rcases List.mem_append.1 hm with hm | hm
        · exact h.names n hm
        · rw [List.mem_singleton.1 hm]; exact hname

theorem foldlM_inv (l : List Str) : ∀ {g : Group} {k : Nat} {ns : List Str}, Inv g k ns → (∀ e ∈ l, Good e) →
    ∃ g' k' ns', l.foldlM addElem g = some g' ∧ Inv g' k' ns' := by
  induction l with
  | nil => intro g k ns h _; exact ⟨g, k, ns, rfl, h⟩
  | cons e l ih =>
    intro g k ns h he
    have h1 := he e List.mem_cons_self
    have h2 := fun x hx => he x (List.mem_cons_of_mem _ hx)
    rw [List.foldlM_cons]
    rcases addElem_inv h h1 with ⟨_, h3⟩ | ⟨_, _, g', h3, h4⟩ | ⟨_, _, _, g', _, h3, h4⟩ | ⟨_, g', h3, h4⟩
    · rw [h3]; exact ih h h2
    · rw [h3]; exact ih h4 h2
    · rw [h3]; exact ih h4 h2
    · rw [h3]; exact ih h4 h2

theorem inv_init : Inv ⟨[], 0⟩ 0 [] := ⟨rfl, rfl, by simp⟩

theorem splitPath_inv (s : Str) : ∃ g k ns, splitPath s = some (s.head? == some '/', g) ∧ Inv g k ns := by
  obtain ⟨l, hl⟩ := comps_exists s
  obtain ⟨g, k, ns, h1, h2⟩ := foldlM_inv l inv_init (comps_good hl)
  refine ⟨g, k, ns, ?_, h2⟩
  unfold splitPath
  rw [splitLoop_comps hl, h1]
  rfl

theorem leads_append {D : List Str → Prop} {p q : List Str} (a b : List Str) :
    Leads D p (a ++ b) q ↔ ∃ m, Leads D p a m ∧ Leads D m b q := by
  induction a generalizing p with
  | nil =>
    constructor
    · intro h; exact ⟨p, .here, h⟩
    · rintro ⟨m, h1, h2⟩; cases h1; exact h2
  | cons e a ih =>
    rw [List.cons_append]
    constructor
    · intro h
      generalize hx : e :: (a ++ b) = x at h
      cases h with
      | here => cases hx
      | dot h => cases hx; obtain ⟨m, h1, h2⟩ := ih.1 h; exact ⟨m, .dot h1, h2⟩
      | up h => cases hx; obtain ⟨m, h1, h2⟩ := ih.1 h; exact ⟨m, .up h1, h2⟩
      | down hn hd h => cases hx; obtain ⟨m, h1, h2⟩ := ih.1 h; exact ⟨m, .down hn hd h1, h2⟩
    · rintro ⟨m, h1, h2⟩
      generalize hx : e :: a = x at h1
      cases h1 with
      | here => cases hx
      | dot h => cases hx; exact .dot (ih.2 ⟨m, h, h2⟩)
      | up h => cases hx; exact .up (ih.2 ⟨m, h, h2⟩)
      | down hn hd h => cases hx; exact .down hn hd (ih.2 ⟨m, h, h2⟩)

theorem name_dot : ¬ Name ".".toList := fun h => h.2.2.1 rfl
theorem name_dotdot : ¬ Name "..".toList := fun h => h.2.2.2 rfl

/-- Steps along one component. -/
theorem leads_one {D : List Str → Prop} {p q : List Str} {e : Str} (h : Leads D p [e] q) :
    (e = ".".toList ∧ q = p) ∨ (e = "..".toList ∧ q = p.dropLast) ∨ (Name e ∧ D (p ++ [e]) ∧ q = p ++ [e]) := by
  generalize hx : [e] = x at h
  cases h with
  | here => cases hx
  | dot h => cases hx; cases h; exact .inl ⟨rfl, rfl⟩
  | up h => cases hx; cases h; exact .inr (.inl ⟨rfl, rfl⟩)
  | down hn hd h => cases hx; cases h; exact .inr (.inr ⟨hn, hd, rfl⟩)

theorem leads_foldl {D : List Str → Prop} {p : List Str} (l : List Str) : ∀ {g g' : Group} {k : Nat} {ns : List Str}
    {m q : List Str}, Inv g k ns → (∀ e ∈ l, Good e) → l.foldlM addElem g = some g' → Leads D p g.elems m →
    Leads D m l q → Leads D p g'.elems q := by
  induction l with
  | nil =>
    intro g g' k ns m q _ _ h1 h2 h3
    cases h1; cases h3; exact h2
  | cons e l ih =>
    intro g g' k ns m q hi he h1 h2 h3
    have hg := he e List.mem_cons_self
    have hgl := fun x hx => he x (List.mem_cons_of_mem _ hx)
    rw [List.foldlM_cons] at h1
    obtain ⟨m', h4, h5⟩ := (leads_append [e] l).1 h3
    rcases addElem_inv hi hg with ⟨rfl, h6⟩ | ⟨rfl, _, g1, h6, h7⟩ | ⟨rfl, a, n, g1, hns, h6, h7⟩ | ⟨hname, g1, h6, h7⟩
    · rw [h6] at h1
      rcases leads_one h4 with ⟨_, rfl⟩ | ⟨h, _⟩ | ⟨h, _⟩
      · exact ih hi hgl h1 h2 h5
      · exact absurd h (by decide)
      · exact absurd h name_dot
    · rw [h6] at h1
      refine ih h7 hgl h1 ?_ h5
      have he1 : g1.elems = g.elems ++ ["..".toList] := by
        rw [h7.elems, hi.elems]
        subst_vars
        rw [List.append_nil, List.append_nil, List.replicate_succ']
      rw [he1]
      exact (leads_append _ _).2 ⟨m, h2, h4⟩
    · rw [h6] at h1
      refine ih h7 hgl h1 ?_ h5
      have he1 : g.elems = g1.elems ++ [n] := by
        rw [h7.elems, hi.elems, hns, List.append_assoc]
      rw [he1] at h2
      obtain ⟨m0, h8, h9⟩ := (leads_append _ _).1 h2
      have hn : Name n := hi.names n (by rw [hns]; simp)
      rcases leads_one h9 with ⟨h, _⟩ | ⟨h, _⟩ | ⟨_, _, rfl⟩
      · subst h; exact absurd hn name_dot
      · subst h; exact absurd hn name_dotdot
      · rcases leads_one h4 with ⟨h, _⟩ | ⟨_, rfl⟩ | ⟨h, _⟩
        · exact absurd h (by decide)
        · rw [List.dropLast_concat]; exact h8
        · exact absurd h name_dotdot
    · rw [h6] at h1
      refine ih h7 hgl h1 ?_ h5
      have he1 : g1.elems = g.elems ++ [e] := by
        rw [h7.elems, hi.elems, List.append_assoc]
      rw [he1]
      exact (leads_append _ _).2 ⟨m, h2, h4⟩

/-! Texts of components. -/

theorem comps_text {l : List Str} (hl : ∀ e ∈ l, Good e) {w : Str} (hw : ∀ c ∈ w, c = '/') : Comps (w ++ text l) l := by
  induction l generalizing w with
  | nil => rw [show text [] = [] from rfl, List.append_nil]; exact .nil hw
  | cons e l ih =>
    obtain ⟨h1, h2⟩ := hl e List.mem_cons_self
    have hl' := fun x hx => hl x (List.mem_cons_of_mem _ hx)
    cases l with
    | nil =>
      have : w ++ text [e] = w ++ e ++ [] := by simp [text, List.intercalate]
      rw [this]
      exact .cons hw h1 h2 (by simp) (.nil (by simp))
    | cons f l =>
      have : w ++ text (e :: f :: l) = w ++ e ++ ("/".toList ++ text (f :: l)) := by
        simp [text, List.intercalate, List.intersperse]
      rw [this]
      exact .cons hw h1 h2 (by intro c hc; cases hc; rfl) (ih hl' (by simp))

theorem good_dotdot : Good "..".toList := ⟨by decide, by decide⟩

theorem normal_good {l : List Str} (h : Normal l) : ∀ e ∈ l, Good e := by
  obtain ⟨k, ns, rfl, hn⟩ := h
  intro e he
  rcases List.mem_append.1 he with he | he
  · rw [List.eq_of_mem_replicate he]; exact good_dotdot
  · exact ⟨(hn e he).1, (hn e he).2.1⟩

theorem fold_dotdots (k : Nat) : ∀ j, (List.replicate k "..".toList).foldlM addElem
    ⟨List.replicate j "..".toList, 0⟩ = some ⟨List.replicate (j + k) "..".toList, 0⟩ := by
  induction k with
  | zero => intro j; rfl
  | succ k ih =>
    intro j
    rw [List.replicate_succ, List.foldlM_cons]
    have : addElem ⟨List.replicate j "..".toList, 0⟩ "..".toList = some ⟨List.replicate (j + 1) "..".toList, 0⟩ := by
      unfold addElem
      rw [if_neg (by decide), if_pos rfl, if_neg (by simp)]
      rw [List.replicate_succ']
    rw [this]
    have h := ih (j + 1)
    rw [show j + 1 + k = j + (k + 1) by omega] at h
    exact h

theorem fold_names (ns : List Str) (hn : ∀ n ∈ ns, Name n) : ∀ g : Group,
    ns.foldlM addElem g = some ⟨g.elems ++ ns, g.num + ns.length⟩ := by
  induction ns with
  | nil => intro g; simp
  | cons n ns ih =>
    intro g
    have h1 := hn n List.mem_cons_self
    rw [List.foldlM_cons]
    have : addElem g n = some ⟨g.elems ++ [n], g.num + 1⟩ := by
      unfold addElem
      rw [if_neg h1.2.2.1, if_neg h1.2.2.2]
    rw [this]
    have h := ih (fun x hx => hn x (List.mem_cons_of_mem _ hx)) ⟨g.elems ++ [n], g.num + 1⟩
    simp only [List.append_assoc, List.singleton_append] at h
    show ns.foldlM addElem _ = _
    rw [h]
    congr 2
    simp only [List.length_cons]; omega

theorem fold_normal {k : Nat} {ns : List Str} (hn : ∀ n ∈ ns, Name n) :
    (List.replicate k "..".toList ++ ns).foldlM addElem ⟨[], 0⟩ =
      some ⟨List.replicate k "..".toList ++ ns, ns.length⟩ := by
  rw [List.foldlM_append]
  have := fold_dotdots k 0
  rw [Nat.zero_add] at this
  rw [show (⟨[], 0⟩ : Group) = ⟨List.replicate 0 "..".toList, 0⟩ from rfl, this]
  show ns.foldlM addElem _ = _
  rw [fold_names ns hn]
  simp

/-- Walking where everything exists. -/
def go : List Str → List Str → List Str
  | p, [] => p
  | p, e :: l => if e = ".".toList then go p l else if e = "..".toList then go p.dropLast l else go (p ++ [e]) l

theorem leads_go {l : List Str} (hl : ∀ e ∈ l, Good e) (p q : List Str) :
    Leads (fun _ => True) p l q ↔ q = go p l := by
  induction l generalizing p with
  | nil =>
    constructor
    · intro h; cases h; rfl
    · rintro rfl; exact .here
  | cons e l ih =>
    have hg := hl e List.mem_cons_self
    have ih := ih fun x hx => hl x (List.mem_cons_of_mem _ hx)
    rw [go]
    by_cases h1 : e = ".".toList
    · rw [if_pos h1]
      subst h1
      constructor
      · intro h
        generalize hx : ".".toList :: l = x at h
        cases h with
        | here => cases hx
        | dot h => cases hx; exact (ih p).1 h
        | up h => exact absurd (List.cons.inj hx).1 (by decide)
        | down hn _ _ => rw [← (List.cons.inj hx).1] at hn; exact absurd hn name_dot
      · intro h; exact .dot ((ih p).2 h)
    · rw [if_neg h1]
      by_cases h2 : e = "..".toList
      · rw [if_pos h2]
        subst h2
        constructor
        · intro h
          generalize hx : "..".toList :: l = x at h
          cases h with
          | here => cases hx
          | dot h => exact absurd (List.cons.inj hx).1 (by decide)
          | up h => cases hx; exact (ih _).1 h
          | down hn _ _ => rw [← (List.cons.inj hx).1] at hn; exact absurd hn name_dotdot
        · intro h; exact .up ((ih _).2 h)
      · rw [if_neg h2]
        constructor
        · intro h
          generalize hx : e :: l = x at h
          cases h with
          | here => cases hx
          | dot h => exact absurd (List.cons.inj hx).1 h1
          | up h => exact absurd (List.cons.inj hx).1 h2
          | down _ _ h => cases hx; exact (ih _).1 h
        · intro h; exact .down ⟨hg.1, hg.2, h1, h2⟩ trivial ((ih _).2 h)

theorem go_names {ns : List Str} (hn : ∀ n ∈ ns, Name n) (p : List Str) : go p ns = p ++ ns := by
  induction ns generalizing p with
  | nil => simp [go]
  | cons n ns ih =>
    have h := hn n List.mem_cons_self
    rw [go, if_neg h.2.2.1, if_neg h.2.2.2, ih fun x hx => hn x (List.mem_cons_of_mem _ hx)]
    simp

theorem go_dotdots (z : Str) (k : Nat) (ns : List Str) : ∀ n, go (List.replicate n z) (List.replicate k "..".toList ++ ns) =
    go (List.replicate (n - k) z) ns := by
  induction k with
  | zero => intro n; rfl
  | succ k ih =>
    intro n
    rw [List.replicate_succ, List.cons_append, go, if_neg (by decide), if_pos rfl]
    have : (List.replicate n z).dropLast = List.replicate (n - 1) z := List.dropLast_replicate
    rw [this, ih, show n - 1 - k = n - (k + 1) by omega]

/-- There is always another name. -/
theorem fresh_name (l : List Str) : ∃ z : Str, z ∉ l := by
  have : ∀ l : List Str, ∃ n, ∀ s ∈ l, s.length ≤ n := by
    intro l
    induction l with
    | nil => exact ⟨0, by simp⟩
    | cons a l ih =>
      obtain ⟨n, h⟩ := ih
      refine ⟨max a.length n, ?_⟩
      intro s hs
      rcases List.mem_cons.1 hs with rfl | hs
      · omega
      · have := h s hs; omega
  obtain ⟨n, h⟩ := this l
  refine ⟨List.replicate (n + 1) 'z', fun hm => ?_⟩
  have := h _ hm
  simp only [List.length_replicate] at this
  omega

theorem normal_unique {k k' : Nat} {ns ns' : List Str} (hn : ∀ n ∈ ns, Name n) (hn' : ∀ n ∈ ns', Name n)
    (h : ∀ p, go p (List.replicate k "..".toList ++ ns) = go p (List.replicate k' "..".toList ++ ns')) :
    k = k' ∧ ns = ns' := by
  obtain ⟨z, hz⟩ := fresh_name (ns ++ ns')
  simp only [List.mem_append, not_or] at hz
  have h1 := h (List.replicate (k + k') z)
  rw [go_dotdots, go_dotdots, go_names hn, go_names hn'] at h1
  have h2 := congrArg (List.count z) h1
  rw [List.count_append, List.count_append, List.count_eq_zero.2 hz.1, List.count_eq_zero.2 hz.2,
    List.count_replicate_self, List.count_replicate_self] at h2
  have h3 : k = k' := by omega
  subst h3
  exact ⟨rfl, List.append_cancel_left h1⟩

/-! The top directory. -/

/-- The top directory as `getcwd` gives it. -/
def flat (rs : List Str) : Str := rs.flatMap fun r => '/' :: r

theorem flatten_nil {ps : List Str} (h : ∀ e ∈ ps, e ≠ []) (hp : ps.flatten = []) : ps = [] := by
  cases ps with
  | nil => rfl
  | cons p ps =>
    rw [List.flatten_cons, List.append_eq_nil_iff] at hp
    exact absurd hp.1 (h p List.mem_cons_self)

theorem flat_head {rs : List Str} : ∀ c, (flat rs).head? = some c → c = '/' := by
  intro c hc
  cases rs with
  | nil => cases hc
  | cons r rs => cases hc; rfl

theorem prefix_of_append {e u t : Str} (he : '/' ∉ e) (ht : ∀ c, t.head? = some c → c = '/')
    (h : e.isPrefixOf (u ++ t) = true) : ∃ u', u = e ++ u' := by
  obtain ⟨b, hb⟩ := (isPrefixOf_iff e (u ++ t)).1 h
  rcases List.append_eq_append_iff.1 hb with ⟨a, ha, hb⟩ | ⟨a, ha, hb⟩
  · cases a with
    | nil => exact ⟨[], by rw [ha]; simp⟩
    | cons c a =>
      exfalso
      have : c = '/' := ht c (by rw [hb]; rfl)
      apply he
      rw [ha, this]; simp
  · exact ⟨a, ha⟩

theorem strip_step (es : List Str) : ∀ {u : Str} {rs : List Str} {k j : Nat} {rest : List Str},
    (∀ r ∈ rs, Good r) → '/' ∉ u → (∀ e ∈ es, Good e) →
    ((stripTop (u ++ flat rs) es k = ([], k + j) ∧ rest = es.drop j) ↔
      stripTop (u ++ flat rs) es k = ([], k + j) ∧ rest = es.drop j ∧
        ∃ ps es', ps.flatten = u ∧ es = ps ++ es' ∧ Spells rs es' rest) ∧
    ∀ ps es', ps.flatten = u → es = ps ++ es' → Spells rs es' rest →
      ∃ j, stripTop (u ++ flat rs) es k = ([], k + j) ∧ rest = es.drop j := by
  induction es with
  | nil =>
    intro u rs k j rest hrs hu _
    simp only [stripTop]
    constructor
    · constructor
      · rintro ⟨h, rfl⟩
        refine ⟨h, rfl, ?_⟩
        simp only [Prod.mk.injEq, List.append_eq_nil_iff] at h
        obtain ⟨⟨rfl, h2⟩, _⟩ := h
        cases rs with
        | nil => exact ⟨[], [], rfl, rfl, by simpa using Spells.nil⟩
        | cons r rs => simp [flat] at h2
      · rintro ⟨h1, h2, _⟩; exact ⟨h1, h2⟩
    · intro ps es' hps hes hsp
      obtain ⟨rfl, rfl⟩ := List.append_eq_nil_iff.1 hes.symm
      have hu0 : u = [] := by rw [← hps]; rfl
      cases rs with
      | nil =>
        cases hsp
        exact ⟨0, by rw [hu0]; rfl, rfl⟩
      | cons r rs =>
        exfalso
        have hr := (hrs r List.mem_cons_self).1
        generalize hx : ([] : List Str) = x at hsp
        cases hsp with
        | cons hfl _ =>
          obtain ⟨rfl, rfl⟩ := List.append_eq_nil_iff.1 hx.symm
          exact hr hfl.symm
  | cons e l ih =>
    -- first for a component that has begun
    have key : ∀ {u : Str} {rs : List Str} {k j : Nat} {rest : List Str}, u ≠ [] →
        (∀ r ∈ rs, Good r) → '/' ∉ u → (∀ x ∈ e :: l, Good x) →
        ((stripTop (u ++ flat rs) (e :: l) k = ([], k + j) ∧ rest = (e :: l).drop j) →
          ∃ ps es', ps.flatten = u ∧ e :: l = ps ++ es' ∧ Spells rs es' rest) ∧
        (∀ ps es', ps.flatten = u → e :: l = ps ++ es' → Spells rs es' rest →
          ∃ j, stripTop (u ++ flat rs) (e :: l) k = ([], k + j) ∧ rest = (e :: l).drop j) := by
      intro u rs k j rest hne hrs hu hes
      obtain ⟨he1, he2⟩ := hes e List.mem_cons_self
      have hl := fun x hx => hes x (List.mem_cons_of_mem _ hx)
      have hdrop : (u ++ flat rs).dropWhile (· == '/') = u ++ flat rs := by
        have := dropSlashes (w := []) (s := u ++ flat rs) (by simp) (by
          intro c hc hc'
          subst hc'
          cases u with
          | nil => exact hne rfl
          | cons d u => cases hc; exact hu List.mem_cons_self)
        exact this
      rw [stripTop]
      simp only [hdrop]
      by_cases hp : e.isPrefixOf (u ++ flat rs) = true
      · rw [if_pos hp]
        obtain ⟨u', rfl⟩ := prefix_of_append he2 flat_head hp
        have hu' : '/' ∉ u' := fun h => hu (List.mem_append_right _ h)
        have hd : (e ++ u' ++ flat rs).drop e.length = u' ++ flat rs := by
          rw [List.append_assoc, List.drop_left]
        rw [hd]
        constructor
        · rintro ⟨h1, h2⟩
          -- at least one element has been passed
          have hj : ∃ i, j = i + 1 := by
            cases j with
            | succ i => exact ⟨i, rfl⟩
            | zero =>
              exfalso
              have hmono : ∀ (es : List Str) (top : Str) (k : Nat), k ≤ (stripTop top es k).2 := by
                intro es
                induction es with
                | nil => intro top k; exact Nat.le_refl _
                | cons x es ih =>
                  intro top k
                  rw [stripTop]
                  split
                  · exact Nat.le_trans (Nat.le_succ _) (ih _ _)
                  · exact Nat.le_refl _
              have := hmono l (u' ++ flat rs) (k + 1)
              rw [h1] at this
              omega
          obtain ⟨i, rfl⟩ := hj
          rw [show k + (i + 1) = k + 1 + i by omega] at h1
          obtain ⟨_, _, ps, es', h3, h4, h5⟩ := ((ih (k := k + 1) (j := i) (rest := rest) hrs hu' hl).1).1
            ⟨h1, by rw [h2]; rfl⟩
          exact ⟨e :: ps, es', by rw [List.flatten_cons, h3], by rw [h4]; rfl, h5⟩
        · intro ps es' h1 h2 h3
          cases ps with
          | nil => rw [← h1] at hne; exact absurd rfl hne
          | cons p ps =>
            simp only [List.cons_append, List.cons.injEq] at h2
            obtain ⟨rfl, h2⟩ := h2
            rw [List.flatten_cons] at h1
            have h1 := List.append_cancel_left h1
            obtain ⟨i, h4, h5⟩ := (ih (k := k + 1) (j := 0) (rest := rest) hrs hu' hl).2 ps es' h1 h2 h3
            exact ⟨i + 1, by rw [h4, show k + 1 + i = k + (i + 1) by omega], by rw [h5]; rfl⟩
      · rw [if_neg hp]
        constructor
        · rintro ⟨h1, _⟩
          simp only [Prod.mk.injEq, List.append_eq_nil_iff] at h1
          exact absurd h1.1.1 hne
        · intro ps es' h1 h2 h3
          exfalso
          cases ps with
          | nil => rw [← h1] at hne; exact hne rfl
          | cons p ps =>
            simp only [List.cons_append, List.cons.injEq] at h2
            obtain ⟨rfl, h2⟩ := h2
            apply hp
            rw [isPrefixOf_iff]
            exact ⟨ps.flatten ++ flat rs, by rw [← h1, List.flatten_cons, List.append_assoc]⟩
    intro u rs k j rest hrs hu hes
    by_cases hne : u = []
    · subst hne
      cases rs with
      | nil =>
        have he1 := (hes e List.mem_cons_self).1
        have hst : stripTop ([] ++ flat []) (e :: l) k = ([], k) := by
          rw [stripTop]
          simp only [flat, List.flatMap_nil, List.append_nil, List.dropWhile_nil]
          rw [if_neg]
          cases e with
          | nil => exact absurd rfl he1
          | cons c e => simp [List.isPrefixOf]
        rw [hst]
        constructor
        · constructor
          · rintro ⟨h1, h2⟩
            refine ⟨h1, h2, [], e :: l, rfl, rfl, ?_⟩
            simp only [Prod.mk.injEq, true_and] at h1
            obtain rfl : j = 0 := by omega
            rw [h2]
            exact .nil
          · rintro ⟨h1, h2, _⟩; exact ⟨h1, h2⟩
        · intro ps es' h1 h2 h3
          have hps : ps = [] := flatten_nil (fun x hx => (hes x (by rw [h2]; exact List.mem_append_left _ hx)).1) h1
          subst hps
          cases h3
          exact ⟨0, rfl, by rw [h2]; rfl⟩
      | cons r rs =>
        obtain ⟨hr1, hr2⟩ := hrs r List.mem_cons_self
        have hrs' := fun x hx => hrs x (List.mem_cons_of_mem _ hx)
        have hst : stripTop ([] ++ flat (r :: rs)) (e :: l) k = stripTop (r ++ flat rs) (e :: l) k := by
          rw [stripTop, stripTop]
          have : ([] ++ flat (r :: rs)).dropWhile (· == '/') = (r ++ flat rs).dropWhile (· == '/') := by
            simp [flat]
          rw [this]
        rw [hst]
        obtain ⟨k1, k2⟩ := key (k := k) (j := j) (rest := rest) hr1 hrs' hr2 hes
        constructor
        · constructor
          · intro h
            obtain ⟨ps, es', h1, h2, h3⟩ := k1 h
            exact ⟨h.1, h.2, [], e :: l, rfl, rfl, by rw [h2]; exact .cons h1 h3⟩
          · rintro ⟨h1, h2, _⟩; exact ⟨h1, h2⟩
        · intro ps es' h1 h2 h3
          have hps : ps = [] := flatten_nil (fun x hx => (hes x (by rw [h2]; exact List.mem_append_left _ hx)).1) h1
          subst hps
          rw [List.nil_append] at h2
          subst h2
          generalize hx : e :: l = x at h3
          cases h3 with
          | cons h4 h5 =>
            rw [← hx]; exact k2 _ _ h4 hx h5
    · obtain ⟨k1, k2⟩ := key (k := k) (j := j) (rest := rest) hne hrs hu hes
      refine ⟨⟨fun h => ⟨h.1, h.2, k1 h⟩, fun h => ⟨h.1, h.2.1⟩⟩, k2⟩

end Tup.Pel
