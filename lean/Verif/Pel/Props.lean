import Verif.Pel.Lemmas

/-! C11 to C13: what becomes of paths. -/

namespace Tup.Pel

/-! ### C11 -/

/-- C11: taking a path apart always succeeds (the removal of the previous element finds one), and the result is in normal
form; it is marked as absolute exactly when it begins with a slash. -/
theorem c11_form (s : Str) : ∃ g, splitPath s = some (s.head? == some '/', g) ∧ Normal g.elems := by
  obtain ⟨g, k, ns, h1, h2⟩ := splitPath_inv s
  exact ⟨g, h1, k, ns, h2.elems, h2.names⟩

/-- C11: wherever the path leads to, from whatever directory, its normal form leads to the same place. -/
theorem c11_meaning {D : List Str → Prop} {s : Str} {l : List Str} {root : Bool} {g : Group} {p q : List Str}
    (hl : Comps s l) (hs : splitPath s = some (root, g)) (h : Leads D p l q) : Leads D p g.elems q := by
  unfold splitPath at hs
  rw [splitLoop_comps hl] at hs
  cases hf : l.foldlM addElem ⟨[], 0⟩ with
  | none => rw [hf] at hs; cases hs
  | some g1 =>
    rw [hf] at hs
    cases hs
    exact leads_foldl l inv_init (comps_good hl) hf .here h

theorem split_normal {s : Str} {root : Bool} {g : Group} (hs : splitPath s = some (root, g)) : Normal g.elems := by
  obtain ⟨g', h1, h2⟩ := c11_form s
  rw [hs] at h1
  rw [(Prod.mk.inj (Option.some.inj h1)).2]
  exact h2

/-- Every path has components, so `c11_meaning` applies to every path. -/
theorem c11_components (s : Str) : ∃ l, Comps s l := comps_exists s

/-- The reverse: where everything on the way exists, the path leads to where its normal form leads.  (If `x` does not
exist then `x/..` leads nowhere although its normal form is empty: `c11_not_reverse`.) -/
theorem c11_meaning_rev {s : Str} {l : List Str} {root : Bool} {g : Group} {p q : List Str}
    (hl : Comps s l) (hs : splitPath s = some (root, g)) (h : Leads (fun _ => True) p g.elems q) :
    Leads (fun _ => True) p l q := by
  obtain ⟨g', h1, h2⟩ := c11_form s
  rw [hs] at h1
  cases h1
  have h3 := (leads_go (normal_good h2) p q).1 h
  have h4 : Leads (fun _ => True) p l (go p l) := (leads_go (comps_good hl) p _).2 rfl
  have h5 := c11_meaning hl hs h4
  rw [leads_go (normal_good h2)] at h5
  rw [leads_go (comps_good hl), h3, h5]

theorem c11_not_reverse : Comps "x/..".toList ["x".toList, "..".toList] ∧
    splitPath "x/..".toList = some (false, ⟨[], 0⟩) ∧ Leads (fun p => p = []) [] [] [] ∧
    ¬ Leads (fun p => p = []) [] ["x".toList, "..".toList] [] := by
  refine ⟨?_, by decide +kernel, .here, ?_⟩
  · have := comps_text (l := ["x".toList, "..".toList]) (by
      intro e he
      simp only [List.mem_cons, List.not_mem_nil, or_false] at he
      rcases he with rfl | rfl <;> exact ⟨by decide, by decide⟩) (w := []) (by simp)
    exact this
  · intro h
    rcases (leads_append ["x".toList] ["..".toList]).1 h with ⟨m, h1, _⟩
    rcases leads_one h1 with ⟨h, _⟩ | ⟨h, _⟩ | ⟨_, h, _⟩
    · exact absurd h (by decide)
    · exact absurd h (by decide)
    · exact absurd h (by decide)

/-- C11: putting the elements together again and taking the result apart gives the same elements. -/
theorem c11_idempotent {s : Str} {root : Bool} {g : Group} (h : splitPath s = some (root, g)) :
    splitPath (if root then absText g.elems else text g.elems) = some (root, g) := by
  obtain ⟨g', k, ns, h1, h2⟩ := splitPath_inv s
  rw [h] at h1
  simp only [Option.some.injEq, Prod.mk.injEq] at h1
  obtain ⟨rfl, rfl⟩ := h1
  have hgood : ∀ e ∈ g.elems, Good e := normal_good ⟨k, ns, h2.elems, h2.names⟩
  have hg : g.elems.foldlM addElem ⟨[], 0⟩ = some g := by
    rw [h2.elems, fold_normal h2.names]
    cases g
    simp only [Option.some.injEq, Group.mk.injEq]
    exact ⟨h2.elems.symm, h2.num.symm⟩
  generalize hr : (s.head? == some '/') = r
  cases r with
  | true =>
    rw [if_pos rfl]
    unfold splitPath absText
    rw [splitLoop_comps (comps_text hgood (w := "/".toList) (by simp)), hg]
    rfl
  | false =>
    rw [if_neg (by simp)]
    unfold splitPath
    have hc : Comps (text g.elems) g.elems := comps_text hgood (w := []) (by simp)
    rw [splitLoop_comps hc, hg]
    simp only [Option.map_some, Option.some.injEq, Prod.mk.injEq, and_true]
    cases he : g.elems with
    | nil => rfl
    | cons e l =>
      obtain ⟨h3, h4⟩ := hgood e (by rw [he]; exact List.mem_cons_self)
      cases e with
      | nil => exact absurd rfl h3
      | cons c e =>
        have hc : c ≠ '/' := by intro hc; apply h4; rw [hc]; exact List.mem_cons_self
        have : (text ((c :: e) :: l)).head? = some c := by
          cases l with
          | nil => simp [text, List.intercalate]
          | cons f l => simp [text, List.intercalate, List.intersperse]
        rw [this]
        simpa using hc

/-- C11: two paths lead to the same place from every directory exactly when they have the same normal form. -/
theorem c11_canonical {s s' : Str} {l l' : List Str} {root root' : Bool} {g g' : Group} (hl : Comps s l)
    (hl' : Comps s' l') (hs : splitPath s = some (root, g)) (hs' : splitPath s' = some (root', g')) :
    (∀ p q, Leads (fun _ => True) p l q ↔ Leads (fun _ => True) p l' q) ↔ g.elems = g'.elems := by
  constructor
  · intro h
    obtain ⟨g1, h1, k, ns, he, hn⟩ := c11_form s
    rw [hs] at h1; cases h1
    obtain ⟨g1, h1, k', ns', he', hn'⟩ := c11_form s'
    rw [hs'] at h1; cases h1
    have hgo : ∀ p, go p g.elems = go p g'.elems := by
      intro p
      have h2 : Leads (fun _ => True) p l (go p l) := (leads_go (comps_good hl) p _).2 rfl
      have h3 := (leads_go (normal_good ⟨k, ns, he, hn⟩) _ _).1 (c11_meaning hl hs h2)
      have h4 := (leads_go (normal_good ⟨k', ns', he', hn'⟩) _ _).1 (c11_meaning hl' hs' ((h _ _).1 h2))
      rw [← h3, ← h4]
    rw [he, he'] at hgo ⊢
    obtain ⟨rfl, rfl⟩ := normal_unique hn hn' hgo
    rfl
  · intro h p q
    constructor
    · intro h1; exact c11_meaning_rev hl' hs' (h ▸ c11_meaning hl hs h1)
    · intro h1; exact c11_meaning_rev hl hs (h ▸ c11_meaning hl' hs' h1)

/-- A path with everything in it. -/
example : splitPath "a//b/./../../../c/..x/".toList =
    some (false, ⟨["..".toList, "c".toList, "..x".toList], 2⟩) := by decide +kernel

example : splitPath "/a/../..//b".toList = some (true, ⟨["..".toList, "b".toList], 1⟩) := by decide +kernel

/-- It leads from `/u/v` to `/u/c/..x`. -/
example : ∃ l, Comps "a/../../c".toList l ∧ Leads (fun _ => True) ["u".toList, "v".toList] l ["u".toList, "c".toList] := by
  obtain ⟨l, hl⟩ := c11_components "a/../../c".toList
  refine ⟨l, hl, c11_meaning_rev (g := ⟨["..".toList, "c".toList], 1⟩) (root := false) hl (by decide +kernel) ?_⟩
  exact .up (.down ⟨by decide, by decide, by decide, by decide⟩ trivial .here)

/-! ### C12 -/

/-- A path is absolute and outside of the project, or else it belongs to the project with these elements. -/
def Inside (r : Result) (rest : List Str) : Prop := r.outside = false ∧ r.elems = rest

theorem getPathElements_root {top s : Str} {g : Group} (hs : splitPath s = some (true, g)) :
    ∃ r, getPathElements top s = some r ∧
      ((r.outside = true ∧ (stripTop top g.elems 0).1 ≠ [] ∧ r.elems = g.elems) ∨
       (r.outside = false ∧ (stripTop top g.elems 0).1 = [] ∧ r.elems = g.elems.drop (stripTop top g.elems 0).2)) := by
  unfold getPathElements
  rw [hs]
  simp only [if_true]
  by_cases h : (stripTop top g.elems 0).1 ≠ []
  · rw [if_pos h]
    exact ⟨_, rfl, .inl ⟨rfl, h, rfl⟩⟩
  · rw [if_neg h]
    exact ⟨_, rfl, .inr ⟨rfl, by simpa using h, rfl⟩⟩

/-- What the code does recognise, exactly: for a project in the directory `rs`, which is not the root of the file
system, an absolute path belongs to it, and `rest` remains, exactly when the elements of the path spell the names `rs`
and `rest` follows. -/
theorem c12_exact {rs : List Str} {s : Str} {g : Group} {rest : List Str} (hrs : ∀ r ∈ rs, Name r) (hne : rs ≠ [])
    (hs : splitPath s = some (true, g)) :
    (∃ r, getPathElements (dirText rs) s = some r ∧ Inside r rest) ↔ Spells rs g.elems rest := by
  have hgood : ∀ r ∈ rs, Good r := fun r hr => ⟨(hrs r hr).1, (hrs r hr).2.1⟩
  have h2 := split_normal hs
  have htop : dirText rs = [] ++ flat rs := by rw [dirText, if_neg hne]; rfl
  obtain ⟨r, hr, hcase⟩ := getPathElements_root (top := dirText rs) hs
  rw [htop] at hr hcase ⊢
  constructor
  · rintro ⟨r', hr', hin⟩
    rw [hr] at hr'; cases hr'
    rcases hcase with ⟨ho, _⟩ | ⟨_, h3, h4⟩
    · rw [hin.1] at ho; cases ho
    · have h5 : stripTop ([] ++ flat rs) g.elems 0 = ([], 0 + (stripTop ([] ++ flat rs) g.elems 0).2) := by
        rw [Nat.zero_add]
        exact Prod.ext h3 rfl
      obtain ⟨_, _, ps, es', h6, h7, h8⟩ := ((strip_step g.elems (rest := rest) hgood (u := []) (by simp)
        (normal_good h2)).1).1 ⟨h5, by rw [← hin.2, h4]⟩
      have hps : ps = [] := flatten_nil (fun x hx => (normal_good h2 x (by rw [h7]; exact List.mem_append_left _ hx)).1) h6
      subst hps
      rw [h7]; exact h8
  · intro h
    obtain ⟨j, h3, h4⟩ := (strip_step g.elems (rest := rest) (k := 0) (j := 0) hgood (u := []) (by simp)
      (normal_good h2)).2 [] g.elems rfl rfl h
    refine ⟨r, hr, ?_⟩
    rw [h3] at hcase
    rcases hcase with ⟨_, hx, _⟩ | ⟨ho, _, h5⟩
    · exact absurd rfl hx
    · exact ⟨ho, by rw [h5, h4]; simp⟩

/-- C12, the first half: a path whose normal form begins with the names of the directory of the project belongs to the
project, and what remains is the path from there.  Missing: the reverse, which is false (`c12_false`), `c12_exact` says
what holds instead. -/
theorem c12_recognised_partial {rs : List Str} {s : Str} {g : Group} {rest : List Str} (hrs : ∀ r ∈ rs, Name r)
    (hne : rs ≠ []) (hs : splitPath s = some (true, g)) (h : g.elems = rs ++ rest) :
    ∃ r, getPathElements (dirText rs) s = some r ∧ Inside r rest := by
  rw [c12_exact hrs hne hs, h]
  clear h hs hne hrs
  induction rs with
  | nil => exact .nil
  | cons r rs ih =>
    have := Spells.cons (ps := [r]) (r := r) (by simp) ih
    exact this

/-- C12, the reverse where it holds: if the path belongs to the project and none of its elements is a proper beginning
of a name of the directory at that position, then it begins with the names of the directory.  In particular a path whose
characters do not match is never taken to be inside. -/
theorem c12_inside_spelled_partial {rs : List Str} {s : Str} {g : Group} {r : Result} (hrs : ∀ r ∈ rs, Name r)
    (hne : rs ≠ []) (hs : splitPath s = some (true, g)) (h : getPathElements (dirText rs) s = some r)
    (hin : r.outside = false) : ∃ es, g.elems = es ++ r.elems ∧ es.flatten = rs.flatten := by
  have h1 := (c12_exact hrs hne hs).1 ⟨r, h, hin, rfl⟩
  generalize g.elems = es at h1
  generalize r.elems = rest at h1
  clear hrs hne hs h hin
  induction h1 with
  | nil => exact ⟨[], rfl, rfl⟩
  | cons hp _ ih =>
    obtain ⟨es, h1, h2⟩ := ih
    refine ⟨_ ++ es, by rw [h1, List.append_assoc], ?_⟩
    rw [List.flatten_append, hp, h2, List.flatten_cons]

/-- The reverse of C12 is false: for a project in `/ab` the path `/a/b/f` is taken to be `f` in the project. -/
theorem c12_false : splitPath "/a/b/f".toList = some (true, ⟨["a".toList, "b".toList, "f".toList], 3⟩) ∧
    (getPathElements (dirText ["ab".toList]) "/a/b/f".toList).map (fun r => (r.outside, r.elems)) =
      some (false, ["f".toList]) ∧
    ¬ ∃ rest, ["a".toList, "b".toList, "f".toList] = ["ab".toList] ++ rest := by
  refine ⟨by decide +kernel, by decide +kernel, ?_⟩
  rintro ⟨rest, h⟩
  simp at h

/-- In the root directory of the file system every absolute path but the root itself belongs to the project. -/
theorem c12_root {s : Str} {g : Group} (hs : splitPath s = some (true, g)) :
    ∃ r, getPathElements (dirText []) s = some r ∧ r.elems = g.elems ∧ (r.outside = true ↔ g.elems = []) := by
  obtain ⟨r, hr, hcase⟩ := getPathElements_root (top := dirText []) hs
  refine ⟨r, hr, ?_⟩
  have h2 := split_normal hs
  cases he : g.elems with
  | nil =>
    rw [he] at hcase
    rcases hcase with ⟨h1, _, h2⟩ | ⟨_, h1, _⟩
    · exact ⟨h2, by simp [h1]⟩
    · exact absurd h1 (by decide)
  | cons e l =>
    have hst : stripTop (dirText []) (e :: l) 0 = ([], 0) := by
      have hg := normal_good h2 e (by rw [he]; exact List.mem_cons_self)
      cases e with
      | nil => exact absurd rfl hg.1
      | cons c e => simp [stripTop, dirText]
    rw [he, hst] at hcase
    rcases hcase with ⟨_, h1, _⟩ | ⟨h1, _, h2⟩
    · exact absurd rfl h1
    · exact ⟨h2, by simp [h1]⟩

/-- A relative path keeps its elements whatever the directory of the project is. -/
theorem c12_relative {top s : Str} {g : Group} (hs : splitPath s = some (false, g)) :
    ∃ r, getPathElements top s = some r ∧ Inside r g.elems := by
  unfold getPathElements
  rw [hs]
  exact ⟨_, rfl, rfl, rfl⟩

theorem stripTop_le (l : List Str) : ∀ (top : Str) (k : Nat), (stripTop top l k).2 ≤ k + l.length := by
  induction l with
  | nil => intro top k; exact Nat.le_refl k
  | cons e l ih =>
    intro top k
    rw [stripTop]
    split
    · have := ih ((top.dropWhile (· == '/')).drop e.length) (k + 1)
      simp only [List.length_cons]
      omega
    · exact Nat.le_add_right _ _

/-- The number that is kept is that of the elements, for a path that does not leave the directory where it begins. -/
theorem c12_count {top s : Str} {root : Bool} {g : Group} {r : Result} (hs : splitPath s = some (root, g))
    (hup : "..".toList ∉ g.elems) (h : getPathElements top s = some r) : r.num = r.elems.length := by
  obtain ⟨g', k, ns, h1, h2⟩ := splitPath_inv s
  rw [hs] at h1
  cases h1
  have hk : k = 0 := by
    cases k with
    | zero => rfl
    | succ k => exact absurd (by rw [h2.elems]; simp [List.replicate_succ]) hup
  subst hk
  have he : g.elems = ns := by rw [h2.elems]; rfl
  have hn : g.num = g.elems.length := by rw [h2.num, he]
  have hle := stripTop_le g.elems top 0
  unfold getPathElements at h
  rw [hs] at h
  generalize (s.head? == some '/') = root at h
  cases root with
  | false => cases h; exact hn
  | true =>
    by_cases hc : (stripTop top g.elems 0).1 = []
    · simp only [if_true, ne_eq, hc, not_true, if_false] at h
      cases h
      simp only [List.length_drop, hn]
      omega
    · simp only [if_true, ne_eq, hc, not_false_eq_true] at h
      cases h
      exact hn

/-- A project in `/home/u`. -/
example : (getPathElements (dirText ["home".toList, "u".toList]) "/home//x/../u/./src/f.c".toList).map (·.num) = some 2 := by
  decide +kernel

/-- A project in `/home/u`. -/
example : (getPathElements (dirText ["home".toList, "u".toList]) "/home//x/../u/./src/f.c".toList).map
    (fun r => (r.outside, r.elems)) = some (false, ["src".toList, "f.c".toList]) := by decide +kernel

example : (getPathElements (dirText ["home".toList, "u".toList]) "/home/usr/f".toList).map (·.outside) =
    some true := by decide +kernel

/-! ### C13 -/

/-- C13: a path is marked as hidden exactly when one of the elements that remain is one of the names tup does not look
at. -/
theorem c13_hidden {top s : Str} {r : Result} (h : getPathElements top s = some r) :
    r.hidden = true ↔ ∃ e ∈ r.elems, e ∈ hiddenNames := by
  have hn : ∀ e ∈ r.elems, e ≠ ".".toList := by
    obtain ⟨g, h1, h2⟩ := c11_form s
    have hgn : ∀ e ∈ g.elems, e ≠ ".".toList := by
      obtain ⟨k, ns, he, hn⟩ := h2
      intro e hm hd
      rw [he] at hm
      rcases List.mem_append.1 hm with hm | hm
      · rw [hd] at hm; exact absurd (List.eq_of_mem_replicate hm) (by decide)
      · exact (hn e hm).2.2.1 hd
    have hsub : ∀ e ∈ r.elems, e ∈ g.elems := by
      cases hr : (s.head? == some '/') with
      | true =>
        rw [hr] at h1
        obtain ⟨r', h3, h4⟩ := getPathElements_root (top := top) h1
        rw [h] at h3; cases h3
        intro e he
        rcases h4 with ⟨_, _, h5⟩ | ⟨_, _, h5⟩
        · rw [h5] at he; exact he
        · rw [h5] at he; exact List.mem_of_mem_drop he
      | false =>
        rw [hr] at h1
        obtain ⟨r', h3, h4⟩ := c12_relative (top := top) h1
        rw [h] at h3; cases h3
        intro e he
        rw [h4.2] at he; exact he
    exact fun e he => hgn e (hsub e he)
  have hh : r.hidden = isHidden r.elems := by
    unfold getPathElements at h
    split at h
    · cases h
    · simp only at h
      cases h
      rfl
  rw [hh, isHidden, List.any_eq_true]
  constructor
  · rintro ⟨e, he, hb⟩
    refine ⟨e, he, ?_⟩
    have h1 := hn e he
    simp only [Bool.and_eq_true, bne_iff_ne, ne_eq, ignored, Bool.or_eq_true, decide_eq_true_eq, h1, false_or] at hb
    obtain ⟨⟨_, h2⟩, h3⟩ := hb
    simp only [h2, false_or] at h3
    simp only [hiddenNames, List.mem_cons, List.not_mem_nil, or_false]
    simpa only [or_assoc] using h3
  · rintro ⟨e, he, hm⟩
    refine ⟨e, he, ?_⟩
    simp only [hiddenNames, List.mem_cons, List.not_mem_nil, or_false] at hm
    rcases hm with rfl | rfl | rfl | rfl | rfl | rfl <;> decide

/-- C13: whether one name is left out when directories are read and files are watched: the hidden names, `.` and `..`. -/
theorem c13_ignored (e : Str) :
    ignored e = true ↔ e ∈ hiddenNames ∨ e = ".".toList ∨ e = "..".toList := by
  simp only [ignored, Bool.or_eq_true, decide_eq_true_eq, hiddenNames, List.mem_cons, List.not_mem_nil, or_false]
  constructor
  · rintro (((((((h | h) | h) | h) | h) | h) | h) | h) <;> simp [h]
  · rintro ((h | h | h | h | h | h) | h | h) <;> simp [h]

example : (getPathElements "/p".toList "/p/a/.git/config".toList).map (·.hidden) = some true := by decide +kernel

/-- Names that only begin like a hidden one do not count, and `..` takes a hidden name back. -/
example : (getPathElements "/p".toList "a/.gitx/.tup/../f".toList).map (·.hidden) = some false := by decide +kernel

/-- A project inside of a hidden directory. -/
example : (getPathElements "/x/.git/p".toList "/x/.git/p/f".toList).map (·.hidden) = some false := by decide +kernel

/-- C11: the path names a group iff its last name is `<…>`. -/
theorem c11_group {top s : Str} {r : Result} (h : getPathElements top s = some r) :
    r.group = true ↔ ∃ l x, r.elems = l ++ ['<' :: x ++ ['>']] := by
  have hg : r.group = isGroup r.elems := by
    unfold getPathElements at h
    split at h
    · cases h
    · simp only at h
      cases h
      rfl
  rw [hg, isGroup]
  cases hl : r.elems.getLast? with
  | none =>
    rw [List.getLast?_eq_none_iff] at hl
    simp [hl]
  | some e =>
    obtain ⟨l, hl⟩ := List.getLast?_eq_some_iff.1 hl
    simp only [hl, Bool.and_eq_true, beq_iff_eq]
    constructor
    · rintro ⟨h1, h2⟩
      obtain ⟨y, hy⟩ := List.getLast?_eq_some_iff.1 h2
      cases y with
      | nil =>
        rw [hy] at h1
        exact absurd h1 (by decide)
      | cons a y =>
        rw [hy] at h1
        cases h1
        exact ⟨l, y, by rw [hy]⟩
    · rintro ⟨l', x, hx⟩
      obtain ⟨_, he⟩ := List.append_inj' hx rfl
      cases he
      exact ⟨rfl, List.getLast?_eq_some_iff.2 ⟨'<' :: x, rfl⟩⟩

/-- Only the last name counts, and a path that leads to the directory itself is none. -/
example : ["lib/<objs>", "lib/../<objs>/.", "<objs>/a", "<objs", "<", "<objs>/..", "<>"].map (fun s => (getPathElements "/p".toList s.toList).map (·.group)) =
    [some true, some true, some false, some false, some false, some false, some true] := by decide +kernel

end Tup.Pel
