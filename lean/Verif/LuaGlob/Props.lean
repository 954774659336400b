import Verif.LuaGlob.Model
import Verif.Lookup.Props
import Verif.Pel.Props

/-! C106: what `tup.glob` returns, and that the files in the list are those which the pattern stands for in a Tupfile. -/

namespace Tup.LuaGlob

open Tup.Db Tup.Names Tup.Lookup

variable {cx : Cx} {db : Db}

/-- The files that `tup.glob` finds: as `Matches`, but the files of rules of other Tupfiles are among them. -/
def Lists (cx : Cx) (db : Db) (d : Nat) (pat : Str) (i : Nat) : Prop :=
  ∃ n, db.node i = some n ∧ (n.dir = d ∨ Image cx db d n.dir) ∧ (n.kind = .file ∨ n.kind = .generated) ∧
    cx.glob pat n.name = true ∧ cx.gone i = false

theorem globRows_mem {dir pat s : Str} : ∀ {l : List Nat}, s ∈ globRows cx db dir pat l ↔
    ∃ i n, i ∈ l ∧ db.node i = some n ∧ cx.gone i = false ∧ s = fullPath dir n.name
  | [] => by simp [globRows]
  | i :: l => by
    have ih := globRows_mem (dir := dir) (pat := pat) (s := s) (l := l)
    unfold globRows
    cases hg : cx.gone i with
    | true =>
      rw [if_pos rfl, ih]
      constructor
      · rintro ⟨j, n, h1, h2⟩
        exact ⟨j, n, List.mem_cons_of_mem _ h1, h2⟩
      · rintro ⟨j, n, h1, h2, h3, h4⟩
        rcases List.mem_cons.1 h1 with rfl | h1
        · rw [hg] at h3; cases h3
        · exact ⟨j, n, h1, h2, h3, h4⟩
    | false =>
      rw [if_neg (by simp)]
      cases hn : db.node i with
      | none =>
        simp only
        rw [ih]
        constructor
        · rintro ⟨j, n, h1, h2⟩
          exact ⟨j, n, List.mem_cons_of_mem _ h1, h2⟩
        · rintro ⟨j, n, h1, h2, h3, h4⟩
          rcases List.mem_cons.1 h1 with rfl | h1
          · rw [hn] at h2; cases h2
          · exact ⟨j, n, h1, h2, h3, h4⟩
      | some m =>
        simp only
        rw [List.mem_cons, ih]
        constructor
        · rintro (h | ⟨j, n, h1, h2⟩)
          · exact ⟨i, m, List.mem_cons_self, hn, hg, h⟩
          · exact ⟨j, n, List.mem_cons_of_mem _ h1, h2⟩
        · rintro ⟨j, n, h1, h2, h3, h4⟩
          rcases List.mem_cons.1 h1 with rfl | h1
          · rw [hn] at h2; cases h2
            exact .inl h4
          · exact .inr ⟨j, n, h1, h2, h3, h4⟩

theorem globRows_length {dir pat : Str} : ∀ {l : List Nat}, (∀ i ∈ l, ∃ n, db.node i = some n) →
    (globRows cx db dir pat l).length = (l.filter fun i => cx.gone i = false).length
  | [], _ => rfl
  | i :: l, h => by
    have ih := globRows_length (dir := dir) (pat := pat) (l := l) (fun j hj => h j (List.mem_cons_of_mem _ hj))
    obtain ⟨n, hn⟩ := h i List.mem_cons_self
    unfold globRows
    cases hg : cx.gone i with
    | true => rw [if_pos rfl, List.filter_cons_of_neg (by simp [hg])]; exact ih
    | false =>
      rw [if_neg (by simp), hn, List.filter_cons_of_pos (by simp [hg])]
      simp only [List.length_cons, ih]

/-- C106: `tup.glob` with a path fails only if the directory does not exist on disk. It returns the paths of exactly the files and
generated files that the directory has, and in a variant also those of the directory of the source tree, whose names match and that are
not scheduled to be deleted; there are as many paths as such files. -/
theorem c106_glob (hb : Bounded db) (ho : ∀ l, (cx.order l).Perm l) (d : Nat) (dir pat : Str) (hs : ¬ Image cx db d d) :
    (glob cx db (.path d dir pat) = .error ↔ db.node d = none ∨ IsGhost db d) ∧ glob cx db (.path d dir pat) ≠ .ub ∧
    ∀ l, glob cx db (.path d dir pat) = .ok l →
      (∀ s, s ∈ l ↔ ∃ i n, Lists cx db d pat i ∧ db.node i = some n ∧ s = fullPath dir n.name) ∧
      ∃ is : List Nat, is.Nodup ∧ is.length = l.length ∧ ∀ i, i ∈ is ↔ Lists cx db d pat i := by
  have hrows : ∀ s, ∀ i ∈ rows cx db s pat, ∃ n, db.node i = some n :=
    fun s i hi => by obtain ⟨n, h, _⟩ := (rows_mem ho hb).1 hi; exact ⟨n, h⟩
  cases hn : db.node d with
  | none =>
    have hgl : glob cx db (.path d dir pat) = .error := by simp only [glob, hn]
    rw [hgl]
    exact ⟨⟨fun _ => .inl rfl, fun _ => rfl⟩, (by simp), fun l h => by cases h⟩
  | some n =>
    simp only [glob, hn]
    by_cases hg : n.kind = .ghost
    · rw [if_pos hg]
      exact ⟨⟨fun _ => .inr ⟨n, hn, hg⟩, fun _ => rfl⟩, (by simp), fun l h => by cases h⟩
    rw [if_neg hg]
    have hng : ¬ (some n = none ∨ IsGhost db d) := by
      rintro (h | ⟨m, h1, h2⟩)
      · cases h
      · rw [hn] at h1; cases h1; exact hg h2
    cases hsrc : source cx db d with
    | none =>
      have hno := source_none.1 hsrc
      refine ⟨⟨(by intro h; cases h), fun h => absurd h hng⟩, (by simp), fun l h => ?_⟩
      cases h
      have hL : ∀ i, Lists cx db d pat i ↔ i ∈ rows cx db d pat ∧ cx.gone i = false := fun i => by
        rw [rows_mem ho hb]
        constructor
        · rintro ⟨m, h1, h2 | h2, h3, h4, h5⟩
          · exact ⟨⟨m, h1, h2, h3, h4⟩, h5⟩
          · exact absurd h2 (hno _)
        · rintro ⟨⟨m, h1, h2, h3, h4⟩, h5⟩
          exact ⟨m, h1, .inl h2, h3, h4, h5⟩
      refine ⟨fun s => ?_, (rows cx db d pat).filter (fun i => cx.gone i = false), List.Nodup.sublist List.filter_sublist (rows_nodup ho), (globRows_length (hrows d)).symm,
        fun i => by rw [hL, List.mem_filter]; simp⟩
      rw [globRows_mem]
      constructor
      · rintro ⟨i, m, h1, h2, h3, h4⟩
        exact ⟨i, m, (hL i).2 ⟨h1, h3⟩, h2, h4⟩
      · rintro ⟨i, m, h1, h2, h3⟩
        obtain ⟨h4, h5⟩ := (hL i).1 h1
        exact ⟨i, m, h4, h2, h5, h3⟩
    | some s =>
      have him := source_iff.1 hsrc
      have hsd : s ≠ d := fun h => hs (h ▸ him)
      refine ⟨⟨(by intro h; cases h), fun h => absurd h hng⟩, (by simp), fun l h => ?_⟩
      cases h
      have huni : ∀ s', Image cx db d s' → s' = s := fun s' h' => by
        have := source_iff.2 h'
        rw [hsrc] at this
        cases this; rfl
      have hL : ∀ i, Lists cx db d pat i ↔ (i ∈ rows cx db d pat ∨ i ∈ rows cx db s pat) ∧ cx.gone i = false := fun i => by
        rw [rows_mem ho hb, rows_mem ho hb]
        constructor
        · rintro ⟨m, h1, h2 | h2, h3, h4, h5⟩
          · exact ⟨.inl ⟨m, h1, h2, h3, h4⟩, h5⟩
          · exact ⟨.inr ⟨m, h1, huni _ h2, h3, h4⟩, h5⟩
        · rintro ⟨⟨m, h1, h2, h3, h4⟩ | ⟨m, h1, h2, h3, h4⟩, h5⟩
          · exact ⟨m, h1, .inl h2, h3, h4, h5⟩
          · exact ⟨m, h1, .inr (h2 ▸ him), h3, h4, h5⟩
      refine ⟨fun t => ?_, (rows cx db d pat ++ rows cx db s pat).filter (fun i => cx.gone i = false), List.Nodup.sublist List.filter_sublist ?_, ?_,
        fun i => by rw [hL, List.mem_filter, List.mem_append]; simp⟩
      · rw [List.mem_append, globRows_mem, globRows_mem]
        constructor
        · rintro (⟨i, m, h1, h2, h3, h4⟩ | ⟨i, m, h1, h2, h3, h4⟩)
          · exact ⟨i, m, (hL i).2 ⟨.inl h1, h3⟩, h2, h4⟩
          · exact ⟨i, m, (hL i).2 ⟨.inr h1, h3⟩, h2, h4⟩
        · rintro ⟨i, m, h1, h2, h3⟩
          obtain ⟨h4 | h4, h5⟩ := (hL i).1 h1
          · exact .inl ⟨i, m, h4, h2, h5, h3⟩
          · exact .inr ⟨i, m, h4, h2, h5, h3⟩
      · refine List.nodup_append.2 ⟨rows_nodup ho, rows_nodup ho, fun a ha b hb' hab => ?_⟩
        subst hab
        obtain ⟨m, h1, h2, _⟩ := (rows_mem ho hb).1 ha
        obtain ⟨m', h1', h2', _⟩ := (rows_mem ho hb).1 hb'
        rw [h1] at h1'; cases h1'
        exact hsd (h2'.symm.trans h2)
      · rw [List.filter_append, List.length_append, List.length_append, globRows_length (hrows d), globRows_length (hrows s)]

/-- C106: each name that `tup.glob` lists can be given as an input to a rule, and stands there for the file that it was listed for, and
these are the files that the pattern itself stands for in a Tupfile; provided that the name is not itself a pattern and does not begin with
`<`, that none of the files is made by the Tupfile of another directory, and that, in a variant, a file of the source tree is not hidden by
something of that name in the variant (a ghost, or something that is scheduled to be deleted, hides nothing). -/
theorem c106_inputs (hb : Bounded db) (hu : Unique db) (hc : Converts cx) (hr : ∀ i n, db.node i = some n → ∃ r, cx.rel db i = some r)
    {d : Nat} {pat : Str} (hd : ∃ n, db.node d = some n)
    (hf : ∀ i, Lists cx db d pat i → ¬ Foreign cx db i) :
    (∀ i, Matches cx db d pat i ↔ Lists cx db d pat i) ∧
    ∀ i n, Lists cx db d pat i → db.node i = some n → ¬ Pattern n.name → n.name.head? ≠ some '<' →
      (Image cx db d n.dir → ∀ j, At db d n.name j → j ≠ i → IsGhost db j ∨ cx.gone j = true) →
      ∀ orderid nl, ∃ e, addPath cx db d n.name orderid false nl = .ok (db, nl.add e) ∧ Describes cx db orderid e i := by
  constructor
  · intro i
    constructor
    · rintro ⟨m, h1, h2, h3, h4, h5, _⟩
      exact ⟨m, h1, h2, h3, h4, h5⟩
    · intro hk
      obtain ⟨m, h1, h2, h3, h4, h5⟩ := id hk
      exact ⟨m, h1, h2, h3, h4, h5, hf i hk⟩
  · intro k m hk hm hp hn hh orderid nl
    have hs : Stands cx db d m.name false db k := by
      obtain ⟨m', h1, h2, h3, h4, h5⟩ := id hk
      rw [hm] at h1; cases h1
      have hng : m.kind ≠ .ghost := by
        intro h
        rcases h3 with h3 | h3 <;> rw [h] at h3 <;> cases h3
      have hngk : ¬ IsGhost db k := by
        rintro ⟨m', h1, h2⟩
        rw [hm] at h1; cases h1; exact hng h2
      have hns : ¬ OnlySource cx false := by rintro ⟨h, _⟩; cases h
      by_cases hd : m.dir = d
      · exact ⟨k, m, .own hns ⟨m, hm, hd, rfl⟩ (fun h => absurd h hngk), hm, fun h => absurd h hng, .inl ⟨h5, rfl⟩, hf k hk⟩
      · have him : Image cx db d m.dir := h2.resolve_left hd
        by_cases ho : ∃ j, At db d m.name j
        · obtain ⟨j, hj⟩ := ho
          have hjk : j ≠ k := by
            rintro rfl
            obtain ⟨m', h1, h2, _⟩ := hj
            rw [hm] at h1; cases h1; exact hd h2
          by_cases hg : IsGhost db j
          · exact ⟨k, m, .source him ⟨m, hm, rfl, rfl⟩ (.inr (.inr ⟨hns, j, hj, hg⟩)), hm, fun h => absurd h hng, .inl ⟨h5, rfl⟩, hf k hk⟩
          · obtain ⟨mj, hmj, _⟩ := id hj
            have hg2 := (hh him j hj hjk).resolve_left hg
            exact ⟨j, mj, .own hns hj (fun h => absurd h hg), hmj, fun h => absurd ⟨mj, hmj, h⟩ hg,
              .inr ⟨hg2, m.dir, him, ⟨m, hm, rfl, rfl⟩, hngk⟩, hf k hk⟩
        · exact ⟨k, m, .source him ⟨m, hm, rfl, rfl⟩ (.inl ⟨fun j hj => ho ⟨j, hj⟩, hn⟩), hm, fun h => absurd h hng, .inl ⟨h5, rfl⟩, hf k hk⟩
    obtain ⟨r, hrr⟩ := hr k m hm
    have hfe : ∃ e, fileEntry m.name r m.name orderid k = .ok e := by
      unfold fileEntry
      rw [c56_none]
      exact ⟨_, rfl⟩
    obtain ⟨e, he⟩ := hfe
    obtain ⟨e1, e2, e3⟩ := fileEntry_ok he
    have hde : Describes cx db orderid e k := ⟨e1, by rw [e2]; exact hrr, e3⟩
    exact ⟨e, ((c79_named hb hu hc hd hp).1).2 ⟨k, r, e, hs, hrr, he, hde, rfl⟩, hde⟩

theorem comps_join {d w e : Str} {l : List Str} (h : Pel.Comps d l) (hd : d = [] ∨ d.getLast? = some '/') (hw : ∀ c ∈ w, c = '/')
    (he : e ≠ []) (hs : '/' ∉ e) : Pel.Comps (d ++ w ++ e) (l ++ [e]) := by
  induction h with
  | nil hw' =>
    rename_i u
    have := Pel.Comps.cons (w := u ++ w) (e := e) (t := []) (l := []) (fun c hc => (List.mem_append.1 hc).elim (hw' c) (hw c)) he hs
      (fun c hc => by cases hc) (.nil (fun c hc => by cases hc))
    simpa using this
  | cons hw' he' hs' hh ht ih =>
    rename_i u f t l
    have htn : t ≠ [] := by
      rintro rfl
      rcases hd with hd | hd
      · simp at hd; exact he' hd.2
      · rw [List.append_nil, List.getLast?_append] at hd
        cases hl : f.getLast? with
        | none => exact he' (List.getLast?_eq_none_iff.1 hl)
        | some c =>
          rw [hl] at hd
          have hc := List.mem_of_getLast? hl
          simp at hd
          rw [hd] at hc
          exact hs' hc
    have hlast : t.getLast? = some '/' := by
      rcases hd with hd | hd
      · simp at hd; exact absurd hd.2.1 he'
      · rw [List.getLast?_append] at hd
        cases hl : t.getLast? with
        | none => exact absurd (List.getLast?_eq_none_iff.1 hl) htn
        | some c => rw [hl] at hd; simpa using hd
    have := Pel.Comps.cons hw' he' hs' (t := t ++ w ++ e) (fun c hc => by
      cases t with
      | nil => exact absurd rfl htn
      | cons x t => exact hh c hc) (ih (.inr hlast))
    simpa [List.append_assoc] using this

/-- C106: a path in the list, with the directory of the pattern in front, is taken apart as the pattern with the name in the place of its
last element is: it leads to the same directory, and its last element is the name. (It has two slashes there: `tup.glob("sub/*.c")`
returns `sub//x.c`.) -/
theorem c106_path (dir name : Str) (hd : dir = [] ∨ dir.getLast? = some '/') (hn : name ≠ []) (hs : '/' ∉ name) :
    Pel.splitPath (fullPath dir name) = Pel.splitPath (dir ++ name) := by
  obtain ⟨l, hl⟩ := Pel.comps_exists dir
  have h1 := comps_join (w := []) hl hd (fun c hc => by cases hc) hn hs
  have h2 := comps_join (w := ['/']) hl hd (fun c hc => by simpa using hc) hn hs
  unfold fullPath
  split
  · rename_i h; rw [h]; rfl
  · rename_i h
    unfold Pel.splitPath
    have e1 : dir ++ '/' :: name = dir ++ ['/'] ++ name := by simp
    have e2 : dir ++ name = dir ++ [] ++ name := by simp
    rw [Pel.splitLoop_comps (e1 ▸ h2), Pel.splitLoop_comps (e2 ▸ h1)]
    cases dir with
    | nil => exact absurd rfl h
    | cons c t => rfl

/-! ### Cases that meet the hypotheses, and where the two differ -/

def str (s : String) : Str := s.toList

example : fullPath (str "sub/") (str "x.c") = str "sub//x.c" ∧ Pel.splitPath (str "sub//x.c") = Pel.splitPath (str "sub/x.c") := by decide +kernel

/-- In directory `a` the list has a file that the Tupfile above it makes, which a pattern in a Tupfile leaves out ... -/
theorem c106_foreign : glob (exCx true) exDb (.path 2 [] (str "*.c")) = .ok [str "z.c", str "y.c", str "x.c"] ∧
    tents (addPath (exCx true) exDb 2 (str "*.c") 1 false .empty) = some [some 4, some 3] ∧
    tents (addPath (exCx true) exDb 2 (str "z.c") 1 false .empty) = none := by decide +kernel

/-- A directory with the files `a[1].c` and `a1.c`; `a[1].c` as a pattern matches `a1.c` only. -/
def bracketDb : Db := { exDb with node := fun i => [
  (1, ({ dir := 0, kind := .dir, name := str "." } : Node)),
  (2, { dir := 1, kind := .file, name := str "a[1].c" }),
  (3, { dir := 1, kind := .file, name := str "a1.c" })].lookup i }
def bracketCx : Cx := { exCx true with me := 1, glob := fun p n => decide (p = str "*.c") || (decide (p = str "a[1].c") && decide (n = str "a1.c")) }

/-- ... and a name with brackets in it, given to a rule, is taken for a pattern: the file is not an input. -/
theorem c106_brackets : glob bracketCx bracketDb (.path 1 [] (str "*.c")) = .ok [str "a1.c", str "a[1].c"] ∧
    tents (addPath bracketCx bracketDb 1 (str "*.c") 1 false .empty) = some [some 3, some 2] ∧
    tents (addPath bracketCx bracketDb 1 (str "a[1].c") 1 false .empty) = some [some 3] := by decide +kernel

/-- C106: an exclusion as argument is the use of a null pointer. -/
theorem c106_exclusion : glob cx db .exclusion = .ub := rfl

/-- The variant `build/a`, as in the examples of C79. -/
example : glob (exCx false) exDb (.path 8 (str "a/") (str "*.c")) = .ok [str "a//w.c", str "a//z.c", str "a//y.c", str "a//x.c"] := by decide +kernel

/-- `c106_glob` for it: what is listed are the files of `a` and of its image. -/
example : ∃ is : List Nat, is.Nodup ∧ is.length = 4 ∧ ∀ i, i ∈ is ↔ Lists (exCx false) exDb 8 (str "*.c") i := by
  have h : glob (exCx false) exDb (.path 8 (str "a/") (str "*.c")) = .ok [str "a//w.c", str "a//z.c", str "a//y.c", str "a//x.c"] := by decide +kernel
  exact ((c106_glob (cx := exCx false) ex_bounded (fun l => List.reverse_perm l) 8 (str "a/") (str "*.c") (by
    rintro ⟨_, n, hn, hs⟩; cases hn; cases hs)).2.2 _ h).2

/-- Directory `a` without the file of the other Tupfile meets the hypotheses of `c106_inputs`. -/
def ownCx : Cx := { exCx true with gone := fun i => decide (i = 6 ∨ i = 5) }

theorem own_lists {i : Nat} (h : Lists ownCx exDb 2 (str "*.c") i) : i = 3 ∨ i = 4 := by
  obtain ⟨n, h1, h2, h3, h4, h5⟩ := h
  have hlt : i < 14 := by
    refine Classical.byContradiction fun hge => ?_
    rw [ex_bounded i (by have : exDb.top = 14 := rfl; omega)] at h1
    cases h1
  have key : ∀ i < 14, ∀ n, exDb.node i = some n → n.dir = 2 → (ownCx.glob (str "*.c") n.name = true) → ownCx.gone i = false → i = 3 ∨ i = 4 := by
    intro i hi
    have : ∀ i < 14, (match exDb.node i with
      | none => true
      | some n => decide (n.dir = 2 → ownCx.glob (str "*.c") n.name = true → ownCx.gone i = false → i = 3 ∨ i = 4)) = true := by decide +kernel
    intro n hn hd hg hgo
    have := this i hi
    rw [hn] at this
    exact of_decide_eq_true this hd hg hgo
  rcases h2 with h2 | h2
  · exact key i hlt n h1 h2 h4 h5
  · exact absurd h2.1 (by decide)

example : (∀ i, Matches ownCx exDb 2 (str "*.c") i ↔ Lists ownCx exDb 2 (str "*.c") i) ∧
    ∀ orderid nl, ∃ e, addPath ownCx exDb 2 (str "y.c") orderid false nl = .ok (exDb, nl.add e) ∧ Describes ownCx exDb orderid e 4 := by
  have h := c106_inputs (cx := ownCx) (pat := str "*.c") (d := 2) ex_bounded ex_unique (fun db i n db' j _ _ _ h => by cases h)
    (fun i n h => ⟨n.name, by show (exDb.node i).map _ = _; rw [h]; rfl⟩) ⟨_, rfl⟩ (fun i h => by
      rintro ⟨n, s, hn, h1, h2, h3⟩
      rcases own_lists h with rfl | rfl <;> cases hn <;> cases h1
      exact h3 rfl)
  exact ⟨h.1, h.2 4 _ ⟨_, rfl, .inl rfl, .inr rfl, (by decide +kernel), rfl⟩ rfl (by unfold Pattern; decide +kernel) (by decide +kernel) (fun him => absurd him.1 (by decide))⟩

end Tup.LuaGlob
