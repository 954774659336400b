import Verif.Names.Lemmas

/-! C10 (name lists), C55 (extensions) and C56 (what a wildcard stands for). -/

namespace Tup.Names

/-- C10: in every history the totals are the sums over the list. -/
theorem c10_totals {nl : NameList} (h : Run nl) : Exact nl := run_exact h

/-- C10: removing duplicates keeps the order, keeps an entry exactly if it stands for no node or no entry in front
of it stands for the same node, and leaves no two entries for one node. -/
theorem c10_unique (nl : NameList) :
    (unique nl).entries.Sublist nl.entries ∧
    ((unique nl).entries.Pairwise fun a b => a.tent = none ∨ a.tent ≠ b.tent) ∧
    (∀ a e b, nl.entries = a ++ e :: b →
      ((e.tent = none ∨ ∀ x ∈ a, x.tent ≠ e.tent) → ∃ l r, (unique nl).entries = l ++ e :: r ∧
        l = (unique ⟨a, nl.tot⟩).entries) ∧
      (¬ (e.tent = none ∨ ∀ x ∈ a, x.tent ≠ e.tent) → (unique nl).entries = (unique ⟨a ++ b, nl.tot⟩).entries)) := by
  have hu : ∀ nl : NameList, (unique nl).entries = kept [] nl.entries := fun nl => unique_eq _ _ _
  rw [hu]
  refine ⟨kept_sublist _ _, kept_pairwise _ _, ?_⟩
  intro a e b he
  simp only [hu]
  rw [he, kept_append, kept_append]
  simp only [kept]
  constructor
  · intro hk
    cases ht : e.tent with
    | none => exact ⟨_, _, rfl, rfl⟩
    | some t =>
      have : t ∉ tents a ++ [] := by
        simp only [List.append_nil, tents, List.mem_filterMap]
        rintro ⟨x, hx, hxt⟩
        rcases hk with hk | hk
        · rw [hk] at ht; cases ht
        · exact hk x hx (by rw [hxt, ht])
      simp only [if_neg this]
      exact ⟨_, _, rfl, rfl⟩
  · intro hk
    cases ht : e.tent with
    | none => exact absurd (.inl ht) hk
    | some t =>
      have : t ∈ tents a ++ [] := by
        simp only [List.append_nil, tents, List.mem_filterMap]
        apply Classical.byContradiction
        intro hn
        apply hk
        right
        intro x hx hxt
        exact hn ⟨x, hx, by rw [hxt, ht]⟩
      simp only [if_pos this]

/-- C10: exclusions remove exactly the entries they match. -/
theorem c10_exclude (re : Str → Bool) (nl : NameList) :
    (exclude re nl).entries = nl.entries.filter fun e => !re e.path := by
  unfold exclude
  generalize nl.tot = t
  induction nl.entries generalizing t with
  | nil => rfl
  | cons e l ih =>
    rw [deleteLoop]
    cases h : re e.path with
    | true => simp only [ih, List.filter_cons, h, Bool.not_true, Bool.false_eq_true, if_false]
    | false => simp only [ih, List.filter_cons, h, Bool.not_false, if_true]

def exA : Entry := { path := "a.txt".toList, extlesslen := 1, orderid := 1, tent := some 7 }
def exB : Entry := { path := "b.txt".toList, extlesslen := 1, globs := [(0, some 1)], orderid := 2, tent := some 8 }

example : Run (step (step (step .empty (.add exA)) (.add exB)) (.add exA)) ∧
    (unique ((NameList.empty.add exA).add exB |>.add exA)).entries = [exA, exB] :=
  ⟨.step (.step (.step .init)), by decide +kernel⟩

/-- The number of wildcards kept with the list is that of the entry added last, even if it has been removed.  For
the inputs `a.txt *.txt ^b.txt` it says that there is a wildcard, and the only entry has none. -/
theorem c10_wildcard_count_stale :
    ∃ nl : NameList, Run nl ∧ nl.entries = [exA] ∧ exA.globs = [] ∧ nl.tot.globcnt = 1 := by
  refine ⟨step (step (step .empty (.add exA)) (.add exB)) (.exclude fun p => p = "b.txt".toList),
    .step (.step (.step .init)), ?_, rfl, ?_⟩
  · decide +kernel
  · decide +kernel

/-- C55: for a file of the project, the length that `%B` uses is that of the name without its extension. -/
theorem c55_file {pat rel name stem : Str} {ext : Option Str} {orderid tent : Nat} {e : Entry}
    (h : fileEntry pat rel name orderid tent = .ok e) (hs : '/' ∉ name)
    (hr : rel = name ∨ ∃ d, rel = d ++ "/".toList ++ name) (hn : Named name stem ext) :
    e.path = rel ∧ e.base = name ∧ e.extlessbaselen = stem.length ∧
      (∀ x, ext = some x → e.path.drop (e.extlesslen.toNat + 1) = x) ∧
      (ext = none ↔ e.extlessbaselen = e.baselen) := by
  unfold fileEntry at h
  split at h
  · next globs hg =>
    simp only [Res.ok.injEq] at h
    subst h
    have hbase : (Entry.base { path := rel, extlesslen :=
        (if scanFrom name name.length = 0 then (rel.length : Int) else
          rel.length - (name.length - scanFrom name name.length)), globs, orderid, tent := some tent }) = name := by
      rcases hr with rfl | ⟨d, rfl⟩
      · exact base_whole hs
      · exact base_append (d := d) (by simp) hs
    refine ⟨rfl, hbase, ?_⟩
    simp only [Entry.extlessbaselen, Entry.baselen, hbase, Entry.len]
    have hlen : name.length ≤ rel.length := by
      rcases hr with rfl | ⟨d, rfl⟩
      · exact Nat.le_refl _
      · simp only [List.length_append]; omega
    cases hn with
    | @ext _ x hs0 hx =>
      have hscan := scanFrom_ext (b := ['.']) hs0 hx
      have e1 : stem ++ ".".toList ++ x = stem ++ '.' :: x := by simp
      rw [e1] at hlen hr ⊢
      have e2 : (stem ++ '.' :: x).length = stem.length + x.length + ['.'].length := by simp; omega
      rw [e2, hscan]
      have hp := List.length_pos_iff.2 hs0
      rw [if_neg (by omega)]
      rw [e2] at hlen
      simp only [List.length_cons, List.length_nil] at *
      refine ⟨by omega, ?_, ?_⟩
      · intro y hy
        cases hy
        have : ((rel.length : Int) - (↑(stem.length + x.length + (0 + 1)) - ↑stem.length)).toNat + 1 =
            rel.length - x.length := by omega
        rw [this]
        rcases hr with rfl | ⟨d, rfl⟩
        · rw [show (stem ++ '.' :: x) = (stem ++ ['.']) ++ x from by simp]
          rw [List.length_append, Nat.add_sub_cancel, List.drop_left]
        · rw [show d ++ "/".toList ++ (stem ++ '.' :: x) = (d ++ "/".toList ++ stem ++ ['.']) ++ x from by simp]
          rw [List.length_append, Nat.add_sub_cancel, List.drop_left]
      · simp only [reduceCtorEq, false_iff]
        omega
    | plain hp =>
      rw [scanFrom_plain hp]
      simp only [if_true]
      refine ⟨by omega, (fun _ h => by cases h), ?_⟩
      simp only [true_iff]
      omega
  · cases h
  · cases h

example : Named "foo.tar.gz".toList "foo.tar".toList (some "gz".toList) ∧
    Named ".profile".toList ".profile".toList none ∧
    ∃ e, fileEntry "*.gz".toList "../foo.tar.gz".toList "foo.tar.gz".toList 1 5 = .ok e := by
  refine ⟨Named.ext (s := "foo.tar".toList) (e := "gz".toList) (by decide) (by decide), .plain (by decide), ?_⟩
  exact ⟨_, rfl⟩

/-- C55 for files from bins and for paths outside of the project, in a directory, if the last component has
a dot (here even a name that begins with its only dot, like `.x`, has the empty stem and the extension `x`). -/
theorem c55_path {d s x : Str} {orderid : Nat} {tent : Option Nat} (hx : '.' ∉ x) (h1 : '/' ∉ s)
    (h2 : '/' ∉ x) :
    (pathEntry (d ++ "/".toList ++ s ++ ".".toList ++ x) orderid tent).extlessbaselen = s.length := by
  have hb : (pathEntry (d ++ "/".toList ++ s ++ ".".toList ++ x) orderid tent).base = s ++ '.' :: x := by
    apply base_append (d := d)
    · simp [pathEntry]
    · simp [h1, h2]
  have hscan := scanFrom_ext (a := d ++ "/".toList ++ s) (e := x) (b := []) (by simp) hx
  have e1 : d ++ "/".toList ++ s ++ ".".toList ++ x = d ++ "/".toList ++ s ++ '.' :: x := by simp
  have e2 : extScan (d ++ "/".toList ++ s ++ ".".toList ++ x) = ((d ++ "/".toList ++ s).length : Int) := by
    unfold extScan
    rw [e1]
    have e3 : (d ++ "/".toList ++ s ++ '.' :: x).length = (d ++ "/".toList ++ s).length + x.length + 1 := by
      simp only [List.length_append, List.length_cons]; omega
    rw [e3]
    simp only [List.length_nil, Nat.add_zero] at hscan
    simp only [hscan]
  rw [Entry.extlessbaselen, Entry.baselen, hb]
  simp only [Entry.len, pathEntry]
  rw [e2]
  rw [if_neg (by simp; omega)]
  simp only [List.length_append, List.length_cons]
  simp only [String.length_toList, show "/".length = 1 from rfl, show ".".length = 1 from rfl]
  omega

/-- Without a dot in the last component the search goes on into the directory: for `../foo` the length is negative,
and `%B` copies that many bytes. -/
theorem c55_false_without_dot : (pathEntry "../foo".toList 1 (some 7)).extlessbaselen = -2 := by decide +kernel

/-- C55: an output without a dot has the empty name without extension. -/
theorem c55_output_without_dot : (outputEntry "prog".toList 1 (some 7)).extlesslen = 0 := by decide +kernel

/-- No wildcard characters. -/
def Literal (s : Str) : Prop := ∀ c ∈ s, c ≠ '*' ∧ c ≠ '?' ∧ c ≠ '['

theorem takeWhile_literal {s : Str} (h : Literal s) :
    s.takeWhile (fun c => decide (c ≠ '*' ∧ c ≠ '?' ∧ c ≠ '[')) = s := by
  have := List.takeWhile_append_of_pos (p := fun c : Char => decide (c ≠ '*' ∧ c ≠ '?' ∧ c ≠ '[')) (l₁ := s) (l₂ := [])
    (by intro c hc; simpa using h c hc)
  simpa using this

/-- C56: for a pattern with one star that is not at its end, the recorded part of a matching name is what the star
stands for.  The name does not have a star at that place itself. -/
theorem c56_star {a b x : Str} (hb : b ≠ []) (hlit : Literal b) (hx : (x ++ b).head? ≠ some '*') :
    globParse (a ++ "*".toList ++ b) (a ++ x ++ b) = .ok [(a.length, some x.length)] := by
  obtain ⟨c, t, rfl⟩ : ∃ c t, b = c :: t := by
    cases b with
    | nil => exact absurd rfl hb
    | cons c t => exact ⟨c, t, rfl⟩
  have hc := hlit c List.mem_cons_self
  unfold globParse
  have e1 : a ++ "*".toList ++ (c :: t) = a ++ '*' :: (c :: t) := by simp
  have e2 : a ++ x ++ (c :: t) = a ++ (x ++ c :: t) := by simp
  rw [e1, e2, common_append]
  · simp only [List.append_eq_nil_iff, reduceCtorEq, and_false, if_false, List.head?_cons, Option.some.injEq,
      List.drop_succ_cons, List.drop_zero]
    rw [if_neg (by decide)]
    have t1 : (c :: t).takeWhile (fun c => decide (c = '*')) = [] := by
      simp [hc.1]
    have t2 : (c :: t).dropWhile (fun c => decide (c = '*')) = c :: t := by
      simp [hc.1]
    have t3 : t.any (fun c => decide (c = '?' ∨ c = '[')) = false := by
      rw [List.any_eq_false]
      intro d hd
      have := hlit d (List.mem_cons_of_mem _ hd)
      simp [this.2.1, this.2.2]
    rw [t1, t2, takeWhile_literal hlit]
    simp only [List.length_nil, List.map_nil, List.nil_append, List.drop_succ_cons, List.drop_zero, t3]
    rw [if_neg (by decide)]
    have hle : (c :: t).length ≤ (x ++ c :: t).length := by simp
    rw [if_pos hle]
    simp only [Bool.false_eq_true, if_false, reduceCtorEq]
    have hk : (x ++ c :: t).length - (c :: t).length = x.length := by simp
    rw [hk]
    have hr : rightmost (c :: t) (x ++ c :: t) x.length = some x.length := by
      cases hxl : x.length with
      | zero =>
        have : x = [] := List.eq_nil_of_length_eq_zero hxl
        subst this
        simp [rightmost, List.isPrefixOf_iff_prefix]
      | succ k =>
        rw [rightmost]
        have : (x ++ c :: t).drop (k + 1) = c :: t := by rw [← hxl, List.drop_left]
        rw [this]
        simp [List.isPrefixOf_iff_prefix]
    rw [hr]
  · intro u v hu hv huv
    simp only [List.head?_cons, Option.some.injEq] at hu
    rw [← huv, ← hu] at hv
    exact hx hv

/-- C56: a question mark or a set in brackets stands for one character. -/
theorem c56_one {a p q : Str} {c d : Char} (hd : d = '?' ∨ d = '[') (hc : c ≠ d) :
    globParse (a ++ d :: p) (a ++ c :: q) = .ok [(a.length, some 1)] := by
  unfold globParse
  rw [common_append]
  · simp only [List.append_eq_nil_iff, reduceCtorEq, and_false, if_false, List.head?_cons, Option.some.injEq]
    rw [if_pos (by rcases hd with h | h <;> simp [h])]
  · intro u v hu hv
    simp only [List.head?_cons, Option.some.injEq] at hu hv
    rw [← hu, ← hv]
    exact Ne.symm hc

/-- C56: a name given without wildcards has no such part. -/
theorem c56_none (a : Str) : globParse a a = .ok [] := by
  have : common a a = (a.length, [], []) := by
    have := common_append a [] [] (by simp)
    simpa using this
  unfold globParse
  simp only [this, and_self, if_true, ite_self]

/-- For a star at the end of a pattern nothing is recorded. -/
theorem c56_final_star {a x : Str} (hx : x.head? ≠ some '*') : globParse (a ++ "*".toList) (a ++ x) = .ok [] := by
  unfold globParse
  rw [common_append a "*".toList x]
  · simp
    intro h
    exact absurd h (by decide)
  · intro u v hu hv
    have hu' : u = '*' := by simpa using hu.symm
    subst hu'
    rintro rfl
    exact hx hv

/-- Two stars in a row: the length of the first part is never written; eleven stars are written behind the end of
the array. -/
theorem c56_star_star :
    globParse "**.c".toList "x.c".toList = .ok [(0, none), (0, some 1)] ∧
    globParse "***********.c".toList "x.c".toList = .ub := by
  decide +kernel

example : globParse "foo_*.txt".toList "foo_bar.txt.txt".toList = .ok [(4, some 7)] := by decide +kernel

end Tup.Names
