import Verif.Include.Runs

/-!
C69: which files a directory is parsed from, in which order and in which directory each of them is read; and the files that the directory then depends on decide it.
-/

namespace Tup.Include

variable {σ : Type} {w : World} {sem : Meaning σ} {ign : Str → σ → σ} {dir : Path} {s s' : σ}

/-- C69, one half: what the parser does is what the files mean. -/
theorem c69_sound (hw : Proper w) (hd : IsDir w dir) {n : Nat} {reads : List Path} (h : parseDir w sem ign n dir s = some (reads, s')) : Parses w sem ign dir s s' := by
  unfold parseDir at h
  rw [openTupfile_search] at h
  generalize hs : search w (candidates dir) = r at h
  obtain ⟨rs, r⟩ := r
  cases r with
  | none =>
    obtain ⟨h1, _⟩ := search_none hs
    simp only at h
    split at h
    · rename_i hdir
      split at h
      · rename_i hn
        split at h
        · rename_i ht
          cases h
          exact .nothing h1 (fun hx => by obtain ⟨_, _, t, h2⟩ := hx; rw [ht] at h2; cases h2)
        · rename_i t ht
          cases h
          exact .ignore h1 hdir hn ht
      · rename_i hn
        cases h
        exact .nothing h1 fun hx => hn hx.2.1
    · rename_i hdir
      cases h
      exact .nothing h1 fun hx => hdir hx.1
  | some c =>
    obtain ⟨p, lua⟩ := c
    obtain ⟨pre, post, e1, e2, e3, _⟩ := search_some hs
    have hf : First w dir p lua := ⟨pre, post, e1, e2, e3⟩
    simp only at h
    split at h
    · cases h
    · rename_i t ht
      split at h
      · rename_i hl
        subst hl
        split at h
        · cases h
        · rename_i st h1
          obtain ⟨st', h2, h3⟩ := Option.map_eq_some_iff.1 h
          cases h3
          obtain ⟨_, f1, f2, f3⟩ := includeRules_sound (includeFile_sound hw n) tuprules_lua_name (by exact hd) h1
          simp only at f1 f3
          obtain ⟨_, _, g3⟩ := exec_sound (includeFile_sound hw n) _ _ _ (by rw [f1]; exact hd) h2
          rw [f1, f2] at g3
          exact .lua hf ht f3 g3
      · rename_i hl
        have hl : lua = false := by simpa using hl
        subst hl
        obtain ⟨st', h2, h3⟩ := Option.map_eq_some_iff.1 h
        cases h3
        obtain ⟨_, _, g3⟩ := exec_sound (includeFile_sound hw n) _ _ _ (by exact hd) h2
        exact .tup hf ht g3

/-- C69, the other half: what the files mean is what the parser does, unless it runs out of descriptors. -/
theorem c69_complete (hw : Proper w) (hd : IsDir w dir) (h : Parses w sem ign dir s s') : ∃ n, ∀ m, n ≤ m → ∃ reads, parseDir w sem ign m dir s = some (reads, s') := by
  cases h with
  | @tup p t _ h1 h2 h3 =>
    obtain ⟨rs, h4⟩ := open_first h1
    obtain ⟨n, h5⟩ := runs_done hw h3 hd
    refine ⟨n, fun m hm => ?_⟩
    obtain ⟨reads, h6⟩ := h5 m hm rs s
    refine ⟨reads, ?_⟩
    unfold parseDir
    rw [h4]
    simp only
    rw [h2]
    simp only [Bool.false_eq_true, if_false]
    rw [h6]
    rfl
  | @lua p t s1 _ h1 h2 h3 h3' =>
    obtain ⟨rs, h4⟩ := open_first h1
    obtain ⟨n1, h5⟩ := runs_done hw h3 hd
    obtain ⟨n2, h5'⟩ := runs_done hw h3' hd
    refine ⟨max n1 n2, fun m hm => ?_⟩
    obtain ⟨r1, h6⟩ := h5 m (by omega) tuprules_lua_name (dir.length + 1) (Nat.le_refl _) (by rw [Nat.sub_self, List.range_eq_range']) rs
    obtain ⟨r2, h7⟩ := h5' m (by omega) r1 s1
    refine ⟨r2, ?_⟩
    unfold parseDir
    rw [h4]
    simp only
    rw [h2]
    simp only [if_true, includeRules, Bool.false_eq_true, if_false]
    rw [h6]
    simp only
    rw [h7]
    rfl
  | nothing h1 h2 =>
    obtain ⟨rs, h4⟩ := open_none h1
    refine ⟨0, fun m _ => ?_⟩
    unfold parseDir
    rw [h4]
    simp only
    split
    · rename_i hdir
      split
      · rename_i hn
        split
        · exact ⟨_, rfl⟩
        · rename_i t ht
          exact absurd ⟨hdir, hn, t, ht⟩ h2
      · exact ⟨_, rfl⟩
    · exact ⟨_, rfl⟩
  | @ignore t h1 h2 h3 h3' =>
    obtain ⟨rs, h4⟩ := open_none h1
    refine ⟨0, fun m _ => ⟨rs ++ [["Tuprules.tup".toList]], ?_⟩⟩
    unfold parseDir
    rw [h4]
    simp only
    rw [if_pos h2, if_pos h3, h3']

/-- C69: the files mean one thing at most. -/
theorem c69_unique (hw : Proper w) (hd : IsDir w dir) {s1 s2 : σ} (h1 : Parses w sem ign dir s s1) (h2 : Parses w sem ign dir s s2) : s1 = s2 := by
  obtain ⟨n1, e1⟩ := c69_complete hw hd h1
  obtain ⟨n2, e2⟩ := c69_complete hw hd h2
  obtain ⟨r1, f1⟩ := e1 (max n1 n2) (by omega)
  obtain ⟨r2, f2⟩ := e2 (max n1 n2) (by omega)
  rw [f1] at f2
  cases f2
  rfl

/-- C69: as long as the nodes that the directory depends on stay as they are, the directory means the same.  At the top `Tuprules.tup` is one of them even if it is not written
down (a file that is made there schedules the directory in any case). -/
theorem c69_reads {w' : World} (hw : Proper w) (hw' : Proper w') {n : Nat} {reads : List Path} (h : parseDir w sem ign n dir s = some (reads, s'))
    (ha : Agree w w' reads) (ht : dir = [] → w.node ["Tuprules.tup".toList] = w'.node ["Tuprules.tup".toList]) : parseDir w' sem ign n dir s = some (reads, s') := by
  unfold parseDir at h ⊢
  rw [openTupfile_search] at h ⊢
  have hsub : ∀ p ∈ (search w (candidates dir)).1, p ∈ reads := by
    generalize hs : search w (candidates dir) = r at h
    obtain ⟨rs, r⟩ := r
    cases r with
    | none =>
      simp only at h ⊢
      split at h
      · split at h
        · split at h
          · cases h
            exact fun p hp => List.mem_append_left _ hp
          · cases h
            exact fun p hp => List.mem_append_left _ hp
        · cases h
          exact fun p hp => hp
      · cases h
        exact fun p hp => hp
    | some c =>
      obtain ⟨p, lua⟩ := c
      simp only at h ⊢
      split at h
      · cases h
      · split at h
        · split at h
          · cases h
          · rename_i st h1
            obtain ⟨st', h2, h3⟩ := Option.map_eq_some_iff.1 h
            cases h3
            exact fun p hp => exec_mono (includeFile_mono n) _ _ _ h2 (includeRules_mono (includeFile_mono n) h1 hp)
        · obtain ⟨st', h2, h3⟩ := Option.map_eq_some_iff.1 h
          cases h3
          exact fun p hp => exec_mono (includeFile_mono n) _ _ _ h2 hp
  rw [search_same fun p hp => ha.2 p (hsub p hp)]
  generalize hs : search w (candidates dir) = r at h hsub
  obtain ⟨rs, r⟩ := r
  cases r with
  | none =>
    simp only at h ⊢
    split at h
    · rename_i hdir
      rw [if_pos hdir, ← ht hdir]
      split at h
      · rename_i hn
        rw [if_pos hn]
        have hm : ["Tuprules.tup".toList] ∈ reads := by
          split at h <;> cases h <;> simp
        rw [← (ha.2 _ hm).2]
        exact h
      · rename_i hn
        rw [if_neg hn]
        exact h
    · rename_i hdir
      rw [if_neg hdir]
      exact h
  | some c =>
    obtain ⟨p, lua⟩ := c
    obtain ⟨_, _, _, _, _, e4⟩ := search_some hs
    have hp := ha.2 p (hsub p (by rw [e4]; simp))
    simp only at h ⊢
    rw [← hp.2]
    split at h
    · cases h
    · split at h
      · rename_i hl
        rw [if_pos hl]
        split at h
        · cases h
        · rename_i st h1
          obtain ⟨st', h2, h3⟩ := Option.map_eq_some_iff.1 h
          cases h3
          rw [includeRules_same (includeFile_mono n) (includeFile_same hw hw' n) h1 (agree_sub ha (exec_mono (includeFile_mono n) _ _ _ h2))]
          simp only
          rw [exec_same (includeFile_mono n) (includeFile_same hw hw' n) _ _ _ h2 ha]
          rfl
      · rename_i hl
        rw [if_neg hl]
        obtain ⟨st', h2, h3⟩ := Option.map_eq_some_iff.1 h
        cases h3
        rw [exec_same (includeFile_mono n) (includeFile_same hw hw' n) _ _ _ h2 ha]
        rfl

/-- C69: a file is parsed as Lua if its path ends with `.lua` and has that in no other place. -/
theorem c69_lua (file : Str) : isLua file = true ↔ (∃ a, file = a ++ ".lua".toList) ∧ ∀ a b, file = a ++ ".lua".toList ++ b → b = [] := by
  induction file with
  | nil =>
    constructor
    · intro h; cases h
    · rintro ⟨⟨a, h⟩, _⟩
      have := congrArg List.length h
      simp at this
  | cons c f ih =>
    simp only [isLua]
    split
    · rename_i hp
      obtain ⟨b, hb⟩ := List.isPrefixOf_iff_prefix.1 hp
      rw [decide_eq_true_iff]
      constructor
      · intro h
        refine ⟨⟨[], h⟩, fun a b h' => ?_⟩
        rw [h] at h'
        have := congrArg List.length h'
        simp only [List.length_append] at this
        exact List.length_eq_zero_iff.1 (by omega)
      · rintro ⟨_, h⟩
        have := h [] b hb.symm
        rw [this, List.append_nil] at hb
        exact hb.symm
    · rename_i hp
      have hnp : ∀ b, c :: f ≠ ".lua".toList ++ b := fun b hb => hp (List.isPrefixOf_iff_prefix.2 ⟨b, hb.symm⟩)
      rw [ih]
      constructor
      · rintro ⟨⟨a, ha⟩, h⟩
        refine ⟨⟨c :: a, by rw [ha]; rfl⟩, fun a b hab => ?_⟩
        cases a with
        | nil => exact absurd hab (by rw [List.nil_append]; exact hnp b)
        | cons x a =>
          have := (List.cons.inj hab).2
          exact h a b this
      · rintro ⟨⟨a, ha⟩, h⟩
        refine ⟨?_, fun a b hab => h (c :: a) b (by rw [hab]; rfl)⟩
        cases a with
        | nil => exact absurd ha (by rw [List.nil_append]; exact fun hx => hnp [] (by rw [List.append_nil]; exact hx))
        | cons x a => exact ⟨a, (List.cons.inj ha).2⟩

/-! Cases. -/

/-- The world in which there are just these files. -/
def files (l : List (Path × Str)) : World where
  top := "/p".toList
  node p := if l.any fun f => p.isPrefixOf f.1 then some true else none
  text p := l.lookup p

theorem lookup_mem {l : List (Path × Str)} {p : Path} {t : Str} (h : l.lookup p = some t) : ∃ f ∈ l, f.1 = p := by
  induction l with
  | nil => cases h
  | cons a l ih =>
    rw [List.lookup_cons] at h
    split at h
    · rename_i hx
      exact ⟨a, List.mem_cons_self, (by simpa using hx : p = a.1).symm⟩
    · obtain ⟨f, h1, h2⟩ := ih h
      exact ⟨f, List.mem_cons_of_mem _ h1, h2⟩

theorem files_proper {l : List (Path × Str)} (h1 : ∀ f ∈ l, ∀ n ∈ f.1, (n ≠ [] ∧ '/' ∉ n ∧ n ≠ ".".toList ∧ n ≠ "..".toList) ∧ n ∉ Pel.hiddenNames)
    (h2 : ∀ f ∈ l, ∀ g ∈ l, f.1 <+: g.1 → f.1 = g.1) : Proper (files l) := by
  have hk : ∀ p, (files l).node p ≠ none ↔ ∃ f ∈ l, p <+: f.1 := by
    intro p
    show (if l.any fun f => p.isPrefixOf f.1 then some true else none) ≠ none ↔ _
    rw [show (∃ f ∈ l, p <+: f.1) ↔ (l.any fun f => p.isPrefixOf f.1) = true by simp [List.any_eq_true, List.isPrefixOf_iff_prefix]]
    split <;> simp [*]
  refine ⟨?_, ?_, ?_⟩
  · intro p n h _
    obtain ⟨f, hf, hp⟩ := (hk _).1 h
    exact (hk _).2 ⟨f, hf, (List.prefix_append p [n]).trans hp⟩
  · intro p h n hn
    obtain ⟨f, hf, hp⟩ := (hk _).1 h
    exact h1 f hf n (hp.subset hn)
  · intro p q hq h
    obtain ⟨g, hg, hp⟩ := (hk _).1 h
    cases hx : (files l).text p with
    | none => rfl
    | some t =>
      exfalso
      obtain ⟨f, hf, rfl⟩ := lookup_mem (l := l) hx
      have := h2 f hf g hg ((List.prefix_append _ _).trans hp)
      rw [← this] at hp
      have := hp.length_le
      rw [List.length_append] at this
      have : 0 < q.length := List.length_pos_iff.2 hq
      omega

/-- `I…` includes a file, `R` the rules, and everything is written down with the directory in which it is read. -/
def sample : Meaning (List (Bool × String × Path)) := fun lua t d s =>
  match t with
  | 'I' :: f => .incl (s ++ [(lua, String.ofList t, d)]) f .ret
  | 'R' :: _ => .rules (s ++ [(lua, String.ofList t, d)]) fun s => .ret (s ++ [(lua, "end", d)])
  | 'X' :: _ => .fail
  | _ => .ret (s ++ [(lua, String.ofList t, d)])

/-- A project. -/
def project : World := files [(["Tuprules.tup".toList], "top".toList), (["Tupdefault.lua".toList], "default".toList), (["x".toList, "y".toList], "Iz".toList),
  (["x".toList, "z".toList], "found".toList), (["a".toList, "Tuprules.tup".toList], "I../x/y".toList), (["a".toList, "b".toList, "Tupfile".toList], "R".toList),
  (["a".toList, "Tuprules.lua".toList], "lua".toList), (["a".toList, "c".toList, "d".toList], "".toList), (["e".toList, "Tupfile".toList], "Ie".toList),
  (["e".toList, "e".toList], "Ie".toList)]

theorem project_proper : Proper project := files_proper (by decide) (by decide)

example : IsDir project ["a".toList, "b".toList] := by
  intro k
  match k with
  | 0 => decide
  | 1 => decide
  | k + 2 => simp only [List.take_succ_cons, List.take_nil]; decide

/-- The rules from the top to the directory, each in its directory, with what they include. -/
example : parseDir project sample (fun _ s => s) 3 ["a".toList, "b".toList] [] =
    some ([["a".toList, "b".toList, "Tupfile".toList], ["Tuprules.tup".toList], ["Tuprules.tup".toList], ["a".toList, "Tuprules.tup".toList], ["a".toList, "Tuprules.tup".toList],
      ["x".toList, "y".toList], ["x".toList, "z".toList], ["a".toList, "b".toList, "Tuprules.tup".toList]],
      [(false, "R", ["a".toList, "b".toList]), (false, "top", []), (false, "I../x/y", ["a".toList]), (false, "Iz", ["x".toList]), (false, "found", ["x".toList]),
        (false, "end", ["a".toList, "b".toList])]) := by decide +kernel

/-- The default file of a directory above is read in the directory itself, after the rules for Lua. -/
example : (parseDir project sample (fun _ s => s) 3 ["a".toList, "c".toList] []).map (·.2) = some [(true, "lua", ["a".toList]), (true, "default", ["a".toList, "c".toList])] := by decide +kernel

/-- A change that the directory does not depend on. -/
example : ∃ w', Proper w' ∧ w'.text ["e".toList, "f".toList] ≠ project.text ["e".toList, "f".toList] ∧
    Agree project w' [["a".toList, "c".toList, "Tupfile".toList], ["a".toList, "Tuprules.lua".toList], ["Tupdefault.lua".toList]] := by
  refine ⟨files [(["e".toList, "f".toList], []), (["a".toList, "Tuprules.lua".toList], "lua".toList), (["Tupdefault.lua".toList], "default".toList)], files_proper (by decide) (by decide), by decide, rfl, ?_⟩
  decide

/-- A file that includes itself is not parsed, however many files may be open; it ends because there are no more descriptors. -/
theorem c69_loop (n : Nat) : parseDir project sample (fun _ s => s) n ["e".toList] [] = none := by
  have h1 : ∀ n (st : St (List (Bool × String × Path))), st.cur = ["e".toList] → includeFile project sample n "e".toList st = none := by
    intro n
    induction n with
    | zero => intro st _; rfl
    | succ n ih =>
      intro st hst
      have hl : locate project ["e".toList] "e".toList = some (["e".toList], ["e".toList, "e".toList]) := by decide +kernel
      have ht : project.text ["e".toList, "e".toList] = some "Ie".toList := by decide
      simp only [includeFile]
      rw [hst, hl]
      simp only
      rw [ht]
      simp only
      have : exec project (includeFile project sample n) (sample (isLua "e".toList) "Ie".toList ["e".toList] st.user) { st with cur := ["e".toList], reads := st.reads ++ [["e".toList, "e".toList]] } = none := by
        rw [show "Ie".toList = 'I' :: "e".toList from rfl]
        simp only [sample, exec]
        rw [ih _ rfl]
      rw [this]
  have ho : openTupfile project ["e".toList] = ([["e".toList, "Tupfile".toList]], some (["e".toList, "Tupfile".toList], false)) := by decide
  have ht : project.text ["e".toList, "Tupfile".toList] = some "Ie".toList := by decide
  unfold parseDir
  rw [ho]
  simp only
  rw [ht]
  simp only [Bool.false_eq_true, if_false]
  have : exec project (includeFile project sample n) (sample false "Ie".toList ["e".toList] []) ⟨["e".toList], false, [["e".toList, "Tupfile".toList]], []⟩ = none := by
    rw [show "Ie".toList = 'I' :: "e".toList from rfl]
    simp only [sample, exec]
    rw [h1 n _ rfl]
  rw [this]
  rfl

/-- The rules cannot include the rules. -/
theorem c69_nested (n : Nat) : parseDir (files [(["Tupfile".toList], "R".toList), (["Tuprules.tup".toList], "R".toList)]) sample (fun _ s => s) n [] [] = none := by
  generalize hw : files [(["Tupfile".toList], "R".toList), (["Tuprules.tup".toList], "R".toList)] = w
  have ho : openTupfile w [] = ([["Tupfile".toList]], some (["Tupfile".toList], false)) := by subst hw; decide
  have ht : w.text ["Tupfile".toList] = some "R".toList := by subst hw; decide
  have ht' : w.text ["Tuprules.tup".toList] = some "R".toList := by subst hw; decide
  have hl : locate w [] (rulesPath 0 "Tuprules.tup".toList) = some ([], ["Tuprules.tup".toList]) := by subst hw; decide +kernel
  have h1 : ∀ st : St (List (Bool × String × Path)), st.cur = [] → st.inRules = true → includeFile w sample n (rulesPath 0 "Tuprules.tup".toList) st = none := by
    intro st h2 h3
    cases n with
    | zero => rfl
    | succ n =>
      simp only [includeFile]
      rw [h2, hl]
      simp only
      rw [ht']
      simp only
      rw [show "R".toList = 'R' :: [] from rfl]
      simp only [sample, exec, includeRules, h3, if_true]
  unfold parseDir
  rw [ho]
  simp only
  rw [ht]
  simp only [Bool.false_eq_true, if_false]
  rw [show "R".toList = 'R' :: [] from rfl]
  simp only [sample, exec, includeRules, Bool.false_eq_true, if_false, rulesLoop, List.length_nil, List.take_nil, List.nil_append]
  rw [ht']
  simp only [Option.isSome_some, if_true]
  rw [h1 _ rfl rfl]
  rfl

/-- A file in Lua in a directory whose name has `.lua` in it is parsed as a Tupfile. -/
theorem c69_lua_directory : isLua "x.lua.d/y.lua".toList = false ∧ isLua "x/y.lua".toList = true := by decide

/-- At the top, the look at a missing `Tuprules.tup` is not written down. -/
theorem c69_top : ∃ reads w' s', parseDir (files []) sample (fun t s => s ++ [(false, String.ofList t, [])]) 0 [] [] = some (reads, []) ∧ Proper w' ∧ Agree (files []) w' reads ∧
    parseDir w' sample (fun t s => s ++ [(false, String.ofList t, [])]) 0 [] [] = some (s', [(false, "g", [])]) := by
  refine ⟨_, files [(["Tuprules.tup".toList], "g".toList)], _, rfl, files_proper (by decide) (by decide), ⟨rfl, by decide⟩, rfl⟩

end Tup.Include
