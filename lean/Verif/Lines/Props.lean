import Verif.Lines.Lemmas

/-! C03: the logical lines of a Tupfile. -/

namespace Tup.Lines

theorem logicalLines_drop (s : Str) : logicalLines (s.drop (s.takeWhile isSpace).length) = logicalLines s := by
  induction s with
  | nil => rfl
  | cons c s ih =>
    by_cases hc : isSpace c
    · rw [List.takeWhile_cons, if_pos hc, logicalLines_space c s hc]
      exact ih
    · rw [List.takeWhile_cons, if_neg hc]; rfl

theorem endsBS_drop (s : Str) : endsBS (s.drop (s.takeWhile isSpace).length) = endsBS s := by
  induction s with
  | nil => rfl
  | cons c s ih =>
    by_cases hc : isSpace c
    · rw [List.takeWhile_cons, if_pos hc]
      rw [show (c :: s).drop (c :: s.takeWhile isSpace).length = s.drop (s.takeWhile isSpace).length from rfl, ih]
      have hb : c ≠ '\\' := by rintro rfl; exact absurd hc (by decide)
      unfold endsBS
      rw [List.reverse_cons]
      generalize s.reverse = r
      match r with
      | [] => simp [hb]
      | [d] =>
        by_cases hd : d = '\\'
        · subst hd; rfl
        · simp [hd, hb]
      | d :: e :: r =>
        by_cases hd : d = '\\'
        · subst hd; rfl
        · simp [hd]
    · rw [List.takeWhile_cons, if_neg hc]; rfl

theorem takeWhile_head (s : Str) (c r) (h : s.drop (s.takeWhile isSpace).length = c :: r) :
    isSpace c = false := by
  induction s with
  | nil => simp at h
  | cons d s ih =>
    by_cases hc : isSpace d
    · rw [List.takeWhile_cons, if_pos hc] at h; exact ih h
    · rw [List.takeWhile_cons, if_neg hc] at h
      simp at h
      rw [← h.1]; simpa using hc

theorem logical_start (T : List Tok) (t : Tok) (r) (h : T = t :: r) (ht : t.isSpace = false) :
    logical T = if (trimEnd (T.map Tok.char)).head? = some '#' then none else some (trimEnd (T.map Tok.char)) := by
  unfold logical
  rw [show T.dropWhile Tok.isSpace = T by rw [h, List.dropWhile_cons, if_neg (by simp [ht])]]
  subst h
  rfl

theorem toks_start (c : Char) (s : Str) (hc : isSpace c = false) :
    ∃ t r, toks (c :: s) = t :: r ∧ t.isSpace = false ∧ t ≠ .ch '\n' := by
  have hn : c ≠ '\n' := by rintro rfl; exact absurd hc (by decide)
  rw [toks.eq_def]
  split
  · next h => simp at h
  · exact ⟨_, _, rfl, rfl, by simp⟩
  · exact ⟨_, _, rfl, rfl, by simp⟩
  · next h =>
    injection h with h1 h2
    subst h1
    exact ⟨_, _, rfl, hc, by simpa using hn⟩

/-- The loop, from anywhere in the buffer. -/
theorem loop_eq (n : Nat) : ∀ (before s : Str), s.length < n → '\x00' ∉ s →
    (before = [] → ¬ OneCharFirst s) →
    loop n before (s ++ ['\x00']) = if endsBS s then .ub else .ok (logicalLines s) := by
  induction n with
  | zero => intro _ s h; omega
  | succ n ih =>
    intro before s hl h0 h1
    rw [loop]
    by_cases hs : s = []
    · subst hs
      rfl
    · have hpos : 0 < s.length := List.length_pos_iff.2 hs
      rw [if_neg (by simp only [List.length_append, List.length_cons, List.length_nil]; omega)]
      simp only [List.dropLast_concat]
      have hdrop : (s ++ ['\x00']).drop (s.takeWhile isSpace).length =
          s.drop (s.takeWhile isSpace).length ++ ['\x00'] := by
        rw [List.drop_append_of_le_length]
        exact List.IsPrefix.length_le (List.takeWhile_prefix _)
      rw [hdrop]
      rw [← logicalLines_drop s, ← endsBS_drop s]
      cases hd : s.drop (s.takeWhile isSpace).length with
      | nil => rfl
      | cons c u =>
        have hc : isSpace c = false := takeWhile_head s c u hd
        have hmem : ∀ x ∈ c :: u, x ∈ s := fun x hx => by
          rw [← hd] at hx; exact List.mem_of_mem_drop hx
        have hlen : (c :: u).length ≤ s.length := by rw [← hd]; simp
        have hu0 : '\x00' ∉ c :: u := fun h => h0 (hmem _ h)
        have hcond : c = '\\' ∨ before ++ s.takeWhile isSpace ≠ [] ∨ ∃ d b'', u = d :: b'' ∧ d ≠ '\n' := by
          by_cases hbs : c = '\\'
          · exact .inl hbs
          · by_cases hbe : before ++ s.takeWhile isSpace = []
            · obtain ⟨hb1, hb2⟩ := List.append_eq_nil_iff.1 hbe
              rw [hb2] at hd
              have hd : s = c :: u := hd
              right; right
              cases u with
              | nil => exact absurd ⟨c, [], hd, hc, hbs, .inl rfl⟩ (h1 hb1)
              | cons d v =>
                refine ⟨d, v, rfl, ?_⟩
                rintro rfl
                exact h1 hb1 ⟨c, _, hd, hc, hbs, .inr ⟨v, rfl⟩⟩
            · exact .inr (.inl hbe)
        rw [if_neg (by simp)]
        cases hg : getNewline (c :: u ++ ['\x00']) with
        | none =>
          exfalso
          rcases firstNL (c :: u) with h | ⟨b2, a2, he, hb2⟩
          · rw [getNewline_line _ [] _ (.inr rfl) h hu0] at hg
            cases hg
          · rw [he, show b2 ++ '\n' :: a2 ++ ['\x00'] = b2 ++ '\n' :: (a2 ++ ['\x00']) by simp,
              getNewline_line _ _ _ (.inl rfl) hb2 (fun h => hu0 (he ▸ List.mem_append_left _ h))] at hg
            cases hg
        | some r =>
          obtain ⟨body, term, after⟩ := r
          have hE := extend_ends (before ++ s.takeWhile isSpace) (c :: u).length (c :: u) [] (by omega) hu0
            (by simp) (by simp) (.inr ⟨rfl, c, u, rfl, hc, hcond⟩) body term after (after.length + 2) hg (by omega)
          obtain ⟨t, tr, hts, htsp, htn⟩ := toks_start c u hc
          dsimp only
          rcases hE with ⟨he, hn⟩ | ⟨T, s', ht, hT, he, hl', hm, hr⟩ | ⟨T, ht, hT, he, hr⟩
          · rw [hn, he]; rfl
          · rw [hr]
            dsimp only [List.nil_append]
            rw [ih]
            · rw [he]
              cases hbs : endsBS (c :: u) with
              | true => rfl
              | false =>
                have hll : logicalLines (c :: u) = (logical T).toList ++ logicalLines s' := by
                  unfold logicalLines
                  rw [ht, cut_NL _ _ hT, List.filterMap_cons]
                  cases logical T <;> rfl
                rw [hll]
                obtain ⟨r', hT'⟩ : ∃ r', T = t :: r' := by
                  rw [hts] at ht
                  cases T with
                  | nil => injection ht with ht _; exact absurd ht htn
                  | cons t' T => injection ht with ht _; exact ⟨T, by rw [ht]⟩
                rw [logical_start T t r' hT' htsp]
                simp only [Bool.false_eq_true, if_false]
                split <;> rfl
            · omega
            · exact fun h => hu0 (hm _ h)
            · intro h
              simp at h
          · rw [hr]
            dsimp only [List.nil_append]
            have hll : logicalLines (c :: u) = (logical T).toList := by
              unfold logicalLines
              rw [ht, cut_noNL _ hT, List.filterMap_cons]
              cases logical T <;> rfl
            rw [he, hll]
            have hT' : T = t :: tr := by rw [← ht, hts]
            rw [logical_start T t tr hT' htsp]
            rw [show loop n (before ++ s.takeWhile isSpace ++
              (T.map Tok.char ++ ['\x00']).set (trimEnd (T.map Tok.char)).length '\x00') [] = .ok [] by
                cases n <;> rfl]
            simp only [Bool.false_eq_true, if_false]
            split <;> rfl

theorem dropBom_mem {s : Str} {c : Char} (h : c ∈ dropBom s) : c ∈ s := by
  unfold dropBom at h
  split at h
  · simp [h]
  · exact h

theorem readLines_oneChar (s : Str) (h : OneCharFirst s) :
    loop (s.length + 1) [] (s ++ ['\x00']) = .ub := by
  obtain ⟨c, r, rfl, hc, hb, hr⟩ := h
  have hc' : ¬ isSpace c = true := by simp [hc]
  rw [loop, if_neg (by simp)]
  have : (c :: r ++ ['\x00']).dropLast.takeWhile isSpace = [] := by
    rw [List.dropLast_concat, List.takeWhile_cons, if_neg hc']
  simp only [this, List.length_nil, List.drop_zero]
  rw [if_neg (by simp)]
  by_cases hz : c = '\x00'
  · subst hz
    rw [show ('\x00' :: r ++ ['\x00']) = '\x00' :: (r ++ ['\x00']) from rfl, getNewline, if_pos (.inr rfl)]
    rfl
  · have hn : c ≠ '\n' := by rintro rfl; exact absurd hc (by decide)
    have hcont : continued ([] ++ []) [c] = none := by
      simp only [continued, List.nil_append, List.reverse_cons, List.reverse_nil]
    rcases hr with rfl | ⟨r', rfl⟩
    · rw [show [c] ++ ['\x00'] = [c] ++ '\x00' :: [] from rfl,
        getNewline_line [c] [] _ (.inr rfl) (by simpa using Ne.symm hn) (by simpa using Ne.symm hz)]
      dsimp only
      rw [extend, hcont]
    · rw [show c :: '\n' :: r' ++ ['\x00'] = [c] ++ '\n' :: (r' ++ ['\x00']) from rfl,
        getNewline_line [c] _ _ (.inl rfl) (by simpa using Ne.symm hn) (by simpa using Ne.symm hz)]
      dsimp only
      rw [extend, hcont]

theorem not_oneChar {s : Str} (h : s[1]? ≠ none ∧ s[1]? ≠ some '\n') : ¬ OneCharFirst s := by
  rintro ⟨c, r, rfl, _, _, rfl | ⟨r', rfl⟩⟩
  · exact h.1 rfl
  · exact h.2 rfl

theorem isText_iff {content s : Str} : IsText content s ↔ s = dropBom content := by
  unfold IsText dropBom
  split
  · next r =>
    constructor
    · rintro (h | ⟨_, h⟩)
      · simp only [List.cons.injEq] at h; exact h.2.2.2.symm
      · exact absurd rfl (h r)
    · rintro rfl; left; rfl
  · next hn =>
    constructor
    · rintro (h | ⟨h, _⟩)
      · exact absurd h (hn s)
      · exact h
    · rintro rfl; right; exact ⟨rfl, fun r h => hn r h⟩

/-- **C03.**  Reading a Tupfile without NUL bytes gives exactly its logical lines, unless the file ends in
the middle of a line continuation or its first line is a single character. -/
theorem c03_reads_logical_lines (content text : Str) (h0 : '\x00' ∉ content) (ht : IsText content text)
    (h1 : ¬ EndsInBackslash text) (h2 : ¬ OneCharFirst text) :
    readLines content = .ok (logicalLines text) := by
  rw [isText_iff] at ht
  subst ht
  unfold readLines
  dsimp only
  rw [loop_eq _ [] (dropBom content) (by omega) (fun h => h0 (dropBom_mem h)) (fun _ => h2)]
  rw [if_neg]
  intro h
  exact h1 ((endsBS_iff _).1 h)

/-- **C03, the exceptions.**  In exactly the two cases excluded above, the reader leaves its buffer: a
backslash at the end of the file overwrites the terminating NUL byte and the next search runs off the buffer;
a first line of one character makes the reader look at the byte in front of the buffer. -/
theorem c03_leaves_the_buffer_iff (content text : Str) (h0 : '\x00' ∉ content) (ht : IsText content text) :
    readLines content = .ub ↔ EndsInBackslash text ∨ OneCharFirst text := by
  rw [isText_iff] at ht
  subst ht
  by_cases h2 : OneCharFirst (dropBom content)
  · exact ⟨fun _ => .inr h2, fun _ => readLines_oneChar _ h2⟩
  · have : readLines content =
        if endsBS (dropBom content) then .ub else .ok (logicalLines (dropBom content)) :=
      loop_eq _ [] (dropBom content) (by omega) (fun h => h0 (dropBom_mem h)) (fun _ => h2)
    rw [this, ← endsBS_iff]
    cases endsBS (dropBom content) with
    | true => simp
    | false => simp [h2]

/-- A file with a byte-order mark, continuations, comments (one of them continued), blank lines and a line
that starts with a continuation. -/
def exFile : Str :=
  "\xef\xbb\xbf: a.c |> cc \\\n  -c |> a.o  \n# note \\\n more\n\n\t\r\nX = 1 \\\r\n2\n  \\\n q\n".toList

example : '\x00' ∉ exFile ∧ endsBS (dropBom exFile) = false := by decide

example : readLines exFile = .ok (logicalLines (dropBom exFile)) :=
  c03_reads_logical_lines exFile _ (by decide) (isText_iff.2 rfl)
    (fun h => absurd ((endsBS_iff _).2 h) (by decide))
    (not_oneChar (by decide))

example : logicalLines (dropBom exFile) =
    [": a.c |> cc     -c |> a.o".toList, "X = 1    2".toList, "   q".toList] := by decide

example : readLines "a\\".toList = .ub := by decide
example : readLines "x\n: |> echo |>\n".toList = .ub := by decide

end Tup.Lines
