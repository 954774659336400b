import Verif.PathList.Lemmas

/-! C04: path lists. -/

namespace Tup.PathList

/-- **C04.**  A text made of words (plain, escaped or quoted) with white space between them is read as exactly
these words, in order and numbered from 1, whatever the words are, as long as each fits its buffer and stands
for an acceptable path, group, bin or exclusion. -/
theorem c04_reads_what_is_written {bins reOk} {s : Str} {ws : List Str} (h : Written s ws)
    (kind : Str → Kind) (hk : ∀ w ∈ ws, newPl bins reOk w = some (kind w)) (hl : ∀ w ∈ ws, w.length < pathMax) :
    getPathList bins reOk s = .ok (numbered kind 1 ws) :=
  pathList_written h kind hk hl _ _ (by omega)

theorem numbered_mem (kind : Str → Kind) (ws : List Str) : ∀ n, (numbered kind n ws).map Pl.mem = ws := by
  induction ws with
  | nil => intro _; rfl
  | cons w ws ih => intro n; simp [numbered, ih]

/-- **C04, round trip.**  File names (that do not look like a bin, an exclusion or a group), each written
between double quotes and separated by any white space, are read back exactly. -/
theorem c04_round_trip {bins reOk} (l : List (Str × Str)) (hsep : ∀ x ∈ l, Sep x.2)
    (hp : ∀ x ∈ l, (∀ r, x.1 ≠ '{' :: r) ∧ (∀ r, x.1 ≠ '^' :: r) ∧ '<' ∉ x.1 ∧ x.1.length < pathMax) :
    ∃ pls, getPathList bins reOk (quoteList l) = .ok pls ∧ pls.map Pl.mem = l.map Prod.fst ∧
      ∀ pl ∈ pls, pl.kind = .file := by
  refine ⟨_, c04_reads_what_is_written (quoteList_written l hsep) (fun _ => .file) ?_ ?_, numbered_mem _ _ _, ?_⟩
  · intro w hw
    obtain ⟨x, hx, rfl⟩ := List.mem_map.1 hw
    obtain ⟨h1, h2, h3, _⟩ := hp x hx
    unfold newPl
    split
    · next r h => exact absurd h (h1 r)
    · next r h => exact absurd h (h2 r)
    · rw [if_neg h3]
  · intro w hw
    obtain ⟨x, hx, rfl⟩ := List.mem_map.1 hw
    exact (hp x hx).2.2.2
  · generalize l.map Prod.fst = ws
    suffices h : ∀ n, ∀ pl ∈ numbered (fun _ => .file) n ws, pl.kind = .file from h 1
    induction ws with
    | nil => intro n pl h; simp [numbered] at h
    | cons w ws ih =>
      intro n pl h
      rw [numbered, List.mem_cons] at h
      rcases h with rfl | h
      · rfl
      · exact ih _ pl h

theorem pathList_open {bins reOk} : ∀ (fuel n : Nat) (s : Str) (l : List Pl), s.length < fuel →
    quoteOpen false false s = true → pathList bins reOk fuel n s ≠ .ok l := by
  intro fuel
  induction fuel with
  | zero => intro n s l h; omega
  | succ fuel ih =>
    intro n s l hf ho h
    rw [pathList] at h
    by_cases hs : s = []
    · subst hs; cases ho
    · rw [if_neg hs] at h
      split at h
      · cases h
      · cases h
      · next d r hn =>
        obtain ⟨h1, h2⟩ := (nextPath_open s false false []).2 d r hn
        split at h
        · cases h
        · split at h
          · next l' hl' =>
            refine ih (n + 1) (r.dropWhile isSpace) l' ?_ (by rw [quoteOpen_spaces, ← h1, ho]) hl'
            -- the rest is shorter, or the string starts with white space
            have hdw : (r.dropWhile isSpace).length ≤ r.length := (List.dropWhile_suffix _).length_le
            by_cases hlt : r.length < s.length
            · omega
            · -- nothing was consumed: the first byte is white space, which is skipped
              obtain ⟨t, v, hs', _, _, _, hr⟩ := (nextPath_denotes s [] d r).1 hn
              rcases hr with rfl | ⟨c, r', rfl, hc⟩
              · have : s.length ≠ 0 := by simpa using hs
                exact absurd (Nat.pos_of_ne_zero this) hlt
              · rw [List.dropWhile_cons, if_pos hc] at hdw ⊢
                have : (r'.dropWhile isSpace).length ≤ r'.length := (List.dropWhile_suffix _).length_le
                rw [List.length_cons] at h2
                omega
          · next e => rw [h] at e; exact e l rfl

theorem nextPath_ub (s : Str) : ∀ (esc q : Bool) (d : Str), (d ++ s).length < pathMax →
    nextPath esc q d s ≠ .ub := by
  induction s with
  | nil =>
    intro esc q d hl
    rw [nextPath]
    split
    · simp
    · rw [if_pos (by simpa using hl)]; simp
  | cons c s ih =>
    intro esc q d hl
    have hl0 : d.length < pathMax := by simp at hl; omega
    have hl1 : (d ++ [c] ++ s).length < pathMax := by simp at hl ⊢; omega
    have hl2 : (d ++ s).length < pathMax := by simp at hl ⊢; omega
    rw [nextPath]
    simp only [if_pos hl0]
    split
    · exact ih _ _ _ hl1
    split
    · exact ih _ _ _ hl2
    split
    · exact ih _ _ _ hl2
    split
    · simp
    · exact ih _ _ _ hl1

theorem pathList_ub {bins reOk} : ∀ (fuel n : Nat) (s : Str), s.length < pathMax →
    pathList bins reOk fuel n s ≠ .ub := by
  intro fuel
  induction fuel with
  | zero => intro n s _; simp [pathList]
  | succ fuel ih =>
    intro n s hl
    rw [pathList]
    split
    · simp
    split
    · next h => exact absurd h (nextPath_ub s _ _ _ (by simpa using hl))
    · simp
    · next d r hn =>
      have hr := ((nextPath_open s false false []).2 d r hn).2
      have hdw : (r.dropWhile isSpace).length ≤ r.length := (List.dropWhile_suffix _).length_le
      split
      · simp
      · split
        · simp
        · exact ih _ _ (by omega)

/-- **C04, unterminated quotes.**  A list with an open quote at its end is not accepted; if it is shorter than
the buffer it is rejected with an error. -/
theorem c04_open_quote_rejected {bins reOk} (s : Str) (h : quoteOpen false false s = true) :
    (∀ l, getPathList bins reOk s ≠ .ok l) ∧ (s.length < pathMax → getPathList bins reOk s = .err) := by
  have hno : ∀ l, getPathList bins reOk s ≠ .ok l := fun l => pathList_open _ _ _ _ (by omega) h
  refine ⟨hno, fun hl => ?_⟩
  cases hr : getPathList bins reOk s with
  | ok l => exact absurd hr (hno l)
  | err => rfl
  | ub => exact absurd hr (pathList_ub _ _ _ hl)

/-- **C04, nothing else is accepted.**  Whatever is accepted was written as words with white space between
them, and the result is exactly these words. -/
theorem c04_accepts_only_words {bins reOk} (s : Str) (l : List Pl) (h : getPathList bins reOk s = .ok l)
    (h1 : ∀ c r, s = c :: r → isSpace c = false) (h2 : ∀ a, s ≠ a ++ ['\\']) :
    Written s (l.map Pl.mem) := by
  unfold getPathList at h
  suffices H : ∀ (fuel n : Nat) (s : Str) (l : List Pl), s.length < fuel → pathList bins reOk fuel n s = .ok l →
      (∀ c r, s = c :: r → isSpace c = false) → (∀ a, s ≠ a ++ ['\\']) → Written s (l.map Pl.mem) from
    H _ _ _ _ (by omega) h h1 h2
  clear h h1 h2 s l
  intro fuel
  induction fuel with
  | zero => intro n s l h; omega
  | succ fuel ih =>
    intro n s l hf h h1 h2
    rw [pathList] at h
    by_cases hs : s = []
    · subst hs
      rw [if_pos rfl] at h
      simp only [Res.ok.injEq] at h
      rw [← h]; exact .nil
    · rw [if_neg hs] at h
      split at h
      · cases h
      · cases h
      · next d r hn =>
        obtain ⟨t, v, hs', hd, hden, _, hr⟩ := (nextPath_denotes s [] d r).1 hn
        rw [List.nil_append] at hd
        subst hd
        have hs' : s = t ++ r := by
          rcases hs' with hs' | ⟨_, hs'⟩
          · exact hs'
          · exact absurd hs' (h2 t)
        have ht : t ≠ [] := by
          rintro rfl
          rw [List.nil_append] at hs'
          rcases hr with hr | ⟨c, r', hr, hc⟩
          · exact hs (hs'.trans hr)
          · have := h1 c r' (hs'.trans hr)
            rw [this] at hc; cases hc
        split at h
        · cases h
        · split at h
          · next l' hl' =>
            simp only [Res.ok.injEq] at h
            rw [← h, List.map_cons]
            rcases hr with rfl | ⟨c, r', rfl, hc⟩
            · rw [List.append_nil] at hs'
              rw [List.dropWhile_nil] at hl'
              have : l' = [] := by
                cases fuel with
                | zero => simpa [pathList] using hl'.symm
                | succ _ => simpa [pathList] using hl'.symm
              rw [this, hs']
              exact .last ht hden
            · have hdw : ((c :: r').dropWhile isSpace).length ≤ (c :: r').length :=
                (List.dropWhile_suffix _).length_le
              have hsplit : (c :: r').takeWhile isSpace ++ (c :: r').dropWhile isSpace = c :: r' :=
                List.takeWhile_append_dropWhile
              have hst : ∀ c' r'', (c :: r').dropWhile isSpace = c' :: r'' → isSpace c' = false := by
                intro c' r'' he
                have := List.head?_dropWhile_not isSpace (c :: r')
                rw [he] at this
                simpa using this
              have := ih (n + 1) _ l' (by
                  have : t.length ≠ 0 := by simpa using ht
                  have : s.length = t.length + (c :: r').length := by rw [hs']; simp
                  omega) hl' hst (by
                  intro a ha
                  refine h2 (t ++ ((c :: r').takeWhile isSpace ++ a)) ?_
                  rw [List.append_assoc, List.append_assoc, ← ha, hsplit]; exact hs')
              rw [hs', ← hsplit, ← List.append_assoc]
              refine .more ht hden ⟨?_, ?_⟩ hst this
              · rw [List.takeWhile_cons, if_pos hc]; simp
              · exact List.all_eq_true.1 List.all_takeWhile
          · next e => rw [h] at e; exact absurd rfl (e l)

theorem takeWhile_mem {r : Str} (h : '}' ∈ r) : ∃ rest, r = r.takeWhile (· ≠ '}') ++ '}' :: rest := by
  induction r with
  | nil => cases h
  | cons c r ih =>
    by_cases hc : c = '}'
    · subst hc; exact ⟨r, by simp⟩
    · obtain ⟨rest, e⟩ := ih (by simpa [Ne.symm hc] using h)
      refine ⟨rest, ?_⟩
      rw [List.takeWhile_cons, if_pos (by simpa using hc), List.cons_append, ← e]

/-- **C04, kinds.**  A word is taken for a file, a group, a bin or an exclusion exactly if it stands for one. -/
theorem c04_kinds {bins reOk} (w : Str) (k : Kind) : newPl bins reOk w = some k ↔ Means bins reOk w k := by
  constructor
  · intro h
    unfold newPl at h
    split at h
    · next r =>
      split at h
      · cases h
      · next bl =>
        split at h
        · next hm =>
          obtain ⟨rest, e⟩ := takeWhile_mem hm
          dsimp only at h
          split at h
          · next hb =>
            cases h
            have hn : '}' ∉ r.takeWhile (· ≠ '}') := fun hx => by
              have := (List.all_eq_true.1 (List.all_takeWhile (l := r) (p := fun x => decide (x ≠ '}')))) _ hx
              simp at this
            have := Means.bin (bins := some bl) (reOk := reOk) (rest := rest) rfl hn hb
            rwa [List.cons_append, ← e] at this
          · cases h
        · cases h
    · next r =>
      split at h
      · next hr => cases h; exact .excl hr
      · cases h
    · next hn1 hn2 =>
      have h1 : w.head? ≠ some '{' := by
        intro hx
        cases w with
        | nil => cases hx
        | cons c r => simp at hx; subst hx; exact hn1 r rfl
      have h2 : w.head? ≠ some '^' := by
        intro hx
        cases w with
        | nil => cases hx
        | cons c r => simp at hx; subst hx; exact hn2 r rfl
      split at h
      · next h3 =>
        split at h
        · next h4 => cases h; exact .group h1 h2 h3 h4
        · cases h
      · next h3 => cases h; exact .file h1 h2 h3
  · intro h
    cases h with
    | bin h1 h2 h3 =>
      next bl name rest =>
      subst h1
      have ht : (name ++ '}' :: rest).takeWhile (fun x => decide (x ≠ '}')) = name := by
        clear h3
        induction name with
        | nil => simp
        | cons c n ih =>
          simp only [List.mem_cons, not_or] at h2
          rw [List.cons_append, List.takeWhile_cons, if_pos (by simpa using Ne.symm h2.1), ih h2.2]
      have e : newPl (some bl) reOk ('{' :: name ++ '}' :: rest) =
          (if '}' ∈ name ++ '}' :: rest then
            (if bl ((name ++ '}' :: rest).takeWhile fun x => decide (x ≠ '}')) then
              some (.bin ((name ++ '}' :: rest).takeWhile fun x => decide (x ≠ '}'))) else none) else none) := rfl
      rw [e, ht, if_pos (by simp), if_pos h3]
    | excl h1 => simp [newPl, h1]
    | group h1 h2 h3 h4 =>
      unfold newPl
      split
      · simp at h1
      · simp at h2
      · rw [if_pos h3, if_pos h4]
    | file h1 h2 h3 =>
      unfold newPl
      split
      · simp at h1
      · simp at h2
      · rw [if_neg h3]

/-- **C04, every word has to stand for something.**  In an accepted list each word stands for the kind of its
entry, and the entries are numbered from 1. -/
theorem c04_accepts_only_kinds {bins reOk} (s : Str) (l : List Pl) (h : getPathList bins reOk s = .ok l) :
    (∀ pl ∈ l, Means bins reOk pl.mem pl.kind) ∧ l.map Pl.orderid = List.range' 1 l.length := by
  unfold getPathList at h
  suffices H : ∀ (fuel n : Nat) (s : Str) (l : List Pl), pathList bins reOk fuel n s = .ok l →
      (∀ pl ∈ l, Means bins reOk pl.mem pl.kind) ∧ l.map Pl.orderid = List.range' n l.length from H _ _ _ _ h
  clear h s l
  intro fuel
  induction fuel with
  | zero => intro n s l h; cases h; exact ⟨fun _ h => (by cases h), rfl⟩
  | succ fuel ih =>
    intro n s l h
    rw [pathList] at h
    split at h
    · cases h; exact ⟨fun _ h => (by cases h), rfl⟩
    · split at h
      · cases h
      · cases h
      · split at h
        · cases h
        · next k hk =>
          split at h
          · next l' hl' =>
            cases h
            obtain ⟨i1, i2⟩ := ih _ _ _ hl'
            refine ⟨fun pl hp => ?_, ?_⟩
            · rcases List.mem_cons.1 hp with rfl | hp
              · exact (c04_kinds _ _).1 hk
              · exact i1 pl hp
            · rw [List.map_cons, i2, List.length_cons, List.range'_succ]
          · next e => rw [h] at e; exact absurd rfl (e l)

/-- **C04, the buffer.**  A word that does not fit the `PATH_MAX` bytes of the buffer is written behind its
end. -/
theorem c04_long_word_leaves_the_buffer {bins reOk} (n : Nat) (h : pathMax ≤ n) :
    getPathList bins reOk (List.replicate n 'a') = .ub := by
  have step : ∀ (k : Nat) (d : Str), pathMax ≤ d.length + k →
      nextPath false false d (List.replicate k 'a') = .ub := by
    intro k
    induction k with
    | zero =>
      intro d hd
      rw [List.replicate_zero, nextPath, if_neg (by simp), if_neg (by omega)]
    | succ k ih =>
      intro d hd
      rw [List.replicate_succ, nextPath, if_neg (by simp), if_neg (by decide), if_neg (by decide),
        if_neg (by decide)]
      split
      · exact ih _ (by simp; omega)
      · rfl
  unfold getPathList
  rw [pathList, if_neg, step n [] (by simpa using h)]
  intro hc
  have := congrArg List.length hc
  simp only [List.length_replicate, List.length_nil] at this
  rw [this] at h
  exact absurd h (by decide)

/-- Three paths, with spaces, quotes and backslashes in them, and odd separators. -/
def exPaths : List (Str × Str) :=
  [("my file.c".toList, " ".toList), ("a\"b\\c".toList, "\t  ".toList), ("..\\ d".toList, "\n".toList)]

example : (∀ x ∈ exPaths, Sep x.2) ∧ ∀ x ∈ exPaths, '<' ∉ x.1 ∧ x.1.length < pathMax := by
  simp [exPaths, Sep, pathMax]; decide

example : quoteList exPaths = "\"my file.c\" \"a\\\"b\\\\c\"\t  \"..\\\\ d\"".toList := by decide

example : getPathList none (fun _ => true) (quoteList exPaths) =
    .ok [⟨"my file.c".toList, .file, 1⟩, ⟨"a\"b\\c".toList, .file, 2⟩, ⟨"..\\ d".toList, .file, 3⟩] := by decide

example : getPathList (some fun n => n = "objs".toList) (fun _ => true) "foo\\ bar {objs} ../<g> ^\\\\.o$".toList =
    .ok [⟨"foo bar".toList, .file, 1⟩, ⟨"{objs}".toList, .bin "objs".toList, 2⟩, ⟨"../<g>".toList, .group, 3⟩,
      ⟨"^\\.o$".toList, .excl "\\.o$".toList, 4⟩] := by decide

/-- A bin that does not exist, an open bin, an open group, a bad regular expression: all rejected. -/
example : getPathList (some fun n => n = "objs".toList) (fun r => r ≠ "(".toList) "a {x}".toList = .err ∧
    getPathList (some fun n => n = "objs".toList) (fun r => r ≠ "(".toList) "a {objs".toList = .err ∧
    getPathList (some fun n => n = "objs".toList) (fun r => r ≠ "(".toList) "a <g".toList = .err ∧
    getPathList (some fun n => n = "objs".toList) (fun r => r ≠ "(".toList) "a ^(".toList = .err := by decide

example : quoteOpen false false "a \"b c".toList = true ∧
    getPathList none (fun _ => true) "a \"b c".toList = .err := by decide

end Tup.PathList
