import Verif.PathList.Spec

namespace Tup.PathList

theorem nextPath_quotes {q v : Str} (h : InQuotes q v) : ∀ (d t : Str), (d ++ v).length ≤ pathMax →
    nextPath false true d (q ++ t) = nextPath false true (d ++ v) t := by
  induction h with
  | nil => intro d t _; simp
  | @plain c t w h1 h2 _ ih =>
    intro d t' hl
    have hl' : d.length < pathMax := by simp at hl; omega
    rw [List.cons_append, nextPath, if_neg (by simp), if_neg h1, if_neg h2, if_neg (by simp), if_pos hl',
      ih _ _ (by simpa using hl)]
    simp
  | @esc c t w _ ih =>
    intro d t' hl
    have hl' : d.length < pathMax := by simp at hl; omega
    rw [List.cons_append, List.cons_append, nextPath, if_neg (by simp), if_pos rfl, nextPath, if_pos rfl,
      if_pos hl', ih _ _ (by simpa using hl)]
    simp

theorem nextPath_word {t w : Str} (h : Denotes t w) : ∀ (d r : Str), (d ++ w).length < pathMax →
    (r = [] ∨ ∃ c r', r = c :: r' ∧ isSpace c = true) →
    nextPath false false d (t ++ r) = .ok (d ++ w, r) := by
  induction h with
  | nil =>
    intro d r hl hr
    have hl' : d.length < pathMax := by simpa using hl
    rcases hr with rfl | ⟨c, r', rfl, hc⟩
    · rw [List.nil_append, nextPath, if_neg (by simp), if_pos hl', List.append_nil]
    · have h1 : c ≠ '\\' := by rintro rfl; exact absurd hc (by decide)
      have h2 : c ≠ '"' := by rintro rfl; exact absurd hc (by decide)
      rw [List.nil_append, nextPath, if_neg (by simp), if_neg h1, if_neg h2, if_pos (by simp [hc]), if_pos hl',
        List.append_nil]
  | @plain c t w h1 h2 h3 _ ih =>
    intro d r hl hr
    have hl' : d.length < pathMax := by simp at hl; omega
    rw [List.cons_append, nextPath, if_neg (by simp), if_neg h1, if_neg h2, if_neg (by simp [h3]), if_pos hl',
      ih _ _ (by simpa using hl) hr]
    simp
  | @esc c t w _ ih =>
    intro d r hl hr
    have hl' : d.length < pathMax := by simp at hl; omega
    rw [List.cons_append, List.cons_append, nextPath, if_neg (by simp), if_pos rfl, nextPath, if_pos rfl,
      if_pos hl', ih _ _ (by simpa using hl) hr]
    simp
  | @quoted q v t w hq _ ih =>
    intro d r hl hr
    have hl' : (d ++ v).length ≤ pathMax := by simp at hl ⊢; omega
    rw [show '"' :: q ++ '"' :: t ++ r = '"' :: (q ++ '"' :: (t ++ r)) by simp, nextPath, if_neg (by simp),
      if_neg (by decide), if_pos rfl]
    rw [Bool.not_false, nextPath_quotes hq d _ hl', nextPath, if_neg (by simp),
      if_neg (by decide), if_pos rfl, Bool.not_true, ih _ _ (by simpa using hl) hr]
    simp

theorem Denotes.not_space {t w : Str} (h : Denotes t w) : ∀ c r, t = c :: r → isSpace c = false := by
  cases h with
  | nil => intro c r h; cases h
  | plain h1 h2 h3 _ => intro c r h; injection h with h _; exact h ▸ h3
  | esc _ => intro c r h; injection h with h _; subst h; decide
  | quoted _ _ => intro c r h; injection h with h _; subst h; decide

theorem dropWhile_sep {sep s : Str} (h : Sep sep) (hs : ∀ c r, s = c :: r → isSpace c = false) :
    (sep ++ s).dropWhile isSpace = s := by
  have hd : s.dropWhile isSpace = s := by
    cases s with
    | nil => rfl
    | cons c r => rw [List.dropWhile_cons, if_neg (by simp [hs c r rfl])]
  have := h.2
  clear h
  induction sep with
  | nil => exact hd
  | cons c sep ih =>
    rw [List.cons_append, List.dropWhile_cons, if_pos (this c List.mem_cons_self)]
    exact ih fun c hc => this c (List.mem_cons_of_mem _ hc)

/-- Numbers a list of words. -/
def numbered (kind : Str → Kind) : Nat → List Str → List Pl
  | _, [] => []
  | n, w :: ws => ⟨w, kind w, n⟩ :: numbered kind (n + 1) ws

theorem pathList_written {bins reOk} {s : Str} {ws : List Str} (h : Written s ws) (kind : Str → Kind)
    (hk : ∀ w ∈ ws, newPl bins reOk w = some (kind w)) (hl : ∀ w ∈ ws, w.length < pathMax) :
    ∀ fuel n, s.length < fuel → pathList bins reOk fuel n s = .ok (numbered kind n ws) := by
  induction h with
  | nil => intro fuel n hf; obtain ⟨k, rfl⟩ : ∃ k, fuel = k + 1 := ⟨fuel - 1, by omega⟩; rfl
  | @last t w ht hd =>
    intro fuel n hf
    obtain ⟨k, rfl⟩ : ∃ k, fuel = k + 1 := ⟨fuel - 1, by omega⟩
    have := nextPath_word hd [] [] (by simpa using hl w List.mem_cons_self) (.inl rfl)
    rw [List.append_nil, List.nil_append] at this
    rw [pathList, if_neg ht, this]
    dsimp only
    rw [hk w List.mem_cons_self]
    dsimp only
    cases k <;> rfl
  | @more t w sep s ws ht hd hsep hs _ ih =>
    intro fuel n hf
    obtain ⟨k, rfl⟩ : ∃ k, fuel = k + 1 := ⟨fuel - 1, by omega⟩
    have hsp : sep ++ s = [] ∨ ∃ c r', sep ++ s = c :: r' ∧ isSpace c = true := by
      cases hse : sep with
      | nil => exact absurd hse hsep.1
      | cons c r => exact .inr ⟨c, r ++ s, rfl, hsep.2 c (by rw [hse]; exact List.mem_cons_self)⟩
    have := nextPath_word hd [] (sep ++ s) (by simpa using hl w List.mem_cons_self) hsp
    rw [List.nil_append, ← List.append_assoc] at this
    rw [pathList, if_neg (by simp [ht]), this]
    dsimp only
    rw [hk w List.mem_cons_self]
    dsimp only
    rw [dropWhile_sep hsep hs, ih (fun w hw => hk w (List.mem_cons_of_mem _ hw))
      (fun w hw => hl w (List.mem_cons_of_mem _ hw)) k (n + 1)]
    · rfl
    · have : t.length ≠ 0 := by simpa using ht
      simp only [List.length_append] at hf
      omega

theorem quote_inQuotes (p : Str) :
    InQuotes (p.flatMap (fun c => if c = '"' ∨ c = '\\' then ['\\', c] else [c])) p := by
  induction p with
  | nil => exact .nil
  | cons c p ih =>
    rw [List.flatMap_cons]
    by_cases h : c = '"' ∨ c = '\\'
    · rw [if_pos h]; exact .esc ih
    · rw [if_neg h]
      exact .plain (fun e => h (.inr e)) (fun e => h (.inl e)) ih

theorem quote_denotes (p : Str) : Denotes (quote p) p := by
  have := Denotes.quoted (quote_inQuotes p) .nil
  rw [List.append_nil] at this
  exact this

theorem quoteList_written : ∀ l : List (Str × Str), (∀ x ∈ l, Sep x.2) →
    Written (quoteList l) (l.map Prod.fst)
  | [], _ => .nil
  | [(p, sep)], _ => .last (by simp [quote, quoteList]) (quote_denotes p)
  | (p, sep) :: x :: l, h => by
    refine .more (by simp [quote]) (quote_denotes p) (h _ List.mem_cons_self) ?_
      (quoteList_written (x :: l) fun y hy => h y (List.mem_cons_of_mem _ hy))
    intro c r hc
    have : c = '"' := by
      obtain ⟨p', sep'⟩ := x
      cases l with
      | nil => injection hc with hc _; exact hc.symm
      | cons y l => injection hc with hc _; exact hc.symm
    subst this
    decide

/-! ### open quotes -/

theorem quoteOpen_spaces (q : Bool) (s : Str) : quoteOpen false q (s.dropWhile isSpace) = quoteOpen false q s := by
  induction s with
  | nil => rfl
  | cons c s ih =>
    by_cases hc : isSpace c
    · have h1 : c ≠ '\\' := by rintro rfl; exact absurd hc (by decide)
      have h2 : c ≠ '"' := by rintro rfl; exact absurd hc (by decide)
      rw [List.dropWhile_cons, if_pos hc, ih, quoteOpen, if_neg (by simp), if_neg h1, if_neg h2]
    · rw [List.dropWhile_cons, if_neg hc]

theorem nextPath_open : ∀ (s : Str) (esc quoted : Bool) (d : Str),
    (nextPath esc quoted d s = .err → quoteOpen esc quoted s = true) ∧
    (∀ d' r, nextPath esc quoted d s = .ok (d', r) → quoteOpen esc quoted s = quoteOpen false false r ∧
      r.length ≤ s.length) := by
  intro s
  induction s with
  | nil =>
    intro esc quoted d
    rw [nextPath]
    cases quoted with
    | true => exact ⟨fun _ => rfl, fun d' r h => by simp at h⟩
    | false =>
      simp only [Bool.false_eq_true, if_false]
      constructor
      · intro h; split at h <;> cases h
      · intro d' r h
        split at h
        · simp only [Res.ok.injEq, Prod.mk.injEq] at h
          rw [← h.2]; exact ⟨rfl, Nat.le_refl _⟩
        · cases h
  | cons c s ih =>
    intro esc quoted d
    have go : ∀ esc' quoted' d', quoteOpen esc quoted (c :: s) = quoteOpen esc' quoted' s →
        (nextPath esc' quoted' d' s = .err → quoteOpen esc quoted (c :: s) = true) ∧
        (∀ d'' r, nextPath esc' quoted' d' s = .ok (d'', r) →
          quoteOpen esc quoted (c :: s) = quoteOpen false false r ∧ r.length ≤ (c :: s).length) := by
      intro e' q' d' he
      rw [he]
      refine ⟨(ih e' q' d').1, fun d'' r h => ⟨((ih e' q' d').2 d'' r h).1, ?_⟩⟩
      have := ((ih e' q' d').2 d'' r h).2
      rw [List.length_cons]; omega
    have ubcase : (Res.ub = (.err : Res (Str × Str)) → quoteOpen esc quoted (c :: s) = true) ∧
        (∀ (d'' r : Str), Res.ub = .ok (d'', r) →
          quoteOpen esc quoted (c :: s) = quoteOpen false false r ∧ r.length ≤ (c :: s).length) := by
      constructor
      · intro h; cases h
      · intro _ _ h; cases h
    rw [nextPath]
    by_cases he : esc = true
    · rw [if_pos he]
      split
      · exact go _ _ _ (by rw [quoteOpen, if_pos he])
      · exact ubcase
    · rw [if_neg he]
      have he' : esc = false := by simpa using he
      subst he'
      by_cases h1 : c = '\\'
      · rw [if_pos h1]; exact go _ _ _ (by rw [quoteOpen, if_neg he, if_pos h1])
      · rw [if_neg h1]
        by_cases h2 : c = '"'
        · rw [if_pos h2]; exact go _ _ _ (by rw [quoteOpen, if_neg he, if_neg h1, if_pos h2])
        · rw [if_neg h2]
          by_cases h3 : (isSpace c && !quoted) = true
          · rw [if_pos h3]
            simp only [Bool.and_eq_true, Bool.not_eq_true'] at h3
            split
            · refine ⟨(fun h => by cases h), fun d'' r h => ?_⟩
              simp only [Res.ok.injEq, Prod.mk.injEq] at h
              rw [← h.2, h3.2]
              exact ⟨rfl, Nat.le_refl _⟩
            · exact ubcase
          · rw [if_neg h3]
            split
            · exact go _ _ _ (by rw [quoteOpen, if_neg he, if_neg h1, if_neg h2])
            · exact ubcase

/-- The text of a word that the reader accepts, with the bytes behind it; at the end of the string a lone
backslash is dropped. -/
theorem nextPath_denotes : ∀ (s : Str) (d w r : Str),
    (nextPath false false d s = .ok (w, r) →
      ∃ t v, (s = t ++ r ∨ (r = [] ∧ s = t ++ ['\\'])) ∧ w = d ++ v ∧ Denotes t v ∧ (d ++ v).length < pathMax ∧
        (r = [] ∨ ∃ c r', r = c :: r' ∧ isSpace c = true)) ∧
    (nextPath false true d s = .ok (w, r) →
      ∃ q v t u, (s = q ++ '"' :: t ++ r ∨ (r = [] ∧ s = q ++ '"' :: t ++ ['\\'])) ∧ w = d ++ v ++ u ∧
        InQuotes q v ∧ Denotes t u ∧ (d ++ v ++ u).length < pathMax ∧
        (r = [] ∨ ∃ c r', r = c :: r' ∧ isSpace c = true)) := by
  intro s
  -- strong induction on the length: an escape consumes two bytes
  generalize hn : s.length = n
  induction n using Nat.strongRecOn generalizing s with
  | _ n ih =>
    intro d w r
    cases s with
    | nil =>
      constructor
      · intro h
        rw [nextPath, if_neg (by simp)] at h
        split at h
        · next hl =>
          simp only [Res.ok.injEq, Prod.mk.injEq] at h
          exact ⟨[], [], .inl (by simp [← h.2]), by simp [← h.1], .nil, by simpa using hl, .inl h.2.symm⟩
        · cases h
      · intro h
        rw [nextPath, if_pos rfl] at h
        cases h
    | cons c s =>
      have hlt : s.length < n := by rw [← hn]; simp
      constructor
      · intro h
        rw [nextPath, if_neg (by simp)] at h
        by_cases h1 : c = '\\'
        · rw [if_pos h1] at h
          subst h1
          cases s with
          | nil =>
            rw [nextPath, if_neg (by simp)] at h
            split at h
            · next hl =>
              simp only [Res.ok.injEq, Prod.mk.injEq] at h
              exact ⟨[], [], .inr ⟨h.2.symm, rfl⟩, by simp [← h.1], .nil, by simpa using hl, .inl h.2.symm⟩
            · cases h
          | cons c s =>
            rw [nextPath, if_pos rfl] at h
            split at h
            · obtain ⟨t, v, hs, hw, hd, hl, hr⟩ := (ih s.length (by simp at hlt; omega) s rfl _ w r).1 h
              refine ⟨'\\' :: c :: t, c :: v, ?_, by simp [hw], .esc hd, by simpa using hl, hr⟩
              rcases hs with hs | ⟨hs, hs'⟩
              · left; simp [hs]
              · right; exact ⟨hs, by simp [hs']⟩
            · cases h
        · rw [if_neg h1] at h
          by_cases h2 : c = '"'
          · rw [if_pos h2] at h
            subst h2
            obtain ⟨q, v, t, u, hs, hw, hq, hd, hl, hr⟩ := (ih s.length hlt s rfl _ w r).2 h
            refine ⟨'"' :: q ++ '"' :: t, v ++ u, ?_, by simp [hw], .quoted hq hd, by simpa using hl, hr⟩
            rcases hs with hs | ⟨hs, hs'⟩
            · left; simp [hs]
            · right; exact ⟨hs, by simp [hs']⟩
          · rw [if_neg h2] at h
            by_cases h3 : (isSpace c && !false) = true
            · rw [if_pos h3] at h
              split at h
              · next hl =>
                simp only [Res.ok.injEq, Prod.mk.injEq] at h
                refine ⟨[], [], .inl (by simp [← h.2]), by simp [← h.1], .nil, by simpa using hl,
                  .inr ⟨c, s, h.2.symm, by simpa using h3⟩⟩
              · cases h
            · rw [if_neg h3] at h
              split at h
              · obtain ⟨t, v, hs, hw, hd, hl, hr⟩ := (ih s.length hlt s rfl _ w r).1 h
                refine ⟨c :: t, c :: v, ?_, by simp [hw], .plain h1 h2 (by simpa using h3) hd, by simpa using hl, hr⟩
                rcases hs with hs | ⟨hs, hs'⟩
                · left; simp [hs]
                · right; exact ⟨hs, by simp [hs']⟩
              · cases h
      · intro h
        rw [nextPath, if_neg (by simp)] at h
        by_cases h1 : c = '\\'
        · rw [if_pos h1] at h
          subst h1
          cases s with
          | nil =>
            rw [nextPath, if_pos rfl] at h
            cases h
          | cons c s =>
            rw [nextPath, if_pos rfl] at h
            split at h
            · obtain ⟨q, v, t, u, hs, hw, hq, hd, hl, hr⟩ := (ih s.length (by simp at hlt; omega) s rfl _ w r).2 h
              refine ⟨'\\' :: c :: q, c :: v, t, u, ?_, by simp [hw], .esc hq, hd, by simpa using hl, hr⟩
              rcases hs with hs | ⟨hs, hs'⟩
              · left; simp [hs]
              · right; exact ⟨hs, by simp [hs']⟩
            · cases h
        · rw [if_neg h1] at h
          by_cases h2 : c = '"'
          · rw [if_pos h2] at h
            subst h2
            obtain ⟨t, v, hs, hw, hd, hl, hr⟩ := (ih s.length hlt s rfl _ w r).1 h
            refine ⟨[], [], t, v, ?_, by simp [hw], .nil, hd, by simpa using hl, hr⟩
            rcases hs with hs | ⟨hs, hs'⟩
            · left; simp [hs]
            · right; exact ⟨hs, by simp [hs']⟩
          · rw [if_neg h2, if_neg (by simp)] at h
            split at h
            · obtain ⟨q, v, t, u, hs, hw, hq, hd, hl, hr⟩ := (ih s.length hlt s rfl _ w r).2 h
              refine ⟨c :: q, c :: v, t, u, ?_, by simp [hw], .plain h1 h2 hq, hd, by simpa using hl, hr⟩
              rcases hs with hs | ⟨hs, hs'⟩
              · left; simp [hs]
              · right; exact ⟨hs, by simp [hs']⟩
            · cases h

end Tup.PathList
