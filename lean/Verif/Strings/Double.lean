import Verif.Strings.Lemmas

/-! Lemmas for C53: which names the shell reads back from double quotes. -/

namespace Tup.Strings

theorem escaped_dcons (c : Char) (s : Str) : escaped '"' (c :: s) = (if c = '"' then ['\\', '"'] else [c]) ++ escaped '"' s := by
  unfold escaped
  rw [List.flatMap_cons]
  rfl

theorem escaped_q (s : Str) : escaped '"' ('"' :: s) = '\\' :: '"' :: escaped '"' s := by rw [escaped_dcons]; rfl

theorem escaped_c {c : Char} (h : c ≠ '"') (s : Str) : escaped '"' (c :: s) = c :: escaped '"' s := by rw [escaped_dcons, if_neg h]; rfl

theorem sh_double_bs (c : Char) (s : Str) : shWord .double ('\\' :: c :: s) =
    if c = '\n' then shWord .double s else if c ∈ ['$', '`', '"', '\\'] then (shWord .double s).map (c :: ·) else (shWord .double s).map ('\\' :: c :: ·) := by
  rw [shWord]

theorem sh_plain_bs (c : Char) (s : Str) : shWord .plain ('\\' :: c :: s) = if c = '\n' then shWord .plain s else (shWord .plain s).map (c :: ·) := by
  rw [shWord]

theorem sh_double {c : Char} (h : c ≠ '\\') (s : Str) : shWord .double (c :: s) =
    if c = '"' then shWord .plain s else if c ∈ ['$', '`', '\\'] then none else (shWord .double s).map (c :: ·) := by
  rw [shWord]
  intro c' s' e _
  exact absurd e h

theorem sh_plain {c : Char} (h : c ≠ '\\') (s : Str) : shWord .plain (c :: s) =
    if c = '\'' then shWord .single s else if c = '"' then shWord .double s
    else if c.isAlphanum ∨ c ∈ ['_', '.', '/', '-', '+', ',', ':', '@', '%'] then (shWord .plain s).map (c :: ·) else none := by
  rw [shWord]
  intro c' s' e _
  exact absurd e h

theorem sh_single (c : Char) (s : Str) : shWord .single (c :: s) = if c = '\'' then shWord .plain s else (shWord .single s).map (c :: ·) := by
  rw [shWord]

/-- The single quotes of a string. -/
def sq (s : Str) : Nat := s.count '\''

theorem sq_cons (c : Char) (s : Str) : sq (c :: s) = sq s + if c = '\'' then 1 else 0 := by
  unfold sq
  rw [List.count_cons]
  simp

/-- Single quotes get lost when they quote; the word gets longer only inside of single quotes. -/
theorem sh_len (n : Nat) : ∀ s : Str, s.length ≤ n →
    (∀ w, shWord .single (escaped '"' s ++ ['"']) = some w → sq w + 1 ≤ sq s) ∧
    (∀ w, shWord .double (escaped '"' s ++ ['"']) = some w → sq w ≤ sq s ∧ (sq w = sq s → w.length ≤ s.length)) ∧
    (∀ w, shWord .plain (escaped '"' s ++ ['"']) = some w → sq w ≤ sq s ∧ (sq w = sq s → w.length ≤ s.length)) := by
  induction n with
  | zero =>
    intro s hs
    have : s = [] := List.length_eq_zero_iff.1 (by omega)
    subst this
    refine ⟨?_, ?_, ?_⟩
    · intro w h
      have e : shWord .single (escaped '"' [] ++ ['"']) = none := by decide
      rw [e] at h
      cases h
    · intro w h
      have e : shWord .double (escaped '"' [] ++ ['"']) = some [] := by decide
      rw [e] at h
      cases h
      simp
    · intro w h
      have e : shWord .plain (escaped '"' [] ++ ['"']) = none := by decide
      rw [e] at h
      cases h
  | succ n ih =>
    intro s hs
    cases s with
    | nil => exact ih [] (by simp)
    | cons c s =>
      have hs' : s.length ≤ n := by simpa using hs
      obtain ⟨i1, i2, i3⟩ := ih s hs'
      by_cases hq : c = '"'
      · subst hq
        rw [escaped_q]
        simp only [List.cons_append, List.length_cons, sq_cons]
        refine ⟨?_, ?_, ?_⟩
        · intro w h
          rw [sh_single, if_neg (by decide), sh_single, if_neg (by decide), Option.map_map] at h
          obtain ⟨w', h', rfl⟩ := Option.map_eq_some_iff.1 h
          have := i1 w' h'
          simpa [sq_cons] using this
        · intro w h
          rw [sh_double_bs, if_neg (by decide), if_pos (by decide)] at h
          obtain ⟨w', h', rfl⟩ := Option.map_eq_some_iff.1 h
          have := i2 w' h'
          simp only [sq_cons, List.length_cons]
          exact ⟨by simpa using this.1, fun e => by have := this.2 (by simpa using e); omega⟩
        · intro w h
          rw [sh_plain_bs, if_neg (by decide)] at h
          obtain ⟨w', h', rfl⟩ := Option.map_eq_some_iff.1 h
          have := i3 w' h'
          simp only [sq_cons, List.length_cons]
          exact ⟨by simpa using this.1, fun e => by have := this.2 (by simpa using e); omega⟩
      · rw [escaped_c hq]
        simp only [List.cons_append, List.length_cons, sq_cons]
        refine ⟨?_, ?_, ?_⟩
        · intro w h
          rw [sh_single] at h
          split at h
          · next e =>
            have := (i3 w h).1
            rw [if_pos e]; omega
          · next e =>
            obtain ⟨w', h', rfl⟩ := Option.map_eq_some_iff.1 h
            have := i1 w' h'
            rw [sq_cons]; omega
        · intro w h
          by_cases hb : c = '\\'
          · subst hb
            cases s with
            | nil =>
              rw [show shWord .double ('\\' :: (escaped '"' [] ++ ['"'])) = none by decide] at h
              cases h
            | cons d s =>
              obtain ⟨j1, j2, j3⟩ := ih s (by simp only [List.length_cons] at hs'; omega)
              simp only [sq_cons, List.length_cons]
              by_cases hd : d = '"'
              · subst hd
                rw [escaped_q, List.cons_append, List.cons_append, sh_double_bs, if_neg (by decide), if_pos (by decide), sh_double (by decide), if_pos rfl] at h
                obtain ⟨w', h', rfl⟩ := Option.map_eq_some_iff.1 h
                have := j3 w' h'
                simp only [sq_cons, List.length_cons]
                exact ⟨by simpa using this.1, fun e => by have := this.2 (by simpa using e); omega⟩
              · rw [escaped_c hd, List.cons_append, sh_double_bs] at h
                split at h
                · next e =>
                  subst e
                  have := j2 w h
                  exact ⟨by simpa using this.1, fun e => by have := this.2 (by simpa using e); omega⟩
                · split at h
                  · obtain ⟨w', h', rfl⟩ := Option.map_eq_some_iff.1 h
                    have := j2 w' h'
                    simp only [sq_cons, List.length_cons]
                    exact ⟨by simp; omega, fun e => by have := this.2 (by simp at e; omega); omega⟩
                  · obtain ⟨w', h', rfl⟩ := Option.map_eq_some_iff.1 h
                    have := j2 w' h'
                    simp only [sq_cons, List.length_cons]
                    exact ⟨by simp; omega, fun e => by have := this.2 (by simp at e; omega); omega⟩
          · rw [sh_double hb, if_neg hq] at h
            split at h
            · cases h
            · obtain ⟨w', h', rfl⟩ := Option.map_eq_some_iff.1 h
              have := i2 w' h'
              simp only [sq_cons, List.length_cons]
              exact ⟨by omega, fun e => by have := this.2 (by omega); omega⟩
        · intro w h
          by_cases hb : c = '\\'
          · subst hb
            cases s with
            | nil =>
              rw [show shWord .plain ('\\' :: (escaped '"' [] ++ ['"'])) = some ['"'] by decide] at h
              cases h
              decide
            | cons d s =>
              obtain ⟨j1, j2, j3⟩ := ih s (by simp only [List.length_cons] at hs'; omega)
              simp only [sq_cons, List.length_cons]
              by_cases hd : d = '"'
              · subst hd
                rw [escaped_q, List.cons_append, List.cons_append, sh_plain_bs, if_neg (by decide), sh_plain (by decide), if_neg (by decide), if_pos rfl] at h
                obtain ⟨w', h', rfl⟩ := Option.map_eq_some_iff.1 h
                have := j2 w' h'
                simp only [sq_cons, List.length_cons]
                exact ⟨by simpa using this.1, fun e => by have := this.2 (by simpa using e); omega⟩
              · rw [escaped_c hd, List.cons_append, sh_plain_bs] at h
                split at h
                · next e =>
                  subst e
                  have := j3 w h
                  exact ⟨by simpa using this.1, fun e => by have := this.2 (by simpa using e); omega⟩
                · obtain ⟨w', h', rfl⟩ := Option.map_eq_some_iff.1 h
                  have := j3 w' h'
                  simp only [sq_cons, List.length_cons]
                  exact ⟨by simp; omega, fun e => by have := this.2 (by simp at e; omega); omega⟩
          · rw [sh_plain hb] at h
            split at h
            · next e =>
              have := i1 w h
              rw [if_pos e]
              exact ⟨by omega, fun e => by omega⟩
            · split at h
              · obtain ⟨w', h', rfl⟩ := Option.map_eq_some_iff.1 h
                have := i3 w' h'
                simp only [sq_cons, List.length_cons]
                exact ⟨by omega, fun e => by have := this.2 (by omega); omega⟩
              · cases h

/-- Along the name: what double quotes with `"` escaped keep. -/
def Kept : Str → Prop
  | [] => True
  | '\\' :: s => match s with
    | [] => False
    | c :: s' => c ∉ ['"', '\\', '\n', '$', '`'] ∧ Kept s'
  | c :: s => c ≠ '$' ∧ c ≠ '`' ∧ Kept s

theorem kept_c {c : Char} (h : c ≠ '\\') (s : Str) : Kept (c :: s) ↔ c ≠ '$' ∧ c ≠ '`' ∧ Kept s := by
  rw [Kept]
  exact fun e => h e

theorem kept_bs (c : Char) (s : Str) : Kept ('\\' :: c :: s) ↔ c ∉ ['"', '\\', '\n', '$', '`'] ∧ Kept s := by
  rw [Kept]

theorem sh_kept (n : Nat) : ∀ s : Str, s.length ≤ n → (shWord .double (escaped '"' s ++ ['"']) = some s ↔ Kept s) := by
  induction n with
  | zero =>
    intro s hs
    have : s = [] := List.length_eq_zero_iff.1 (by omega)
    subst this
    exact ⟨fun _ => trivial, fun _ => by decide⟩
  | succ n ih =>
    intro s hs
    cases s with
    | nil => exact ⟨fun _ => trivial, fun _ => by decide⟩
    | cons c s =>
      have hs' : s.length ≤ n := by simpa using hs
      by_cases hq : c = '"'
      · subst hq
        rw [escaped_q, kept_c (by decide), ← ih s hs', List.cons_append, List.cons_append, sh_double_bs, if_neg (by decide), if_pos (by decide)]
        cases shWord .double (escaped '"' s ++ ['"']) with
        | none => simp
        | some w => simp
      · rw [escaped_c hq, List.cons_append]
        by_cases hb : c = '\\'
        · subst hb
          cases s with
          | nil =>
            rw [show shWord .double ('\\' :: (escaped '"' [] ++ ['"'])) = none by decide]
            simp [Kept]
          | cons d s =>
            have hl : s.length ≤ n := by simp only [List.length_cons] at hs'; omega
            obtain ⟨j1, j2, j3⟩ := sh_len n s hl
            rw [kept_bs]
            by_cases hd : d = '"'
            · subst hd
              rw [escaped_q, List.cons_append, List.cons_append, sh_double_bs, if_neg (by decide), if_pos (by decide), sh_double (by decide), if_pos rfl]
              refine ⟨fun h => ?_, fun h => absurd h.1 (by decide)⟩
              obtain ⟨w', h', e⟩ := Option.map_eq_some_iff.1 h
              have := j3 w' h'
              have e1 : w' = '"' :: s := by simpa using e
              subst e1
              simp [sq_cons] at this
              omega
            · rw [escaped_c hd, List.cons_append, sh_double_bs]
              split
              · next e =>
                subst e
                refine ⟨fun h => ?_, fun h => absurd h.1 (by decide)⟩
                have := j2 _ h
                simp [sq_cons] at this
                omega
              · next hnl =>
                split
                · next e =>
                  refine ⟨fun h => ?_, fun h => ?_⟩
                  · obtain ⟨w', h', e2⟩ := Option.map_eq_some_iff.1 h
                    have := j2 w' h'
                    simp only [List.cons.injEq] at e2
                    obtain ⟨e3, e4⟩ := e2
                    subst e3
                    subst e4
                    simp [sq_cons] at this
                    omega
                  · simp at e
                    have := h.1
                    simp at this
                    rcases e with e | e | e | e
                    · exact absurd e this.2.2.2.1
                    · exact absurd e this.2.2.2.2
                    · exact absurd e this.1
                    · exact absurd e this.2.1
                · next e =>
                  rw [← ih s hl]
                  have : d ∉ ['"', '\\', '\n', '$', '`'] := by
                    simp at e ⊢
                    exact ⟨e.2.2.1, e.2.2.2, hnl, e.1, e.2.1⟩
                  cases shWord .double (escaped '"' s ++ ['"']) with
                  | none => simp
                  | some w => simp [this]
        · rw [kept_c hb, sh_double hb, if_neg hq, ← ih s hs']
          split
          · next e =>
            simp [hb] at e
            simp
            rcases e with e | e <;> simp [e]
          · next e =>
            simp at e
            cases shWord .double (escaped '"' s ++ ['"']) with
            | none => simp
            | some w => simp [e.1, e.2]

theorem kept_iff (n : Nat) : ∀ s : Str, s.length ≤ n → (Kept s ↔ (∀ c ∈ s, c ≠ '$' ∧ c ≠ '`') ∧ ∀ a b, s = a ++ '\\' :: b → ∃ c b', b = c :: b' ∧ c ∉ ['"', '\\', '\n']) := by
  induction n with
  | zero =>
    intro s hs
    have : s = [] := List.length_eq_zero_iff.1 (by omega)
    subst this
    simp [Kept]
  | succ n ih =>
    intro s hs
    cases s with
    | nil => simp [Kept]
    | cons c s =>
      have hs' : s.length ≤ n := by simpa using hs
      by_cases hb : c = '\\'
      · subst hb
        cases s with
        | nil =>
          simp only [Kept, false_iff]
          rintro ⟨_, h⟩
          obtain ⟨c, b', h, _⟩ := h [] [] rfl
          cases h
        | cons d s =>
          have hl : s.length ≤ n := by simp only [List.length_cons] at hs'; omega
          rw [kept_bs, ih s hl]
          constructor
          · rintro ⟨h1, h2, h3⟩
            simp at h1
            refine ⟨?_, ?_⟩
            · intro x hx
              simp only [List.mem_cons] at hx
              rcases hx with rfl | rfl | hx
              · decide
              · exact ⟨h1.2.2.2.1, h1.2.2.2.2⟩
              · exact h2 x hx
            · intro a b e
              cases a with
              | nil =>
                simp at e
                exact ⟨d, s, e.symm, by simp; exact ⟨h1.1, h1.2.1, h1.2.2.1⟩⟩
              | cons x a =>
                simp at e
                cases a with
                | nil => simp at e; exact absurd e.2.1 h1.2.1
                | cons y a => simp at e; exact h3 a b e.2.2
          · rintro ⟨h1, h2⟩
            obtain ⟨c, b', e, h3⟩ := h2 [] (d :: s) rfl
            simp at e
            obtain ⟨rfl, rfl⟩ := e
            have := h1 d (by simp)
            refine ⟨?_, fun x hx => h1 x (by simp [hx]), fun a b e => h2 ('\\' :: d :: a) b (by simp [e])⟩
            simp at h3 ⊢
            exact ⟨h3.1, h3.2.1, h3.2.2, this⟩
      · rw [kept_c hb, ih s hs']
        constructor
        · rintro ⟨h1, h2, h3, h4⟩
          refine ⟨?_, ?_⟩
          · intro x hx
            simp only [List.mem_cons] at hx
            rcases hx with rfl | hx
            · exact ⟨h1, h2⟩
            · exact h3 x hx
          · intro a b e
            cases a with
            | nil => simp at e; exact absurd e.1 hb
            | cons x a => simp at e; exact h4 a b e.2
        · rintro ⟨h1, h2⟩
          exact ⟨(h1 c (by simp)).1, (h1 c (by simp)).2, fun x hx => h1 x (by simp [hx]), fun a b e => h2 (c :: a) b (by simp [e])⟩

end Tup.Strings
