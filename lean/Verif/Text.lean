import Verif.Basic

/-! C library functions on strings that several parts of the parser use, and what they do. -/

namespace Tup

/-- `strstr`: what is before the first occurrence of `p` and what is behind it. -/
def strstr (p : Str) : Str → Option (Str × Str)
  | [] => if p = [] then some ([], []) else none
  | c :: s =>
    if p.isPrefixOf (c :: s) then some ([], (c :: s).drop p.length)
    else (strstr p s).map fun q => (c :: q.1, q.2)

/-- `strchr`: what is before the first `c` and what is behind it. -/
def strchr (c : Char) : Str → Option (Str × Str)
  | [] => none
  | x :: s => if x = c then some ([], s) else (strchr c s).map fun q => (x :: q.1, q.2)

/-- `while(isspace(*s)) s++;` -/
def skipSpaces (s : Str) : Str := s.dropWhile isSpace

/-- White space at the end removed. -/
def trimEnd (s : Str) : Str := (s.reverse.dropWhile isSpace).reverse

/-- `p` occurs somewhere in `s`. -/
def Occurs (p s : Str) : Prop := ∃ a b, s = a ++ p ++ b

theorem isPrefixOf_iff (p s : Str) : p.isPrefixOf s = true ↔ ∃ b, s = p ++ b := by
  rw [List.isPrefixOf_iff_prefix]
  constructor
  · rintro ⟨b, rfl⟩; exact ⟨b, rfl⟩
  · rintro ⟨b, rfl⟩; exact ⟨b, rfl⟩

theorem strstr_some {p s a b : Str} (h : strstr p s = some (a, b)) :
    s = a ++ p ++ b ∧ ∀ a' b', s = a' ++ p ++ b' → a.length ≤ a'.length := by
  induction s generalizing a b with
  | nil =>
    rw [strstr] at h
    split at h
    · next hp =>
      simp only [Option.some.injEq, Prod.mk.injEq] at h
      obtain ⟨rfl, rfl⟩ := h
      exact ⟨by rw [hp]; rfl, fun _ _ _ => Nat.zero_le _⟩
    · cases h
  | cons c s ih =>
    rw [strstr] at h
    split at h
    · next hp =>
      simp only [Option.some.injEq, Prod.mk.injEq] at h
      obtain ⟨rfl, rfl⟩ := h
      obtain ⟨b, hb⟩ := (isPrefixOf_iff _ _).1 hp
      refine ⟨?_, fun _ _ _ => Nat.zero_le _⟩
      rw [hb, List.drop_left]
      rfl
    · next hp =>
      cases hs : strstr p s with
      | none => rw [hs] at h; cases h
      | some q =>
        obtain ⟨x, y⟩ := q
        rw [hs] at h
        simp only [Option.map_some, Option.some.injEq, Prod.mk.injEq] at h
        obtain ⟨rfl, rfl⟩ := h
        obtain ⟨h1, h2⟩ := ih hs
        refine ⟨by rw [h1]; rfl, ?_⟩
        intro a' b' he
        cases a' with
        | nil => exact absurd ((isPrefixOf_iff _ _).2 ⟨b', he⟩) hp
        | cons d a' =>
          simp only [List.cons_append, List.cons.injEq] at he
          exact Nat.succ_le_succ (h2 a' b' he.2)

theorem strstr_none {p s : Str} : strstr p s = none ↔ ¬ Occurs p s := by
  induction s with
  | nil =>
    rw [strstr]
    split
    · next hp => subst hp; simp only [reduceCtorEq, false_iff]; exact fun hn => hn ⟨[], [], rfl⟩
    · next hp =>
      simp only [true_iff]
      rintro ⟨a, b, h⟩
      have := congrArg List.length h
      simp only [List.length_nil, List.length_append] at this
      exact hp (List.eq_nil_of_length_eq_zero (by omega))
  | cons c s ih =>
    rw [strstr]
    split
    · next hp =>
      obtain ⟨b, hb⟩ := (isPrefixOf_iff _ _).1 hp
      simp only [reduceCtorEq, false_iff]
      exact fun hn => hn ⟨[], b, hb⟩
    · next hp =>
      rw [Option.map_eq_none_iff, ih]
      constructor
      · rintro h ⟨a, b, he⟩
        cases a with
        | nil => exact hp ((isPrefixOf_iff _ _).2 ⟨b, he⟩)
        | cons d a =>
          simp only [List.cons_append, List.cons.injEq] at he
          exact h ⟨a, b, he.2⟩
      · rintro h ⟨a, b, he⟩
        exact h ⟨c :: a, b, by rw [he]; rfl⟩

/-- The first occurrence is found. -/
theorem strstr_first {p a b : Str} (h : ∀ a' b', a ++ p ++ b = a' ++ p ++ b' → a.length ≤ a'.length) :
    strstr p (a ++ p ++ b) = some (a, b) := by
  cases hs : strstr p (a ++ p ++ b) with
  | none => exact absurd ⟨a, b, rfl⟩ (strstr_none.1 hs)
  | some q =>
    obtain ⟨x, y⟩ := q
    obtain ⟨h1, h2⟩ := strstr_some hs
    have hl : a.length = x.length := Nat.le_antisymm (h _ _ h1) (h2 _ _ rfl)
    rw [List.append_assoc, List.append_assoc] at h1
    obtain ⟨rfl, h3⟩ := List.append_inj h1 hl
    rw [List.append_cancel_left h3]

/-- Two characters that differ: what is in front of the occurrence may not contain them, but an occurrence
cannot begin in front of the given one and end inside it. -/
theorem strstr_pair {x y : Char} (hxy : x ≠ y) {a b : Str} (h : ¬ Occurs [x, y] a) :
    strstr [x, y] (a ++ [x, y] ++ b) = some (a, b) := by
  refine strstr_first ?_
  intro a' b' he
  apply Nat.le_of_not_lt
  intro hlt
  apply h
  rw [List.append_assoc, List.append_assoc] at he
  obtain ⟨m, hm, hm'⟩ : ∃ m, a = a' ++ m ∧ [x, y] ++ b' = m ++ ([x, y] ++ b) := by
    rcases List.append_eq_append_iff.1 he with ⟨m, h1, h2⟩ | ⟨m, h1, h2⟩
    · exfalso
      have := congrArg List.length h1
      simp only [List.length_append] at this
      omega
    · exact ⟨m, h1, h2⟩
  subst hm
  cases m with
  | nil => simp at hlt
  | cons c m =>
    simp only [List.cons_append, List.nil_append, List.cons.injEq] at hm'
    obtain ⟨rfl, hm'⟩ := hm'
    cases m with
    | nil =>
      simp only [List.nil_append, List.cons.injEq] at hm'
      exact absurd hm'.1.symm hxy
    | cons d m =>
      simp only [List.cons_append, List.cons.injEq] at hm'
      obtain ⟨rfl, _⟩ := hm'
      exact ⟨a', m, by simp⟩

theorem strchr_some {c : Char} {s a b : Str} (h : strchr c s = some (a, b)) : s = a ++ c :: b ∧ c ∉ a := by
  induction s generalizing a b with
  | nil => cases h
  | cons x s ih =>
    rw [strchr] at h
    split at h
    · next hx =>
      simp only [Option.some.injEq, Prod.mk.injEq] at h
      obtain ⟨rfl, rfl⟩ := h
      exact ⟨by rw [hx]; rfl, by simp⟩
    · next hx =>
      cases hc : strchr c s with
      | none => rw [hc] at h; cases h
      | some p =>
        obtain ⟨p1, p2⟩ := p
        rw [hc] at h
        simp only [Option.map_some, Option.some.injEq, Prod.mk.injEq] at h
        obtain ⟨rfl, rfl⟩ := h
        obtain ⟨h1, h2⟩ := ih hc
        refine ⟨by rw [h1]; rfl, ?_⟩
        rw [List.mem_cons]
        rintro (h | h)
        · exact hx h.symm
        · exact h2 h

theorem strchr_length {c : Char} {s a b : Str} (h : strchr c s = some (a, b)) : b.length < s.length := by
  rw [(strchr_some h).1]
  simp only [List.length_append, List.length_cons]
  omega

theorem strchr_none {c : Char} {s : Str} : strchr c s = none ↔ c ∉ s := by
  induction s with
  | nil => simp [strchr]
  | cons x s ih =>
    rw [strchr, List.mem_cons]
    split
    · next hx => simp [hx]
    · next hx =>
      rw [Option.map_eq_none_iff, ih]
      constructor
      · rintro h (h' | h')
        · exact hx h'.symm
        · exact h h'
      · exact fun h h' => h (.inr h')

theorem strchr_append {c : Char} {a b : Str} (h : c ∉ a) : strchr c (a ++ c :: b) = some (a, b) := by
  induction a with
  | nil => simp [strchr]
  | cons x a ih =>
    rw [List.mem_cons, not_or] at h
    rw [List.cons_append, strchr, if_neg (Ne.symm h.1), ih h.2]
    rfl

theorem skipSpaces_of {s : Str} (h : ∀ c, s.head? = some c → isSpace c = false) : skipSpaces s = s := by
  cases s with
  | nil => rfl
  | cons c s => simp [skipSpaces, h c rfl]

theorem skipSpaces_append {w s : Str} (hw : ∀ c ∈ w, isSpace c = true) : skipSpaces (w ++ s) = skipSpaces s := by
  induction w with
  | nil => rfl
  | cons c w ih =>
    have := hw c List.mem_cons_self
    rw [List.cons_append]
    show List.dropWhile isSpace (c :: (w ++ s)) = _
    rw [List.dropWhile_cons_of_pos this]
    exact ih fun d hd => hw d (List.mem_cons_of_mem _ hd)

theorem skipSpaces_head {s : Str} : ∀ c, (skipSpaces s).head? = some c → isSpace c = false := by
  intro c h
  have := List.head?_dropWhile_not isSpace s
  unfold skipSpaces at h
  rw [h] at this
  simpa using this

/-- What `skipSpaces` removes is white space. -/
theorem skipSpaces_split (s : Str) : ∃ w, (∀ c ∈ w, isSpace c = true) ∧ s = w ++ skipSpaces s :=
  ⟨s.takeWhile isSpace, fun c hc => List.all_eq_true.1 List.all_takeWhile c hc,
    (List.takeWhile_append_dropWhile).symm⟩

theorem trimEnd_split (s : Str) : ∃ w, (∀ c ∈ w, isSpace c = true) ∧ s = trimEnd s ++ w := by
  obtain ⟨w, h1, h2⟩ := skipSpaces_split s.reverse
  refine ⟨w.reverse, fun c hc => h1 c (List.mem_reverse.1 hc), ?_⟩
  have := congrArg List.reverse h2
  rw [List.reverse_reverse, List.reverse_append] at this
  exact this

theorem trimEnd_last {s : Str} : ∀ c, (trimEnd s).getLast? = some c → isSpace c = false := by
  intro c h
  rw [trimEnd, List.getLast?_reverse] at h
  exact skipSpaces_head c h

theorem trimEnd_append {s w : Str} (hw : ∀ c ∈ w, isSpace c = true)
    (hs : ∀ c, s.getLast? = some c → isSpace c = false) : trimEnd (s ++ w) = s := by
  unfold trimEnd
  rw [List.reverse_append]
  have h1 : (w.reverse ++ s.reverse).dropWhile isSpace = s.reverse := by
    have := skipSpaces_append (w := w.reverse) (s := s.reverse) fun c hc => hw c (List.mem_reverse.1 hc)
    unfold skipSpaces at this
    rw [this]
    refine skipSpaces_of ?_
    intro c hc
    rw [List.head?_reverse] at hc
    exact hs c hc
  rw [h1, List.reverse_reverse]

end Tup
