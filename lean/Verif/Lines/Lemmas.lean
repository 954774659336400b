import Verif.Lines.Spec

namespace Tup.Lines

/-! ### tokens -/

theorem toks_cons (c : Char) (s : Str)
    (h : c = '\\' → (∀ r, s ≠ '\n' :: r) ∧ ∀ r, s ≠ '\r' :: '\n' :: r) :
    toks (c :: s) = .ch c :: toks s := by
  rw [toks.eq_def]
  split
  · next h' => simp at h'
  · next s' h' =>
    simp only [List.cons.injEq] at h'
    exact absurd h'.2 ((h h'.1).1 _)
  · next s' h' =>
    simp only [List.cons.injEq] at h'
    exact absurd h'.2 ((h h'.1).2 _)
  · next h' =>
    simp only [List.cons.injEq] at h'
    rw [h'.1, h'.2]

theorem toks_append (x y : Str) (hx : '\n' ∉ x)
    (h1 : ∀ r, y ≠ '\n' :: r) (h2 : ∀ r, y ≠ '\r' :: '\n' :: r) :
    toks (x ++ y) = x.map .ch ++ toks y := by
  induction x with
  | nil => rfl
  | cons c x ih =>
    have hx' : '\n' ∉ x := fun h => hx (List.mem_cons_of_mem _ h)
    rw [List.cons_append, toks_cons, ih hx']
    · rfl
    · intro _
      cases x with
      | nil => exact ⟨h1, h2⟩
      | cons d x =>
        constructor
        · intro r h
          injection h with h _
          exact hx' (h ▸ List.mem_cons_self)
        · intro r h
          injection h with h h'
          cases x with
          | nil => exact h1 _ h'
          | cons e x =>
            injection h' with h' _
            exact hx' (h' ▸ List.mem_cons_of_mem _ List.mem_cons_self)

/-- The string ends in a backslash, or a backslash and a carriage return. -/
def endsBS (s : Str) : Bool :=
  match s.reverse with
  | '\\' :: _ => true
  | c1 :: c2 :: _ => c2 = '\\' && c1 = '\r'
  | _ => false

theorem endsBS_true {s : Str} (h : endsBS s = true) :
    (∃ a, s = a ++ ['\\']) ∨ ∃ a, s = a ++ ['\\', '\r'] := by
  unfold endsBS at h
  split at h
  · next r hr =>
    left
    exact ⟨r.reverse, by rw [← List.reverse_reverse s, hr]; simp⟩
  · next c1 c2 r _ hr =>
    right
    simp only [Bool.and_eq_true, decide_eq_true_eq] at h
    rw [h.1, h.2] at hr
    exact ⟨r.reverse, by rw [← List.reverse_reverse s, hr]; simp⟩
  · cases h

theorem endsBS_bs (a : Str) : endsBS (a ++ ['\\']) = true := by
  simp [endsBS]

theorem endsBS_bscr (a : Str) : endsBS (a ++ ['\\', '\r']) = true := by
  simp [endsBS]

theorem endsBS_iff (s : Str) : endsBS s = true ↔ EndsInBackslash s := by
  constructor
  · exact endsBS_true
  · rintro (⟨a, rfl⟩ | ⟨a, rfl⟩)
    · exact endsBS_bs a
    · exact endsBS_bscr a

theorem endsBS_nl (x y : Str) : endsBS (x ++ '\n' :: y) = endsBS y := by
  unfold endsBS
  rw [List.reverse_append, List.reverse_cons]
  generalize y.reverse = r
  match r with
  | [] => cases x.reverse <;> simp
  | [c] =>
    by_cases hc : c = '\\'
    · subst hc; rfl
    · simp only [List.cons_append, List.nil_append]
      split
      · next h => simp at h; exact absurd h.1 hc
      · next h => simp at h
      · simp
  | c :: d :: r => 
    by_cases hc : c = '\\'
    · subst hc; rfl
    · simp only [List.cons_append]

/-- Tokens of a line that is not continued. -/
theorem toks_line (b a : Str) (hb : '\n' ∉ b) (he : endsBS b = false) :
    toks (b ++ '\n' :: a) = b.map .ch ++ .ch '\n' :: toks a := by
  induction b with
  | nil => rw [List.nil_append, toks_cons _ _ (by intro h; simp at h)]; rfl
  | cons c b ih =>
    have hb' : '\n' ∉ b := fun h => hb (List.mem_cons_of_mem _ h)
    have he' : endsBS b = false := by
      cases hbb : endsBS b with
      | false => rfl
      | true =>
        rcases endsBS_true hbb with ⟨x, rfl⟩ | ⟨x, rfl⟩
        · rw [← List.cons_append, endsBS_bs] at he; cases he
        · rw [← List.cons_append, endsBS_bscr] at he; cases he
    rw [List.cons_append, toks_cons, ih hb' he']
    · rfl
    · rintro rfl
      constructor
      · intro r h
        cases b with
        | nil => cases he
        | cons d b =>
          injection h with h _
          exact hb' (h ▸ List.mem_cons_self)
      · intro r h
        cases b with
        | nil => simp at h
        | cons d b =>
          injection h with h h'
          cases b with
          | nil => subst h; cases he
          | cons e b =>
            injection h' with h' _
            exact hb' (h' ▸ List.mem_cons_of_mem _ List.mem_cons_self)

theorem toks_bs (b a : Str) (hb : '\n' ∉ b) :
    toks (b ++ ['\\'] ++ '\n' :: a) = b.map .ch ++ .gap :: .gap :: toks a := by
  rw [List.append_assoc, toks_append _ _ hb (by simp) (by simp)]
  rfl

theorem toks_bscr (b a : Str) (hb : '\n' ∉ b) :
    toks (b ++ ['\\', '\r'] ++ '\n' :: a) = b.map .ch ++ .gap :: .gap :: .gap :: toks a := by
  rw [List.append_assoc, toks_append _ _ hb (by simp) (by simp)]
  rfl

theorem toks_noNL (b : Str) (hb : '\n' ∉ b) : toks b = b.map .ch := by
  have := toks_append b [] hb (by simp) (by simp)
  simpa [toks] using this

/-! ### cutting -/

theorem cut_ne_nil (l : List Tok) : cut l ≠ [] := by
  fun_induction cut l <;> simp

theorem cut_cons (t : Tok) (s : List Tok) (h : t ≠ .ch '\n') :
    ∃ l ls, cut s = l :: ls ∧ cut (t :: s) = (t :: l) :: ls := by
  cases hc : cut s with
  | nil => exact absurd hc (cut_ne_nil s)
  | cons l ls =>
    refine ⟨l, ls, rfl, ?_⟩
    rw [cut.eq_def]
    split
    · next h' => cases h'
    · next h' => injection h' with h' _; exact absurd h' h
    · next h' => injection h' with h1 h2; subst h1 h2; rw [hc]

theorem cut_noNL (T : List Tok) (h : Tok.ch '\n' ∉ T) : cut T = [T] := by
  induction T with
  | nil => rfl
  | cons t T ih =>
    obtain ⟨l, ls, h1, h2⟩ := cut_cons t T (fun e => h (e ▸ List.mem_cons_self))
    rw [ih (fun e => h (List.mem_cons_of_mem _ e))] at h1
    injection h1 with h1 h3
    subst h1 h3
    exact h2

theorem cut_NL (T s : List Tok) (h : Tok.ch '\n' ∉ T) : cut (T ++ .ch '\n' :: s) = T :: cut s := by
  induction T with
  | nil => rfl
  | cons t T ih =>
    obtain ⟨l, ls, h1, h2⟩ := cut_cons t (T ++ .ch '\n' :: s) (fun e => h (e ▸ List.mem_cons_self))
    rw [ih (fun e => h (List.mem_cons_of_mem _ e))] at h1
    injection h1 with h1 h3
    subst h1 h3
    exact h2

theorem logicalLines_space (c : Char) (s : Str) (h : isSpace c = true) :
    logicalLines (c :: s) = logicalLines s := by
  have hc : c ≠ '\\' := by rintro rfl; revert h; decide
  unfold logicalLines
  rw [toks_cons c s (fun e => absurd e hc)]
  by_cases hn : c = '\n'
  · subst hn
    rfl
  · obtain ⟨l, ls, h1, h2⟩ := cut_cons (.ch c) (toks s) (by simpa using hn)
    rw [h1, h2, List.filterMap_cons, List.filterMap_cons]
    have : logical (.ch c :: l) = logical l := by
      unfold logical
      rw [List.dropWhile_cons, if_pos (by exact h)]
    rw [this]

/-! ### finding the end of a line -/

/-- Every string without NUL bytes is one line without newline, or has a first newline. -/
theorem firstNL (s : Str) : '\n' ∉ s ∨ ∃ b a, s = b ++ '\n' :: a ∧ '\n' ∉ b := by
  induction s with
  | nil => left; simp
  | cons c s ih =>
    by_cases hc : c = '\n'
    · right; exact ⟨[], s, by simp [hc], by simp⟩
    · rcases ih with h | ⟨b, a, h, hb⟩
      · left; simp [Ne.symm hc, h]
      · right; exact ⟨c :: b, a, by simp [h], by simp [Ne.symm hc, hb]⟩

theorem getNewline_line (b a : Str) (t : Char) (ht : t = '\n' ∨ t = '\x00') (hb : '\n' ∉ b) (h0 : '\x00' ∉ b) :
    getNewline (b ++ t :: a) = some (b, t, a) := by
  induction b with
  | nil => rw [List.nil_append, getNewline, if_pos ht]
  | cons c b ih =>
    rw [List.cons_append, getNewline, if_neg, ih]
    · rfl
    · exact fun h => hb (List.mem_cons_of_mem _ h)
    · exact fun h => h0 (List.mem_cons_of_mem _ h)
    · rintro (rfl | rfl)
      · exact hb List.mem_cons_self
      · exact h0 List.mem_cons_self

theorem getNewline_none (b : Str) (hb : '\n' ∉ b) (h0 : '\x00' ∉ b) : getNewline b = none := by
  induction b with
  | nil => rfl
  | cons c b ih =>
    rw [getNewline, if_neg, ih]
    · rfl
    · exact fun h => hb (List.mem_cons_of_mem _ h)
    · exact fun h => h0 (List.mem_cons_of_mem _ h)
    · rintro (rfl | rfl)
      · exact hb List.mem_cons_self
      · exact h0 List.mem_cons_self

/-- The bytes before the line and the blanked part of the line do not matter for a continuation. -/
theorem continued_eq (before pre b : Str)
    (hp : (∃ q, pre = q ++ [' ', ' ']) ∨ pre = [] ∧ ∃ c b', b = c :: b' ∧ isSpace c = false ∧
      (c = '\\' ∨ before ≠ [] ∨ b' ≠ [])) :
    continued before (pre ++ b) = some (endsBS b) := by
  unfold continued endsBS
  rcases hp with ⟨q, rfl⟩ | ⟨rfl, c, b', rfl, hc, hne⟩
  · simp only [List.reverse_append, List.append_assoc]
    generalize b.reverse = r
    match r with
    | [] => simp
    | [d] =>
      by_cases hd : d = '\\'
      · subst hd; rfl
      · simp only [List.cons_append, List.nil_append]
        split
        · next h => simp at h
        · next h => simp at h; exact absurd h.1 hd
        · next h => simp at h
        · next h => simp at h; rw [← h.2.1]; split <;> simp_all
    | d :: e :: r =>
      by_cases hd : d = '\\'
      · subst hd; rfl
      · simp only [List.cons_append, List.nil_append]
  · simp only [List.nil_append, List.reverse_append, List.reverse_cons]
    have hcr : c ≠ '\r' := by rintro rfl; revert hc; decide
    cases hr : b'.reverse with
    | nil =>
      simp only [List.nil_append, List.cons_append]
      have hb' : b' = [] := by simpa using hr
      by_cases hd : c = '\\'
      · subst hd; rfl
      · have hbn : before ≠ [] := by
          rcases hne with h | h | h
          · exact absurd h hd
          · exact h
          · exact absurd hb' h
        cases hbr : before.reverse with
        | nil => exact absurd (by simpa using hbr) hbn
        | cons x y =>
          split
          · next h => simp at h
          · next h => simp at h; exact absurd h.1 hd
          · next h => simp at h
          · next h => simp at h; rw [← h.1]; split <;> simp_all
    | cons d r =>
      by_cases hd : d = '\\'
      · subst hd; rfl
      · simp only [List.cons_append]
        cases r with
        | nil =>
          simp only [List.cons_append, List.nil_append]
        | cons e r =>
          simp only [List.cons_append]

theorem map_char (b : Str) : (b.map Tok.ch).map Tok.char = b := by
  induction b with
  | nil => rfl
  | cons c b ih => simp [Tok.char, ih]

theorem ch_mem {b : Str} (h : '\n' ∉ b) : Tok.ch '\n' ∉ b.map Tok.ch := by
  simpa using h

/-- What `extend` gives for a line whose first bytes `pre` are already blanked. -/
def Ends (s pre : Str) (r : Option (Str × Char × Str)) : Prop :=
  (endsBS s = true ∧ r = none) ∨
  (∃ T s', toks s = T ++ .ch '\n' :: toks s' ∧ Tok.ch '\n' ∉ T ∧ endsBS s' = endsBS s ∧ s'.length < s.length ∧
    (∀ c ∈ s', c ∈ s) ∧ r = some (pre ++ T.map Tok.char, '\n', s' ++ ['\x00'])) ∨
  (∃ T, toks s = T ∧ Tok.ch '\n' ∉ T ∧ endsBS s = false ∧ r = some (pre ++ T.map Tok.char, '\x00', []))

theorem Ends.more {pre x s : Str} {r T0}
    (hs : Ends s (pre ++ T0.map Tok.char) r) (ht : toks x = T0 ++ toks s) (hT : Tok.ch '\n' ∉ T0)
    (he : endsBS s = endsBS x) (hl : s.length < x.length) (hm : ∀ c ∈ s, c ∈ x) :
    Ends x pre r := by
  rcases hs with ⟨h1, h2⟩ | ⟨T, s', h1, h2, h3, h4, h5, h6⟩ | ⟨T, h1, h2, h3, h4⟩
  · exact .inl ⟨he ▸ h1, h2⟩
  · refine .inr (.inl ⟨T0 ++ T, s', by rw [ht, h1, List.append_assoc], ?_, by rw [h3, he], by omega,
      fun c hc => hm c (h5 c hc), by rw [h6]; simp⟩)
    intro h
    rcases List.mem_append.1 h with h | h
    · exact hT h
    · exact h2 h
  · refine .inr (.inr ⟨T0 ++ T, by rw [ht, h1], ?_, by rw [← he, h3], by rw [h4]; simp⟩)
    intro h
    rcases List.mem_append.1 h with h | h
    · exact hT h
    · exact h2 h

/-- `extend` on a line, its blanked part being `pre`, its physical rest beginning with `s`. -/
theorem extend_ends (before : Str) (n : Nat) : ∀ (s : Str) (pre : Str), s.length ≤ n →
    '\x00' ∉ s → '\n' ∉ pre → '\x00' ∉ pre →
    ((∃ q, pre = q ++ [' ', ' ']) ∨ pre = [] ∧ ∃ c b', s = c :: b' ∧ isSpace c = false ∧
      (c = '\\' ∨ before ≠ [] ∨ ∃ d b'', b' = d :: b'' ∧ d ≠ '\n')) →
    ∀ (body : Str) (term : Char) (after : Str) (fuel : Nat),
    getNewline (pre ++ s ++ ['\x00']) = some (body, term, after) → after.length < fuel →
    Ends s pre (extend before fuel body term after) := by
  induction n with
  | zero => 
    intro s pre hl h0 hpn hp0 hp body term after fuel hg hf
    have hs : s = [] := List.eq_nil_of_length_eq_zero (by omega)
    subst hs
    rcases hp with hp | ⟨_, c, b', h, _⟩
    · rw [List.append_nil, getNewline_line pre [] _ (.inr rfl) hpn hp0] at hg
      simp only [Option.some.injEq, Prod.mk.injEq] at hg
      obtain ⟨rfl, rfl, rfl⟩ := hg
      match fuel, hf with
      | fuel + 1, _ =>
        rw [extend]
        have := continued_eq before pre [] (.inl hp)
        rw [List.append_nil] at this
        rw [this]
        exact .inr (.inr ⟨[], rfl, by simp, rfl, by simp [endsBS]⟩)
    · cases h
  | succ n ih =>
    intro s pre hl h0 hpn hp0 hp body term after fuel hg hf
    obtain ⟨fuel, rfl⟩ : ∃ k, fuel = k + 1 := ⟨fuel - 1, by omega⟩
    rcases firstNL s with hnl | ⟨b, a, rfl, hb⟩
    · -- the last line of the file
      have hpb : '\n' ∉ pre ++ s := by simp [hpn, hnl]
      have hpb0 : '\x00' ∉ pre ++ s := by simp [hp0, h0]
      rw [getNewline_line (pre ++ s) [] _ (.inr rfl) hpb hpb0] at hg
      simp only [Option.some.injEq, Prod.mk.injEq] at hg
      obtain ⟨rfl, rfl, rfl⟩ := hg
      have hcont : continued before (pre ++ s) = some (endsBS s) := by
        apply continued_eq
        rcases hp with hp | ⟨h, c, b', hs, hc, hh⟩
        · exact .inl hp
        · refine .inr ⟨h, c, b', hs, hc, ?_⟩
          rcases hh with h | h | ⟨d, b'', h, _⟩
          · exact .inl h
          · exact .inr (.inl h)
          · exact .inr (.inr (by rw [h]; simp))
      rw [extend, hcont]
      cases he : endsBS s with
      | false => exact .inr (.inr ⟨toks s, rfl, by rw [toks_noNL s hnl]; exact ch_mem hnl, he,
          by rw [toks_noNL s hnl, map_char]⟩)
      | true =>
        left
        refine ⟨he, ?_⟩
        dsimp only
        rw [getNewline_none]
        · intro h
          rcases List.mem_append.1 h with h | h
          · rcases List.mem_append.1 h with h | h
            · exact hpb (List.mem_of_mem_take h)
            · have := List.eq_of_mem_replicate h; revert this; decide
          · simp at h
        · intro h
          rcases List.mem_append.1 h with h | h
          · rcases List.mem_append.1 h with h | h
            · exact hpb0 (List.mem_of_mem_take h)
            · have := List.eq_of_mem_replicate h; revert this; decide
          · simp at h
    · -- a line with a newline
      have hb0 : '\x00' ∉ b := fun h => h0 (List.mem_append_left _ h)
      have ha0 : '\x00' ∉ a := fun h => h0 (List.mem_append_right _ (List.mem_cons_of_mem _ h))
      have hpb : '\n' ∉ pre ++ b := by simp [hpn, hb]
      have hpb0 : '\x00' ∉ pre ++ b := by simp [hp0, hb0]
      have hg' : pre ++ (b ++ '\n' :: a) ++ ['\x00'] = (pre ++ b) ++ '\n' :: (a ++ ['\x00']) := by simp
      rw [hg', getNewline_line (pre ++ b) _ _ (.inl rfl) hpb hpb0] at hg
      simp only [Option.some.injEq, Prod.mk.injEq] at hg
      obtain ⟨rfl, rfl, rfl⟩ := hg
      have hcont : continued before (pre ++ b) = some (endsBS b) := by
        apply continued_eq
        rcases hp with hp | ⟨h, c, b', hs, hc, hh⟩
        · exact .inl hp
        · cases b with
          | nil =>
            injection hs with hs _
            subst hs
            exact absurd hc (by decide)
          | cons c' b =>
            injection hs with hs hs'
            subst hs
            refine .inr ⟨h, c', b, rfl, hc, ?_⟩
            rcases hh with h | h | ⟨d, b'', h, hd⟩
            · exact .inl h
            · exact .inr (.inl h)
            · refine .inr (.inr ?_)
              rintro rfl
              rw [h] at hs'
              injection hs' with hs' _
              exact hd hs'.symm
      rw [extend, hcont]
      have hlen : a.length ≤ n := by
        simp only [List.length_append, List.length_cons] at hl; omega
      have hf' : a.length < fuel := by
        simp only [List.length_append, List.length_cons, List.length_nil] at hf; omega
      cases he : endsBS b with
      | false => exact .inr (.inl ⟨b.map .ch, a, toks_line b a hb he, ch_mem hb, (endsBS_nl b a).symm,
          by simp; omega, fun c hc => List.mem_append_right _ (List.mem_cons_of_mem _ hc), by rw [map_char]⟩)
      | true =>
        dsimp only
        rcases endsBS_true he with ⟨x, rfl⟩ | ⟨x, rfl⟩
        · have hx : '\n' ∉ x := fun h => hb (List.mem_append_left _ h)
          have hx0 : '\x00' ∉ x := fun h => hb0 (List.mem_append_left _ h)
          have hbl : blank 1 (pre ++ (x ++ ['\\'])) ++ ' ' :: (a ++ ['\x00']) =
              (pre ++ x ++ [' ', ' ']) ++ a ++ ['\x00'] := by
            have : (pre ++ (x ++ ['\\'])).take ((pre ++ (x ++ ['\\'])).length - 1) = pre ++ x := by
              rw [show pre ++ (x ++ ['\\']) = (pre ++ x) ++ ['\\'] by simp]
              rw [show ((pre ++ x) ++ ['\\']).length - 1 = (pre ++ x).length by simp]
              exact List.take_left' rfl
            unfold blank
            rw [this]
            simp
          rw [if_neg (by simp), hbl]
          cases hgn : getNewline (pre ++ x ++ [' ', ' '] ++ a ++ ['\x00']) with
          | none =>
            exfalso
            rcases firstNL a with h | ⟨b2, a2, rfl, hb2⟩
            · rw [getNewline_line _ [] _ (.inr rfl)] at hgn
              · cases hgn
              · simp [hpn, hx, h]
              · simp [hp0, hx0, ha0]
            · rw [show pre ++ x ++ [' ', ' '] ++ (b2 ++ '\n' :: a2) ++ ['\x00'] =
                (pre ++ x ++ [' ', ' '] ++ b2) ++ '\n' :: (a2 ++ ['\x00']) by simp,
                getNewline_line _ _ _ (.inl rfl)] at hgn
              · cases hgn
              · simp [hpn, hx, hb2]
              · have : '\x00' ∉ b2 := fun h => ha0 (List.mem_append_left _ h)
                simp [hp0, hx0, this]
          | some r =>
            obtain ⟨body', term', after'⟩ := r
            have hal : after'.length < fuel := by
              rcases firstNL a with h | ⟨b2, a2, rfl, hb2⟩
              · rw [getNewline_line _ [] _ (.inr rfl)] at hgn
                · simp only [Option.some.injEq, Prod.mk.injEq] at hgn
                  rw [← hgn.2.2]; simp; omega
                · simp [hpn, hx, h]
                · simp [hp0, hx0, ha0]
              · rw [show pre ++ x ++ [' ', ' '] ++ (b2 ++ '\n' :: a2) ++ ['\x00'] =
                  (pre ++ x ++ [' ', ' '] ++ b2) ++ '\n' :: (a2 ++ ['\x00']) by simp,
                  getNewline_line _ _ _ (.inl rfl)] at hgn
                · simp only [Option.some.injEq, Prod.mk.injEq] at hgn
                  rw [← hgn.2.2]; simp at hf' ⊢; omega
                · simp [hpn, hx, hb2]
                · have : '\x00' ∉ b2 := fun h => ha0 (List.mem_append_left _ h)
                  simp [hp0, hx0, this]
            have := ih a (pre ++ x ++ [' ', ' ']) hlen ha0 (by simp [hpn, hx]) (by simp [hp0, hx0])
              (.inl ⟨pre ++ x, rfl⟩) body' term' after' fuel hgn hal
            refine Ends.more (T0 := x.map .ch ++ [.gap, .gap]) ?_ (by rw [toks_bs x a hx]; simp) ?_
              (endsBS_nl _ a).symm (by simp; omega)
              (fun c hc => List.mem_append_right _ (List.mem_cons_of_mem _ hc))
            · rw [show (x.map Tok.ch ++ [Tok.gap, Tok.gap]).map Tok.char = x ++ [' ', ' '] by
                rw [List.map_append, map_char]; rfl]
              rw [← List.append_assoc]
              exact this
            · simpa using hx
        · have hx : '\n' ∉ x := fun h => hb (List.mem_append_left _ h)
          have hx0 : '\x00' ∉ x := fun h => hb0 (List.mem_append_left _ h)
          have hbl : blank 2 (pre ++ (x ++ ['\\', '\r'])) ++ ' ' :: (a ++ ['\x00']) =
              (pre ++ x ++ [' ', ' ', ' ']) ++ a ++ ['\x00'] := by
            have : (pre ++ (x ++ ['\\', '\r'])).take ((pre ++ (x ++ ['\\', '\r'])).length - 2) = pre ++ x := by
              rw [show pre ++ (x ++ ['\\', '\r']) = (pre ++ x) ++ ['\\', '\r'] by simp]
              rw [show ((pre ++ x) ++ ['\\', '\r']).length - 2 = (pre ++ x).length by simp; omega]
              exact List.take_left' rfl
            unfold blank
            rw [this]
            simp [List.replicate]
          rw [if_pos (by simp [List.getLast?_append]), hbl]
          cases hgn : getNewline (pre ++ x ++ [' ', ' ', ' '] ++ a ++ ['\x00']) with
          | none =>
            exfalso
            rcases firstNL a with h | ⟨b2, a2, rfl, hb2⟩
            · rw [getNewline_line _ [] _ (.inr rfl)] at hgn
              · cases hgn
              · simp [hpn, hx, h]
              · simp [hp0, hx0, ha0]
            · rw [show pre ++ x ++ [' ', ' ', ' '] ++ (b2 ++ '\n' :: a2) ++ ['\x00'] =
                (pre ++ x ++ [' ', ' ', ' '] ++ b2) ++ '\n' :: (a2 ++ ['\x00']) by simp,
                getNewline_line _ _ _ (.inl rfl)] at hgn
              · cases hgn
              · simp [hpn, hx, hb2]
              · have : '\x00' ∉ b2 := fun h => ha0 (List.mem_append_left _ h)
                simp [hp0, hx0, this]
          | some r =>
            obtain ⟨body', term', after'⟩ := r
            have hal : after'.length < fuel := by
              rcases firstNL a with h | ⟨b2, a2, rfl, hb2⟩
              · rw [getNewline_line _ [] _ (.inr rfl)] at hgn
                · simp only [Option.some.injEq, Prod.mk.injEq] at hgn
                  rw [← hgn.2.2]; simp; omega
                · simp [hpn, hx, h]
                · simp [hp0, hx0, ha0]
              · rw [show pre ++ x ++ [' ', ' ', ' '] ++ (b2 ++ '\n' :: a2) ++ ['\x00'] =
                  (pre ++ x ++ [' ', ' ', ' '] ++ b2) ++ '\n' :: (a2 ++ ['\x00']) by simp,
                  getNewline_line _ _ _ (.inl rfl)] at hgn
                · simp only [Option.some.injEq, Prod.mk.injEq] at hgn
                  rw [← hgn.2.2]; simp at hf' ⊢; omega
                · simp [hpn, hx, hb2]
                · have : '\x00' ∉ b2 := fun h => ha0 (List.mem_append_left _ h)
                  simp [hp0, hx0, this]
            have := ih a (pre ++ x ++ [' ', ' ', ' ']) hlen ha0 (by simp [hpn, hx]) (by simp [hp0, hx0])
              (.inl ⟨pre ++ x ++ [' '], by simp⟩) body' term' after' fuel hgn hal
            refine Ends.more (T0 := x.map .ch ++ [.gap, .gap, .gap]) ?_
              (by rw [toks_bscr x a hx]; simp) ?_ (endsBS_nl _ a).symm (by simp; omega)
              (fun c hc => List.mem_append_right _ (List.mem_cons_of_mem _ hc))
            · rw [show (x.map Tok.ch ++ [Tok.gap, Tok.gap, Tok.gap]).map Tok.char = x ++ [' ', ' ', ' '] by
                rw [List.map_append, map_char]; rfl]
              rw [← List.append_assoc]
              exact this
            · simpa using hx

end Tup.Lines
