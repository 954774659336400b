import Verif.Rules.Spec

namespace Tup.Rules

theorem trimEnd_cons {c : Char} (hc : isSpace c = false) (t : Str) : trimEnd (c :: t) = c :: trimEnd t := by
  obtain ⟨w, h1, h2⟩ := trimEnd_split t
  have : c :: t = (c :: trimEnd t) ++ w := by rw [List.cons_append, ← h2]
  rw [this]
  refine trimEnd_append h1 ?_
  intro d hd
  cases ht : trimEnd t with
  | nil =>
    rw [ht] at hd
    simp only [List.getLast?_singleton, Option.some.injEq] at hd
    rw [← hd]; exact hc
  | cons e l =>
    rw [ht, List.getLast?_cons_cons] at hd
    exact trimEnd_last d (by rw [ht]; exact hd)

theorem trimTail_eq {s : Str} (h : ∀ c, s.head? = some c → isSpace c = false) : trimTail s = trimEnd s := by
  cases s with
  | nil => rfl
  | cons c t => rw [trimEnd_cons (h c rfl)]; rfl

theorem trimEnd_head {s : Str} (h : ∀ c, s.head? = some c → isSpace c = false) :
    ∀ c, (trimEnd s).head? = some c → isSpace c = false := by
  intro c hc
  obtain ⟨w, _, h2⟩ := trimEnd_split s
  refine h c ?_
  rw [h2]
  cases ht : trimEnd s with
  | nil => rw [ht] at hc; cases hc
  | cons d t => rw [ht] at hc; exact hc

theorem trims_trim (s : Str) : Trims s (trimTail (skipSpaces s)) := by
  rw [trimTail_eq skipSpaces_head]
  refine ⟨⟨trimEnd_head skipSpaces_head, trimEnd_last⟩, ?_⟩
  obtain ⟨a, h1, h2⟩ := skipSpaces_split s
  obtain ⟨b, h3, h4⟩ := trimEnd_split (skipSpaces s)
  exact ⟨a, b, h1, h3, by rw [List.append_assoc, ← h4, ← h2]⟩

theorem trims_eq {s t : Str} (h : Trims s t) : t = trimTail (skipSpaces s) := by
  obtain ⟨⟨h1, h2⟩, a, b, ha, hb, rfl⟩ := h
  rw [trimTail_eq skipSpaces_head, List.append_assoc, skipSpaces_append ha]
  cases t with
  | nil =>
    have := skipSpaces_append (w := b) (s := []) hb
    rw [List.append_nil] at this
    rw [List.nil_append, this]
    rfl
  | cons c t =>
    rw [skipSpaces_of (s := c :: t ++ b) (fun d hd => h1 d hd), trimEnd_append hb h2]

/-- Skipping white space leaves nothing exactly if trimming leaves nothing. -/
theorem skipSpaces_nil_iff (s : Str) : skipSpaces s = [] ↔ trimTail (skipSpaces s) = [] := by
  cases skipSpaces s <;> simp [trimTail]

theorem binLoop_none {s : Str} : ∀ {pre : Str}, (∀ a b, s = a ++ b → ¬ BinAt (pre ++ a) b) →
    binLoop pre.reverse s = .ok (pre ++ s, none) := by
  induction s with
  | nil => intro pre _; simp [binLoop]
  | cons c t ih =>
    intro pre h
    rw [binLoop, if_neg]
    · have := ih (pre := pre ++ [c]) (fun a b he => by
        rw [List.append_assoc]
        exact h (c :: a) b (by rw [he]; rfl))
      rw [List.reverse_append] at this
      simpa using this
    · rintro ⟨rfl, hp⟩
      apply h [] ('{' :: t) rfl
      rw [List.append_nil]
      refine ⟨rfl, ?_⟩
      rcases hp with hp | ⟨d, hd, hs⟩
      · left; simpa using hp
      · right
        rw [List.head?_reverse] at hd
        exact ⟨d, hd, hs⟩

theorem binLoop_some {a : Str} : ∀ {pre t : Str}, (∀ x y, a = x ++ y → ¬ BinAt (pre ++ x) y) →
    BinAt (pre ++ a) ('{' :: t) →
    binLoop pre.reverse (a ++ '{' :: t) =
      match strchr '}' t with
      | none => .error .noBrace
      | some (bin, after) =>
        if after ≠ [] then .error .textBehindBin else .ok (trimTail (pre ++ a), some bin) := by
  induction a with
  | nil =>
    intro pre t _ hb
    rw [List.append_nil] at hb
    rw [List.nil_append, binLoop, if_pos]
    · rw [List.reverse_reverse, List.append_nil]; rfl
    · refine ⟨rfl, ?_⟩
      rcases hb.2 with hp | ⟨d, hd, hs⟩
      · left; rw [hp]; rfl
      · right
        exact ⟨d, by rw [List.head?_reverse]; exact hd, hs⟩
  | cons c a ih =>
    intro pre t h hb
    rw [List.cons_append, binLoop, if_neg]
    · have := ih (pre := pre ++ [c]) (t := t) (fun x y he => by
        rw [List.append_assoc]
        exact h (c :: x) y (by rw [he]; rfl)) (by rw [List.append_assoc]; exact hb)
      rw [List.reverse_append] at this
      simpa using this
    · rintro ⟨rfl, hp⟩
      apply h [] ('{' :: a) rfl
      rw [List.append_nil]
      refine ⟨rfl, ?_⟩
      rcases hp with hp | ⟨d, hd, hs⟩
      · left; simpa using hp
      · right
        rw [List.head?_reverse] at hd
        exact ⟨d, hd, hs⟩

/-- Either no bin begins, or there is a first place where one begins. -/
theorem firstBin (s : Str) : ∀ pre : Str, (∀ a b, s = a ++ b → ¬ BinAt (pre ++ a) b) ∨
    ∃ a t, s = a ++ '{' :: t ∧ BinAt (pre ++ a) ('{' :: t) ∧ ∀ x y, a = x ++ y → ¬ BinAt (pre ++ x) y := by
  induction s with
  | nil =>
    intro pre
    left
    intro a b he hb
    have : b = [] := (List.append_eq_nil_iff.1 he.symm).2
    rw [this] at hb
    exact absurd hb.1 (by simp)
  | cons c s ih =>
    intro pre
    by_cases h : BinAt pre (c :: s)
    · right
      have hc : c = '{' := by simpa using h.1
      subst hc
      refine ⟨[], s, rfl, by rw [List.append_nil]; exact h, ?_⟩
      intro x y he hb
      have : y = [] := (List.append_eq_nil_iff.1 he.symm).2
      rw [this] at hb
      exact absurd hb.1 (by simp)
    · rcases ih (pre ++ [c]) with h1 | ⟨a, t, rfl, h2, h3⟩
      · left
        intro a b he
        cases a with
        | nil =>
          rw [List.append_nil, ← List.nil_append b, ← he]
          exact h
        | cons d a =>
          simp only [List.cons_append, List.cons.injEq] at he
          have := h1 a b he.2
          rw [List.append_assoc] at this
          rw [← he.1]
          exact this
      · right
        refine ⟨c :: a, t, rfl, by rw [List.append_assoc] at h2; exact h2, ?_⟩
        intro x y he
        cases x with
        | nil =>
          rw [List.nil_append] at he
          rw [← he, List.append_nil]
          intro hb
          exact h ⟨hb.1, hb.2⟩
        | cons d x =>
          simp only [List.cons_append, List.cons.injEq] at he
          have := h3 x y he.2
          rw [List.append_assoc] at this
          rw [← he.1]
          exact this

/-- No bin begins in white space at the end. -/
theorem noBin_append_blank {o w : Str} (hw : Blank w) (h : ∀ a b, o = a ++ b → ¬ BinAt a b) :
    ∀ a b, o ++ w = a ++ b → ¬ BinAt a b := by
  intro a b he hb
  rcases List.append_eq_append_iff.1 he with ⟨m, h1, h2⟩ | ⟨m, h1, h2⟩
  · have : '{' ∈ w := by
      rw [h2]
      have := List.mem_of_head? hb.1
      exact List.mem_append_right _ this
    exact absurd (hw _ this) (by decide)
  · have hm : m ≠ [] := by
      rintro rfl
      have : '{' ∈ w := by
        rw [List.nil_append] at h2
        rw [← h2]
        exact List.mem_of_head? hb.1
      exact absurd (hw _ this) (by decide)
    apply h a m h1
    refine ⟨?_, hb.2⟩
    have := hb.1
    rw [h2] at this
    cases m with
    | nil => exact absurd rfl hm
    | cons c m => exact this

theorem noBin_prefix {o w : Str} (h : ∀ a b, o ++ w = a ++ b → ¬ BinAt a b) :
    ∀ a b, o = a ++ b → ¬ BinAt a b := by
  intro a b he hb
  apply h a (b ++ w) (by rw [he, List.append_assoc])
  refine ⟨?_, hb.2⟩
  cases b with
  | nil => exact absurd hb.1 (by simp)
  | cons c b => exact hb.1

theorem split_two {I C O : Str} (hI : ¬ Occurs "|>".toList I) (hC : ¬ Occurs "|>".toList C) :
    split (I ++ "|>".toList ++ C ++ "|>".toList ++ O) =
      (binLoop [] (skipSpaces O)).map fun o =>
        ⟨nonEmpty (trimTail (skipSpaces I)), trimTail (skipSpaces C), o.1, o.2⟩ := by
  have e1 : strstr "|>".toList (I ++ "|>".toList ++ C ++ "|>".toList ++ O) = some (I, C ++ "|>".toList ++ O) := by
    have := strstr_pair (x := '|') (y := '>') (by decide) (a := I) (b := C ++ "|>".toList ++ O) hI
    rw [← this]
    congr 1
    simp [List.append_assoc]
  have e2 : strstr "|>".toList (C ++ "|>".toList ++ O) = some (C, O) :=
    strstr_pair (x := '|') (y := '>') (by decide) hC
  unfold split
  rw [e1]
  simp only [e2]
  congr 1
  funext o
  congr 1
  unfold nonEmpty
  by_cases h : skipSpaces I = []
  · rw [if_pos h, if_pos ((skipSpaces_nil_iff I).1 h)]
  · rw [if_neg h, if_neg (fun h' => h ((skipSpaces_nil_iff I).2 h'))]

theorem split_iff (p : Str) (r : Parts) : split p = .ok r ↔ RuleForm p r := by
  constructor
  · intro h
    cases h1 : strstr "|>".toList p with
    | none => unfold split at h; rw [h1] at h; cases h
    | some q =>
      obtain ⟨I, b⟩ := q
      cases h2 : strstr "|>".toList b with
      | none => unfold split at h; rw [h1] at h; simp only [h2] at h; cases h
      | some q' =>
        obtain ⟨C, O⟩ := q'
        obtain ⟨rfl, hI⟩ := strstr_some h1
        obtain ⟨rfl, hC⟩ := strstr_some h2
        have hI' : ¬ Occurs "|>".toList I := by
          rintro ⟨x, y, rfl⟩
          have := hI x (y ++ "|>".toList ++ (C ++ "|>".toList ++ O)) (by simp [List.append_assoc])
          simp only [List.length_append] at this
          have h2 : "|>".toList.length = 2 := rfl
          omega
        have hC' : ¬ Occurs "|>".toList C := by
          rintro ⟨x, y, rfl⟩
          have := hC x (y ++ "|>".toList ++ O) (by simp [List.append_assoc])
          simp only [List.length_append] at this
          have h2 : "|>".toList.length = 2 := rfl
          omega
        have e : I ++ "|>".toList ++ (C ++ "|>".toList ++ O) = I ++ "|>".toList ++ C ++ "|>".toList ++ O := by
          simp [List.append_assoc]
        rw [e] at h ⊢
        rw [split_two hI' hC'] at h
        obtain ⟨w, hw, hO⟩ := skipSpaces_split O
        have hhead := @skipSpaces_head O
        generalize skipSpaces O = o at h hO hhead
        subst hO
        rcases firstBin o [] with hn | ⟨a, t, rfl, hb, hn⟩
        · rw [show ([] : Str) = ([] : Str).reverse from rfl, binLoop_none hn] at h
          simp only [Except.map, List.nil_append, Except.ok.injEq] at h
          subst h
          rw [← List.append_assoc]
          exact .plain hI' hC' (trims_trim I) (trims_trim C) hw hhead (by simpa using hn)
        · rw [show ([] : Str) = ([] : Str).reverse from rfl, binLoop_some hn hb] at h
          cases h3 : strchr '}' t with
          | none => rw [h3] at h; cases h
          | some q =>
            obtain ⟨bin, after⟩ := q
            rw [h3] at h
            simp only [ne_eq, ite_not] at h
            split at h
            · next hafter =>
              subst hafter
              obtain ⟨rfl, hbin⟩ := strchr_some h3
              simp only [Except.map, List.nil_append, Except.ok.injEq] at h
              subst h
              simp only [List.nil_append] at hn hb
              have hah : ∀ c, a.head? = some c → isSpace c = false := by
                intro c hc
                apply hhead
                cases a with
                | nil => cases hc
                | cons d a => exact hc
              obtain ⟨w', hw', ha⟩ := trimEnd_split a
              rw [trimTail_eq hah]
              have hform : ∀ o, o = trimEnd a → a = o ++ w' → RuleForm
                  (I ++ "|>".toList ++ C ++ "|>".toList ++ (w ++ (a ++ '{' :: (bin ++ ['}']))))
                  ⟨nonEmpty (trimTail (skipSpaces I)), trimTail (skipSpaces C), o, some bin⟩ := by
                intro o ho hao
                have e2 : I ++ "|>".toList ++ C ++ "|>".toList ++ (w ++ (a ++ '{' :: (bin ++ ['}']))) =
                    I ++ "|>".toList ++ C ++ "|>".toList ++ w ++ o ++ w' ++ "{".toList ++ bin ++ "}".toList := by
                  rw [hao]; simp [List.append_assoc]
                rw [e2]
                refine .bin hI' hC' (trims_trim I) (trims_trim C) hw ?_ hw' ?_ ?_ hbin
                · rw [ho]; exact ⟨trimEnd_head hah, trimEnd_last⟩
                · intro ho' hw0
                  rw [hw0, List.append_nil] at hao
                  rcases hb.2 with ha0 | ⟨d, hd, hs⟩
                  · rw [ha0] at hao; exact ho' hao.symm
                  · rw [hao, ho] at hd
                    rw [trimEnd_last d hd] at hs
                    cases hs
                · rw [hao] at hn
                  exact noBin_prefix hn
              exact hform _ rfl ha
            · cases h
  · intro h
    cases h with
    | @plain I i C c w o hI hC hi hc hw ho hn =>
      rw [List.append_assoc (I ++ "|>".toList ++ C ++ "|>".toList), split_two hI hC, skipSpaces_append hw,
        skipSpaces_of ho, show ([] : Str) = ([] : Str).reverse from rfl, binLoop_none (by simpa using hn),
        ← trims_eq hi, ← trims_eq hc]
      rfl
    | @bin I i C c w o w' b hI hC hi hc hw ho hw' how hn hb =>
      have e : I ++ "|>".toList ++ C ++ "|>".toList ++ w ++ o ++ w' ++ "{".toList ++ b ++ "}".toList =
          I ++ "|>".toList ++ C ++ "|>".toList ++ (w ++ (o ++ w' ++ '{' :: (b ++ ['}']))) := by
        simp [List.append_assoc]
      rw [e, split_two hI hC, skipSpaces_append hw, ← trims_eq hi, ← trims_eq hc]
      by_cases ho0 : o = []
      · subst ho0
        rw [List.nil_append, skipSpaces_append hw', skipSpaces_of (fun c hc => by
          simp only [List.head?_cons, Option.some.injEq] at hc
          rw [← hc]; decide)]
        have hb1 : BinAt ([] ++ []) ('{' :: (b ++ ['}'])) := ⟨rfl, .inl rfl⟩
        have := binLoop_some (a := []) (pre := []) (t := b ++ ['}']) (fun x y he hb => by
          have : y = [] := (List.append_eq_nil_iff.1 he.symm).2
          rw [this] at hb
          exact absurd hb.1 (by simp)) hb1
        rw [List.reverse_nil, List.nil_append] at this
        rw [this, strchr_append hb]
        rfl
      · obtain ⟨ch, ot, rfl⟩ := List.exists_cons_of_ne_nil ho0
        rw [skipSpaces_of (s := ch :: ot ++ w' ++ '{' :: (b ++ ['}'])) (fun c hc => ho.1 c hc)]
        have hw0 := how ho0
        have hb1 : BinAt ([] ++ (ch :: ot ++ w')) ('{' :: (b ++ ['}'])) := by
          refine ⟨rfl, .inr ?_⟩
          obtain ⟨d, hd⟩ : ∃ d, w'.getLast? = some d := by
            cases hl : w'.getLast? with
            | none => exact absurd (List.getLast?_eq_none_iff.1 hl) hw0
            | some d => exact ⟨d, rfl⟩
          refine ⟨d, ?_, hw' d (List.mem_of_getLast? hd)⟩
          rw [List.nil_append, List.getLast?_append, hd]
          rfl
        have := binLoop_some (a := ch :: ot ++ w') (pre := []) (t := b ++ ['}'])
          (by simpa using noBin_append_blank hw' hn) hb1
        rw [List.reverse_nil] at this
        rw [this, strchr_append hb]
        have e3 : trimTail (ch :: ot ++ w') = ch :: ot := by
          rw [trimTail_eq (s := ch :: ot ++ w') (fun c hc => ho.1 c hc)]
          exact trimEnd_append hw' ho.2
        simp only [ne_eq, not_true_eq_false, if_false, List.nil_append, e3]
        rfl

/-! ### Command strings -/

theorem takeDrop_flags {f t : Str} {x : Char} (hs : ' ' ∉ f) (hc : '^' ∉ f) (hx : x = ' ' ∨ x = '^') :
    (f ++ x :: t).takeWhile flagChar = f ∧
    (f ++ x :: t).dropWhile flagChar = x :: t := by
  induction f with
  | nil => rcases hx with rfl | rfl <;> exact ⟨rfl, rfl⟩
  | cons c f ih =>
    rw [List.mem_cons, not_or] at hs hc
    obtain ⟨h1, h2⟩ := ih hs.2 hc.2
    have hp : flagChar c = true := by
      simp only [flagChar, Bool.and_eq_true, bne_iff_ne, ne_eq]
      exact ⟨Ne.symm hs.1, Ne.symm hc.1⟩
    rw [List.cons_append, List.takeWhile_cons_of_pos hp, List.dropWhile_cons_of_pos hp, h1, h2]
    exact ⟨rfl, rfl⟩

theorem splitCommand_flags {f u : Str} (hs : ' ' ∉ f) (hc : '^' ∉ f) :
    splitCommand ('^' :: (f ++ '^' :: u)) = some ⟨f, none, skipSpaces u⟩ := by
  have hh : (f ++ '^' :: u).head? ≠ some ' ' := by
    cases f with
    | nil => simp
    | cons c f =>
      intro h
      simp only [List.cons_append, List.head?_cons, Option.some.injEq] at h
      rw [h] at hs
      exact hs List.mem_cons_self
  obtain ⟨h1, h2⟩ := takeDrop_flags (t := u) hs hc (.inr rfl)
  have h3 : skipSpaces (skipSpaces u) = skipSpaces u := skipSpaces_of skipSpaces_head
  simp only [splitCommand, if_true, if_neg hh, h1, h2, h3]

theorem splitCommand_display {f u : Str} (hs : ' ' ∉ f) (hc : '^' ∉ f) :
    splitCommand ('^' :: (f ++ ' ' :: u)) =
      match strchr '^' (skipSpaces u) with
      | none => none
      | some (display, cmd) => some ⟨f, some display, skipSpaces cmd⟩ := by
  have e : skipSpaces (' ' :: u) = skipSpaces u := skipSpaces_append (w := [' ']) (by decide)
  cases f with
  | nil =>
    simp only [List.nil_append, splitCommand, List.head?_cons, if_true, e]
    rw [if_neg (by decide)]
    rfl
  | cons c f =>
    have hh : (c :: f ++ ' ' :: u).head? ≠ some ' ' := by
      intro h
      simp only [List.cons_append, List.head?_cons, Option.some.injEq] at h
      rw [h] at hs
      exact hs List.mem_cons_self
    obtain ⟨h1, h2⟩ := takeDrop_flags (t := u) hs hc (.inl rfl)
    simp only [splitCommand, if_true, if_neg hh, h1, h2, e]
    rw [if_neg (by decide)]
    rfl

theorem splitCommand_plain {s : Str} (h : s.head? ≠ some '^') : splitCommand s = some ⟨[], none, skipSpaces s⟩ := by
  cases s with
  | nil => rfl
  | cons c t =>
    have : c ≠ '^' := by simpa using h
    simp only [splitCommand, if_neg this]

/-- How a text behind the caret goes on: flags to the end, flags and a caret, or flags and a space. -/
theorem after_caret (t : Str) : (' ' ∉ t ∧ '^' ∉ t) ∨ ∃ f x u, t = f ++ x :: u ∧ ' ' ∉ f ∧ '^' ∉ f ∧ (x = ' ' ∨ x = '^') := by
  induction t with
  | nil => left; simp
  | cons c t ih =>
    by_cases h1 : c = ' ' ∨ c = '^'
    · exact .inr ⟨[], c, t, rfl, by simp, by simp, h1⟩
    · rw [not_or] at h1
      rcases ih with ⟨h2, h3⟩ | ⟨f, x, u, rfl, h2, h3, h4⟩
      · left
        simp only [List.mem_cons, not_or]
        exact ⟨⟨Ne.symm h1.1, h2⟩, Ne.symm h1.2, h3⟩
      · right
        refine ⟨c :: f, x, u, rfl, ?_, ?_, h4⟩
        · simp only [List.mem_cons, not_or]; exact ⟨Ne.symm h1.1, h2⟩
        · simp only [List.mem_cons, not_or]; exact ⟨Ne.symm h1.2, h3⟩

theorem dropWhile_all {p : Char → Bool} {t : Str} (h : ∀ c ∈ t, p c = true) : t.dropWhile p = [] := by
  induction t with
  | nil => rfl
  | cons c t ih =>
    rw [List.dropWhile_cons_of_pos (h c List.mem_cons_self)]
    exact ih fun d hd => h d (List.mem_cons_of_mem _ hd)

theorem splitCommand_open {t : Str} (h1 : ' ' ∉ t) (h2 : '^' ∉ t) : splitCommand ('^' :: t) = none := by
  have hh : t.head? ≠ some ' ' := by
    intro h
    exact h1 (List.mem_of_head? h)
  have hd : t.dropWhile flagChar = [] := by
    refine dropWhile_all ?_
    intro c hc
    simp only [flagChar, Bool.and_eq_true, bne_iff_ne, ne_eq]
    constructor
    · rintro rfl; exact h1 hc
    · rintro rfl; exact h2 hc
  simp only [splitCommand, if_true, if_neg hh, hd]

end Tup.Rules
