import Verif.Rules.Lemmas

/-! C07 and C08: taking command strings and rules apart. -/

namespace Tup.Rules

/-- C07: a command string is split into flags, display text and command exactly if it is written that way. -/
theorem c07_split (s : Str) (r : CommandSplit) : splitCommand s = some r ↔ Written s r := by
  constructor
  · intro h
    by_cases hs : s.head? = some '^'
    · cases s with
      | nil => cases hs
      | cons c t =>
        have : c = '^' := by simpa using hs
        subst this
        rcases after_caret t with ⟨h1, h2⟩ | ⟨f, x, u, rfl, h1, h2, h3⟩
        · rw [splitCommand_open h1 h2] at h; cases h
        · rcases h3 with rfl | rfl
          · rw [splitCommand_display h1 h2] at h
            cases hc : strchr '^' (skipSpaces u) with
            | none => rw [hc] at h; cases h
            | some q =>
              obtain ⟨d, cmd⟩ := q
              rw [hc] at h
              simp only [Option.some.injEq] at h
              subst h
              obtain ⟨h4, h5⟩ := strchr_some hc
              obtain ⟨w', hw', hu⟩ := skipSpaces_split u
              obtain ⟨w, hw, hcmd⟩ := skipSpaces_split cmd
              have hdh : ∀ x, d.head? = some x → isSpace x = false := by
                intro x hx
                apply skipSpaces_head (s := u)
                rw [h4]
                cases d with
                | nil => cases hx
                | cons y d => exact hx
              have hch := @skipSpaces_head cmd
              generalize skipSpaces cmd = cmd' at hcmd hch ⊢
              have e : '^' :: (f ++ ' ' :: u) =
                  "^".toList ++ f ++ " ".toList ++ w' ++ d ++ "^".toList ++ w ++ cmd' := by
                rw [hu, h4, hcmd]; simp [List.append_assoc]
              rw [e]
              exact .display h1 h2 hw' h5 hdh hw hch
          · rw [splitCommand_flags h1 h2] at h
            simp only [Option.some.injEq] at h
            subst h
            obtain ⟨w, hw, hu⟩ := skipSpaces_split u
            have hch := @skipSpaces_head u
            generalize skipSpaces u = u' at hu hch ⊢
            have e : '^' :: (f ++ '^' :: u) = "^".toList ++ f ++ "^".toList ++ w ++ u' := by
              rw [hu]; simp [List.append_assoc]
            rw [e]
            exact .flags h1 h2 hw hch
    · rw [splitCommand_plain hs] at h
      simp only [Option.some.injEq] at h
      subst h
      obtain ⟨w, hw, hu⟩ := skipSpaces_split s
      have hch := @skipSpaces_head s
      generalize skipSpaces s = u' at hu hch ⊢
      rw [hu] at hs ⊢
      exact .plain hs hw hch
  · intro h
    cases h with
    | plain h1 h2 h3 => rw [splitCommand_plain h1, skipSpaces_append h2, skipSpaces_of h3]
    | @flags f w c h1 h2 h3 h4 =>
      have e : "^".toList ++ f ++ "^".toList ++ w ++ c = '^' :: (f ++ '^' :: (w ++ c)) := by
        simp [List.append_assoc]
      rw [e, splitCommand_flags h1 h2, skipSpaces_append h3, skipSpaces_of h4]
    | @display f w' d w c h1 h2 h3 h4 h5 h6 h7 =>
      have e : "^".toList ++ f ++ " ".toList ++ w' ++ d ++ "^".toList ++ w ++ c =
          '^' :: (f ++ ' ' :: (w' ++ (d ++ '^' :: (w ++ c)))) := by simp [List.append_assoc]
      have hd : skipSpaces (d ++ '^' :: (w ++ c)) = d ++ '^' :: (w ++ c) := by
        refine skipSpaces_of ?_
        intro x hx
        cases d with
        | nil =>
          simp only [List.nil_append, List.head?_cons, Option.some.injEq] at hx
          rw [← hx]; decide
        | cons y d => exact h5 x hx
      rw [e, splitCommand_display h1 h2, skipSpaces_append h3, hd, strchr_append h4]
      simp only [skipSpaces_append h6, skipSpaces_of h7]

/-- C07: the only error is a missing closing caret. -/
theorem c07_error (s : Str) : splitCommand s = none ↔ ∃ t, s = '^' :: t ∧ '^' ∉ t := by
  constructor
  · intro h
    cases s with
    | nil => cases h
    | cons c t =>
      by_cases hc : c = '^'
      · subst hc
        refine ⟨t, rfl, ?_⟩
        intro ht
        rcases after_caret t with ⟨_, h2⟩ | ⟨f, x, u, rfl, h1, h2, h3⟩
        · exact h2 ht
        · rcases h3 with rfl | rfl
          · rw [splitCommand_display h1 h2] at h
            cases hc : strchr '^' (skipSpaces u) with
            | some q => rw [hc] at h; cases h
            | none =>
              have h4 := strchr_none.1 hc
              rw [List.mem_append, List.mem_cons] at ht
              obtain ⟨w, hw, hu⟩ := skipSpaces_split u
              rcases ht with ht | ht | ht
              · exact h2 ht
              · exact absurd ht (by decide)
              · rw [hu, List.mem_append] at ht
                rcases ht with ht | ht
                · exact absurd (hw _ ht) (by decide)
                · exact h4 ht
          · rw [splitCommand_flags h1 h2] at h; cases h
      · rw [splitCommand_plain (by simpa using hc)] at h; cases h
  · rintro ⟨t, rfl, ht⟩
    cases hs : splitCommand ('^' :: t) with
    | none => rfl
    | some r =>
      exfalso
      rcases after_caret t with ⟨h1, h2⟩ | ⟨f, x, u, rfl, h1, h2, h3⟩
      · rw [splitCommand_open h1 h2] at hs; cases hs
      · rcases h3 with rfl | rfl
        · rw [splitCommand_display h1 h2] at hs
          have : strchr '^' (skipSpaces u) = none := by
            rw [strchr_none]
            intro h
            obtain ⟨w, _, hu⟩ := skipSpaces_split u
            apply ht
            rw [hu]
            simp [h]
          rw [this] at hs
          cases hs
        · exact ht (by simp)

example : Written "^oj CC %f^ gcc -c".toList ⟨"oj".toList, some "CC %f".toList, "gcc -c".toList⟩ := by
  rw [← c07_split]; decide

/-- C08: a rule is split into inputs, command, outputs and bin exactly if it is written that way; in particular
inputs and command without `|>` are recovered without the white space around them. -/
theorem c08_split (line : Str) (r : Parts) : split line = .ok r ↔ RuleForm line r := split_iff line r

/-- C08: a rule is rejected for its separators exactly if it has fewer than two. -/
theorem c08_markers (line : Str) :
    (split line = .error .noMarker ∨ split line = .error .noSecondMarker) ↔
      ¬ ∃ I C O, line = I ++ "|>".toList ++ C ++ "|>".toList ++ O := by
  constructor
  · rintro h ⟨I, C, O, he⟩
    unfold split at h
    cases h1 : strstr "|>".toList line with
    | none =>
      exact strstr_none.1 h1 ⟨I, C ++ "|>".toList ++ O, by rw [he]; simp [List.append_assoc]⟩
    | some q =>
      obtain ⟨a, b⟩ := q
      rw [h1] at h
      obtain ⟨h2, h3⟩ := strstr_some h1
      have hlen := h3 I (C ++ "|>".toList ++ O) (by rw [he]; simp [List.append_assoc])
      cases h4 : strstr "|>".toList b with
      | none =>
        apply strstr_none.1 h4
        have e : a ++ ("|>".toList ++ b) = I ++ ("|>".toList ++ (C ++ "|>".toList ++ O)) := by
          rw [← List.append_assoc, ← h2, he]; simp [List.append_assoc]
        rcases List.append_eq_append_iff.1 e with ⟨m, h5, h6⟩ | ⟨m, h5, h6⟩
        · cases m with
          | nil =>
            rw [List.nil_append] at h6
            exact ⟨C, O, List.append_cancel_left h6⟩
          | cons x m =>
            rw [show "|>".toList = ['|', '>'] from rfl] at h6
            simp only [List.cons_append, List.nil_append, List.cons.injEq] at h6
            obtain ⟨rfl, h6⟩ := h6
            cases m with
            | nil =>
              simp only [List.nil_append, List.cons.injEq] at h6
              exact absurd h6.1 (by decide)
            | cons y m =>
              simp only [List.cons_append, List.cons.injEq] at h6
              exact ⟨m ++ "|>".toList ++ C, O, by rw [h6.2]; simp [List.append_assoc]⟩
        · cases m with
          | nil =>
            rw [List.nil_append] at h6
            exact ⟨C, O, List.append_cancel_left h6.symm⟩
          | cons x m =>
            have := congrArg List.length h5
            simp only [List.length_append, List.length_cons] at this
            omega
      | some q' =>
        obtain ⟨c, d⟩ := q'
        simp only [h4] at h
        cases h5 : binLoop [] (skipSpaces d) with
        | ok o => rw [h5] at h; rcases h with h | h <;> cases h
        | error e =>
          rw [h5] at h
          rcases firstBin (skipSpaces d) [] with hn | ⟨x, t, hx, hb, hn⟩
          · have := binLoop_none hn
            rw [List.reverse_nil, h5] at this
            cases this
          · have := binLoop_some hn hb
            rw [List.reverse_nil, ← hx, h5] at this
            cases hc : strchr '}' t with
            | none =>
              rw [hc] at this
              simp only [Except.error.injEq] at this
              subst this
              rcases h with h | h <;> cases h
            | some z =>
              rw [hc] at this
              simp only at this
              split at this
              · simp only [Except.error.injEq] at this
                subst this
                rcases h with h | h <;> cases h
              · cases this
  · intro h
    unfold split
    cases h1 : strstr "|>".toList line with
    | none => exact .inl rfl
    | some q =>
      obtain ⟨a, b⟩ := q
      obtain ⟨h2, _⟩ := strstr_some h1
      cases h4 : strstr "|>".toList b with
      | none => right; simp only [h4]
      | some q' =>
        obtain ⟨c, d⟩ := q'
        obtain ⟨h5, _⟩ := strstr_some h4
        exact absurd ⟨a, c, d, by rw [h2, h5]; simp [List.append_assoc]⟩ h

/-- C08: any other rejection is about the first bin in the outputs, which is not closed or not at the end. -/
theorem c08_bin_errors {I C w o : Str} (hI : ¬ Occurs "|>".toList I) (hC : ¬ Occurs "|>".toList C) (hw : Blank w)
    (ho : ∀ x, o.head? = some x → isSpace x = false) :
    (∃ e, split (I ++ "|>".toList ++ C ++ "|>".toList ++ (w ++ o)) = .error e) ↔
      ∃ a t, o = a ++ '{' :: t ∧ BinAt a ('{' :: t) ∧ (∀ x y, a = x ++ y → ¬ BinAt x y) ∧
        ¬ ∃ b, t = b ++ ['}'] ∧ '}' ∉ b := by
  rw [split_two hI hC, skipSpaces_append hw, skipSpaces_of ho]
  constructor
  · rintro ⟨e, h⟩
    rcases firstBin o [] with hn | ⟨a, t, hx, hb, hn⟩
    · have := binLoop_none hn
      rw [List.reverse_nil] at this
      rw [this] at h
      cases h
    · refine ⟨a, t, hx, hb, by simpa using hn, ?_⟩
      rintro ⟨b, rfl, hb'⟩
      have := binLoop_some hn hb
      rw [List.reverse_nil, ← hx, strchr_append hb'] at this
      rw [this] at h
      cases h
  · rintro ⟨a, t, rfl, hb, hn, hno⟩
    have := binLoop_some (pre := []) (t := t) (by simpa using hn) hb
    rw [List.reverse_nil] at this
    rw [this]
    cases hc : strchr '}' t with
    | none => exact ⟨_, rfl⟩
    | some q =>
      obtain ⟨b, after⟩ := q
      obtain ⟨h1, h2⟩ := strchr_some hc
      by_cases ha : after = []
      · subst ha
        exact absurd ⟨b, h1, h2⟩ hno
      · simp only [ne_eq, ha, not_false_eq_true, if_true]
        exact ⟨_, rfl⟩

example : RuleForm " foreach *.c | a.h |> gcc %f |> %B.o {objs}".toList
    ⟨some "foreach *.c | a.h".toList, "gcc %f".toList, "%B.o".toList, some "objs".toList⟩ := by
  rw [← c08_split]; rfl

example : split "a |> b".toList = .error .noSecondMarker := rfl

/-- C08, the parts of the inputs and outputs: what is in front of and behind the first bar. -/
theorem c08_bar {a w b : Str} (ha : '|' ∉ a) (hw : Blank w) (hb : ∀ x, b.head? = some x → isSpace x = false) :
    cutBar (a ++ "|".toList ++ w ++ b) = (a, some b) ∧ cutBar a = (a, none) := by
  have e : a ++ "|".toList ++ w ++ b = a ++ '|' :: (w ++ b) := by simp [List.append_assoc]
  constructor
  · rw [e, cutBar, strchr_append ha]
    simp only [skipSpaces_append hw, skipSpaces_of hb]
  · rw [cutBar, strchr_none.2 ha]

/-- C08: the texts of a rule.  `I`, `C` and `O` are inputs, command and outputs without the white space around
them. -/
theorem c08_rule {line I C O : Str} {bin : Option Str} (h : RuleForm line ⟨some I, C, O, bin⟩)
    (hf : I.take 7 ≠ "foreach".toList) (hc : C.head? ≠ some '!') :
    parseRule line = .ok ⟨false, I.head? = some '|', some (cutBar I).1, (cutBar I).2, C, none, (cutBar O).1,
      (cutBar O).2, bin⟩ := by
  rw [← c08_split] at h
  unfold parseRule
  rw [h]
  simp only [Except.map, if_neg hf]
  cases C with
  | nil => rfl
  | cons c C =>
    have : c ≠ '!' := by simpa using hc
    split
    · next heq => exact absurd (List.cons.inj heq).1 this
    · rfl

/-- C08: the same with `foreach`. -/
theorem c08_foreach {line w I C O : Str} {bin : Option Str}
    (h : RuleForm line ⟨some ("foreach".toList ++ w ++ I), C, O, bin⟩) (hw : Blank w)
    (hI : ∀ x, I.head? = some x → isSpace x = false) (hc : C.head? ≠ some '!') :
    parseRule line = .ok ⟨true, I.head? = some '|', some (cutBar I).1, (cutBar I).2, C, none, (cutBar O).1,
      (cutBar O).2, bin⟩ := by
  rw [← c08_split] at h
  unfold parseRule
  rw [h]
  have e1 : ("foreach".toList ++ w ++ I).take 7 = "foreach".toList := by
    rw [List.append_assoc]; rfl
  have e2 : ("foreach".toList ++ w ++ I).drop 7 = w ++ I := by
    rw [List.append_assoc]; rfl
  simp only [Except.map, e1, e2, if_true, skipSpaces_append hw, skipSpaces_of hI]
  cases C with
  | nil => rfl
  | cons c C =>
    have : c ≠ '!' := by simpa using hc
    split
    · next heq => exact absurd (List.cons.inj heq).1 this
    · rfl

example : parseRule " foreach *.c | a.h |> !cc -O2 |> %B.o | %B.d {objs}".toList =
    .ok ⟨true, false, some "*.c ".toList, some "a.h".toList, "!cc".toList, some "-O2".toList, "%B.o ".toList,
      some "%B.d".toList, some "objs".toList⟩ := rfl

/-- The keyword is not delimited: an input whose name begins with `foreach` loses these letters. -/
theorem c08_foreach_not_delimited : parseRule " foreach.c |> cat |>".toList =
    .ok ⟨true, false, some ".c".toList, none, "cat".toList, none, [], none, none⟩ := rfl

end Tup.Rules
