import Verif.Gitignore.Lemmas

/-
C21: the text of the user in a .gitignore.  C58: what is ignored.
-/

namespace Tup.Gitignore

open Tup (Str)

theorem regenerate_user {u : Str} (h : UserText u) (top : Bool) (names : List Str) :
    regenerate (some u) top names =
      match (generalizing := false) writeNames (decide (u ≠ [])) names with
      | none => none
      | some none => some none
      | some (some l) => some (some (u ++ separator ++ (header ++ (if top then ".tup\n".toList else []) ++ l))) := by
  unfold regenerate
  dsimp only
  rw [(copy_user h).1]
  have : keepsText u false = decide (u ≠ []) := by
    unfold keepsText
    cases u <;> simp
  dsimp only
  rw [this]
  cases writeNames (decide (u ≠ [])) names with
  | none => rfl
  | some o => cases o with
    | none => rfl
    | some l => simp [marker_eq]

/-- What tup wrote below the separator has no influence on what it writes. -/
theorem c21_own_part_ignored {u : Str} (h : UserText u) (rest : Str) (top : Bool) (names : List Str) :
    regenerate (some (u ++ separator ++ rest)) top names = regenerate (some u) top names := by
  rw [regenerate_user h]
  unfold regenerate
  dsimp only
  rw [(copy_user h).2]
  have : keepsText (u ++ separator) true = decide (u ≠ []) := by
    unfold keepsText
    have : separator.length = 26 := by decide
    cases u <;> simp [this]
  dsimp only
  rw [this]
  cases writeNames (decide (u ≠ [])) names with
  | none => rfl
  | some o => cases o with
    | none => rfl
    | some l => simp

/-- The text of the user is kept byte for byte above the separator, whether tup wrote to the file before or not. -/
theorem c21_keeps {u : Str} (h : UserText u) {rest : Str} {old new : Str} {top : Bool} {names : List Str}
    (ho : old = u ∨ old = u ++ separator ++ rest) (hr : regenerate (some old) top names = some (some new)) :
    ∃ t, new = u ++ separator ++ t := by
  have hr : regenerate (some u) top names = some (some new) := by
    rcases ho with rfl | rfl
    · exact hr
    · rwa [c21_own_part_ignored h] at hr
  rw [regenerate_user h] at hr
  split at hr
  · cases hr
  · cases hr
  · injection hr with hr
    injection hr with hr
    exact ⟨_, hr.symm⟩

/-- Writing the file again changes nothing. -/
theorem c21_idempotent {u : Str} (h : UserText u) {rest : Str} {old new : Str} {top : Bool} {names : List Str}
    (ho : old = u ∨ old = u ++ separator ++ rest) (hr : regenerate (some old) top names = some (some new)) :
    regenerate (some new) top names = some (some new) := by
  obtain ⟨t, rfl⟩ := c21_keeps h ho hr
  rw [c21_own_part_ignored h]
  rcases ho with rfl | rfl
  · exact hr
  · rwa [c21_own_part_ignored h] at hr

/-- A file that did not exist: as if it were empty. -/
theorem c21_new_file (top : Bool) (names : List Str) : regenerate none top names = regenerate (some []) top names := rfl

/-- Removing the part of tup gives the text of the user, and the file is deleted if there is none. -/
theorem c21_remove {u : Str} (h : UserText u) (rest : Str) :
    remove (u ++ separator ++ rest) = (if u = [] then none else some u) ∧ remove u = (if u = [] then none else some u) := by
  have hl : separator.length = 26 := by decide
  constructor
  · unfold remove
    rw [(copy_user h).2]
    cases u with
    | nil => rfl
    | cons c cs => simp [hl]
  · unfold remove
    rw [(copy_user h).1]
    cases u with
    | nil => rfl
    | cons c cs => simp

/-- Any number of updates, with different generated files each, and then the removal. -/
theorem c21_round_trip {u : Str} (h : UserText u) (runs : List (Bool × List Str)) {s : Str}
    (hs : runs.foldl (fun o r => match o with | some s => (regenerate (some s) r.1 r.2).getD none | none => none) (some u) = some s) :
    remove s = if u = [] then none else some u := by
  have gen : ∀ (runs : List (Bool × List Str)) (o : Option Str), (∀ s, o = some s → s = u ∨ ∃ t, s = u ++ separator ++ t) → ∀ s,
      runs.foldl (fun o r => match o with | some s => (regenerate (some s) r.1 r.2).getD none | none => none) o = some s →
      s = u ∨ ∃ t, s = u ++ separator ++ t := by
    intro runs
    induction runs with
    | nil => exact fun o ho s hs => ho s hs
    | cons r rs ih =>
      intro o ho s hs
      refine ih _ ?_ s hs
      intro s' hs'
      cases o with
      | none => cases hs'
      | some s0 =>
        dsimp only at hs'
        have hr : regenerate (some s0) r.1 r.2 = some (some s') := by
          cases hx : regenerate (some s0) r.1 r.2 with
          | none => rw [hx] at hs'; cases hs'
          | some y => rw [hx] at hs'; exact congrArg some hs'
        rcases ho s0 rfl with rfl | ⟨t, rfl⟩
        · exact .inr (c21_keeps h (rest := []) (.inl rfl) hr)
        · exact .inr (c21_keeps h (rest := t) (.inr rfl) hr)
  rcases gen runs (some u) (fun s hs => .inl (by injection hs with hs; exact hs.symm)) s hs with rfl | ⟨t, rfl⟩
  · exact (c21_remove h []).2
  · exact (c21_remove h t).1

/-- Nothing is lost at any other text either: all of what is kept is a beginning of the file, and if no separator is in the file
then it is all of it. -/
theorem c21_no_separator {s : Str} (h : ∀ a b, s ≠ a ++ separator ++ b) {new : Str} {top : Bool} {names : List Str}
    (hr : regenerate (some s) top names = some (some new)) : (∃ t, new = s ++ separator ++ t) ∧ remove s = (if s = [] then none else some s) := by
  have hn : NoHit 0 s := noHit (pre := []) (by decide) ⟨[], rfl⟩ h
  have hc : copyOld 0 s = (s, false) := by
    have := copyOld_append (v := []) hn
    rw [List.append_nil] at this
    rw [this]
    show (s ++ [], false) = _
    rw [List.append_nil]
  constructor
  · unfold regenerate at hr
    dsimp only at hr
    rw [hc] at hr
    split at hr
    · cases hr
    · cases hr
    · rename_i l _
      injection hr with hr
      injection hr with hr
      exact ⟨header ++ (if top then ".tup\n".toList else []) ++ l, by rw [← hr]; simp [marker_eq]⟩
  · unfold remove
    rw [hc]
    cases s with
    | nil => rfl
    | cons c cs => simp

/-- The condition on the last line is needed: a text that ends in `#` without a newline makes tup miss its own separator, so that its
part is added again at each update and is not removed. -/
theorem c21_false : ∃ u : Str, (∀ a b, u ≠ a ++ separator ++ b) ∧ ∃ n1 n2 : Str, regenerate (some u) false ["a.o".toList] = some (some n1) ∧
    regenerate (some n1) false ["a.o".toList] = some (some n2) ∧ n1.length < n2.length ∧ remove n1 = some n1 ∧ remove n1 ≠ some u := by
  refine ⟨"x\n#".toList, ?_, _, _, rfl, rfl, by decide +kernel, by decide +kernel, by decide +kernel⟩
  intro a b h
  have := congrArg List.length h
  have hl : separator.length = 26 := by decide
  simp [hl] at this
  omega

/-- If the text of the user ends with a newline then its lines are lines of the new file, else the last one is not: it is
continued by the separator, and git does not ignore what the user wrote there. -/
theorem c21_last_line : ∃ u : Str, UserText u ∧ "foo".toList ∈ linesOf u ∧ ∃ new, regenerate (some u) false ["a.o".toList] = some (some new) ∧
    "foo".toList ∉ linesOf new := by
  refine ⟨"foo".toList, ⟨?_, ?_⟩, by decide +kernel, _, rfl, by decide +kernel⟩
  · intro a b h
    have := congrArg List.length h
    have hl : separator.length = 26 := by decide
    simp [hl] at this
    omega
  · intro a b h
    have : '#' ∈ "foo".toList := by rw [h]; simp
    exact absurd this (by decide)

/-- The last line is complete. -/
theorem complete_line {u : Str} (a b : Str) (h : u ++ ['\n'] = a ++ '#' :: b) : '\n' ∈ b := by
  rcases List.eq_nil_or_concat b with rfl | ⟨b', c, rfl⟩
  · have := (List.append_inj' h rfl).2
    exact absurd this (by decide)
  · rw [List.concat_eq_append, ← List.cons_append, ← List.append_assoc] at h
    have := (List.append_inj' h rfl).2
    rw [List.concat_eq_append, ← this]
    simp

-- the hypotheses are met by an ordinary file
example : UserText "*.bak\n# editor files\n*~\n".toList := by
  refine ⟨?_, ?_⟩
  · intro a b h
    have := congrArg List.length h
    have hl : separator.length = 26 := by decide
    simp [hl] at this
    omega
  · exact complete_line (u := "*.bak\n# editor files\n*~".toList)

example : (regenerate (some "*.bak\n".toList) true ["a.o".toList, "x[1]".toList, ".gitignore".toList]).map (·.map String.ofList) =
    some (some ("*.bak\n##### TUP GITIGNORE #####\n##### Lines below automatically generated by Tup.\n##### Do not edit.\n.tup\n/a.o\n/x\\[1\\]\n")) := by
  decide +kernel

/-! ### What is ignored -/

/-- The line of a name makes git ignore that file and no other one, if the name has no `\`, `*` or `?`. -/
theorem c58_exact {n : Str} (h : ∀ c ∈ n, c ≠ '\\' ∧ c ≠ '*' ∧ c ≠ '?') (s : Str) : Glob (escape n) s ↔ s = n := by
  induction n generalizing s with
  | nil =>
    constructor
    · intro h; cases h; rfl
    · rintro rfl; exact .nil
  | cons c cs ih =>
    have hc := h c List.mem_cons_self
    have ih := fun s => ih (fun x hx => h x (List.mem_cons_of_mem _ hx)) s
    unfold escape
    split
    · constructor
      · intro hg
        cases hg with
        | char h1 => exact absurd rfl h1
        | escaped hg => rw [(ih _).1 hg]
      · rintro rfl
        exact .escaped ((ih _).2 rfl)
    · rename_i hb
      constructor
      · intro hg
        generalize hq : escape cs = q at hg
        cases hg with
        | char _ _ _ _ hg => rw [← hq] at hg; rw [(ih _).1 hg]
        | escaped _ => exact absurd rfl hc.1
        | any _ _ => exact absurd rfl hc.2.2
        | none _ => exact absurd rfl hc.2.1
        | more _ _ => exact absurd rfl hc.2.1
      · rintro rfl
        exact .char hc.1 hc.2.1 hc.2.2 (fun e => hb (.inl e)) ((ih _).2 rfl)

/-- Without a `\`, the file itself is always ignored. -/
theorem c58_ignored {n : Str} (h : ∀ c ∈ n, c ≠ '\\' ∧ c ≠ '/') : Glob (escape n) n := by
  induction n with
  | nil => exact .nil
  | cons c cs ih =>
    have hc := h c List.mem_cons_self
    have ih := ih fun x hx => h x (List.mem_cons_of_mem _ hx)
    unfold escape
    split
    · exact .escaped ih
    · rename_i hb
      by_cases h1 : c = '*'
      · subst h1; exact .more (by decide) (.none ih)
      · by_cases h2 : c = '?'
        · subst h2; exact .any (by decide) ih
        · exact .char hc.1 h1 h2 (fun e => hb (.inl e)) ih

/-- With one it is not: `a\b` is written as it is, and git reads it as `ab`. -/
theorem c58_backslash : ∃ n other : Str, n ≠ other ∧ Glob (escape n) other ∧ ¬ Glob (escape n) n := by
  refine ⟨"a\\b".toList, "ab".toList, by decide, ?_, ?_⟩
  · exact .char (by decide) (by decide) (by decide) (by decide) (.escaped .nil)
  · intro h
    rw [show escape "a\\b".toList = ['a', '\\', 'b'] from by decide, show "a\\b".toList = ['a', '\\', 'b'] from by decide] at h
    cases h with
    | char _ _ _ _ h =>
      cases h with
      | char h => exact absurd rfl h

/-- Exactly the generated files get a line, in their order, except that the .gitignore itself gets none if it has text of the user. -/
theorem c58_lines {u : Str} (h : UserText u) (top : Bool) (names : List Str) (hn : ∀ n ∈ names, n.length ≤ 2048) :
    regenerate (some u) top names = some (some (u ++ separator ++ (header ++ (if top then ".tup\n".toList else []) ++
      ((names.filter fun n => u = [] ∨ n ≠ ".gitignore".toList).map fun n => '/' :: escape n ++ ['\n']).flatten))) := by
  rw [regenerate_user h]
  have key : writeNames (decide (u ≠ [])) names =
      some (some ((names.filter fun n => u = [] ∨ n ≠ ".gitignore".toList).map fun n => '/' :: escape n ++ ['\n']).flatten) := by
    clear h
    generalize hgi : ".gitignore".toList = gi
    induction names with
    | nil => rfl
    | cons n ns ih =>
      have ih := ih fun x hx => hn x (List.mem_cons_of_mem _ hx)
      have hlen : (escape n).length < 4097 := by
        have := escape_len n
        have := hn n List.mem_cons_self
        omega
      have hw : writeLine n = some (some ('/' :: escape n ++ ['\n'])) := by unfold writeLine; rw [if_pos hlen]
      by_cases hs : u ≠ [] ∧ n = gi
      · have hb : (decide (u ≠ []) && decide (n = gi)) = true := by rw [decide_eq_true hs.1, decide_eq_true hs.2]; rfl
        have hf : ¬ (decide (u = [] ∨ n ≠ gi) = true) := by
          rw [decide_eq_true_eq]
          rintro (h | h)
          · exact hs.1 h
          · exact h hs.2
        rw [List.filter_cons, if_neg hf, ← ih, writeNames, hgi, if_pos hb]
      · have hb : ¬ (decide (u ≠ []) && decide (n = gi)) = true := by
          rw [Bool.and_eq_true, decide_eq_true_eq, decide_eq_true_eq]; exact hs
        have hf : decide (u = [] ∨ n ≠ gi) = true := by
          refine decide_eq_true ?_
          by_cases hu : u = []
          · exact .inl hu
          · exact .inr fun e => hs ⟨hu, e⟩
        rw [List.filter_cons, if_pos hf, writeNames, hgi, if_neg hb, hw]
        dsimp only
        rw [ih]
        rfl
  rw [key]

end Tup.Gitignore
