import Verif.Execute.Lemmas
import Verif.Names.Props

/-! C51: which commands a rule makes.  C57: macro definitions. -/

namespace Tup.Execute

open Tup.Names Tup.Rules

variable {σ : Type}

theorem num_pos {nl : NameList} (h : Run nl) : (unique nl).tot.num > 0 ↔ (unique nl).entries ≠ [] := by
  have := (run_exact (.step (op := .unique) h)).num
  simp only [step] at this
  rw [this]
  cases (unique nl).entries with
  | nil => simp
  | cons e l => simp only [List.length_cons, ne_eq, reduceCtorEq, not_false_eq_true, iff_true]; omega

theorem distinct_nil {l x : List Entry} (h : Distinct l x) (hx : x = []) : l = [] := by
  induction h with
  | nil => rfl
  | new _ _ _ => simp at hx
  | old _ _ hm _ ih => rw [ih hx] at hm; cases hm

theorem foreach_iff (T : Table) (r : Rule) :
    isForeach T r = true ↔ Foreach T r := by
  unfold isForeach
  simp only
  unfold Foreach
  rw [isMacro_iff]
  by_cases h1 : r.foreach_ = true
  · simp [h1]
  · by_cases h2 : r.command.head? = some '!'
    · simp only [h1, h2, if_true, true_and]
      cases T r.command with
      | none => simp
      | some m => simp
    · simp [h1, h2]

/-- **C51.** Executing a rule makes exactly the commands that its meaning says: one for each distinct input in the order
of the inputs for `foreach`, otherwise one for all inputs; none, or that of the macro for no inputs, if the rule has an
input pattern and nothing matches. -/
theorem c51_rule (W : World σ) (T : Table) (s s' : σ) (r : Rule) (js : List Job) (hr : Fresh r) :
    execute W T s r = some (s', js) ↔ Meaning W T r s js s' := by
  obtain ⟨h1, h2, h3, h4⟩ := hr
  have hd := distinct_unique r.inputs
  have huniq : ∀ {ins}, Distinct r.inputs.entries ins → ins = (unique r.inputs).entries := fun h => by
    rw [distinct_iff] at h
    rw [h]; exact (unique_eq _ _ _).symm
  unfold execute
  simp only
  by_cases hf : Foreach T r
  · rw [if_pos ((foreach_iff T { r with inputs := unique r.inputs }).2 hf)]
    have hl := loop_iff W T r (unique r.inputs).entries s { r with inputs := unique r.inputs } [] s' js
      ⟨rfl, rfl, rfl, rfl, rfl, h3, by rw [h1]; rfl, by rw [h2]; rfl⟩
    simp only [List.nil_append] at hl
    constructor
    · intro h
      simp only [Option.map_eq_some_iff, Prod.mk.injEq] at h
      obtain ⟨⟨s1, r1, js1⟩, h, rfl, rfl⟩ := h
      obtain ⟨new, hE, he⟩ := hl.1 ⟨_, h⟩
      simp only at he hE
      subst he
      exact .each hf hd hE
    · intro h
      cases h with
      | each _ hd' hE =>
        rw [huniq hd'] at hE
        obtain ⟨r', h⟩ := hl.2 ⟨js, hE, rfl⟩
        rw [h]; rfl
      | plain h | bang h | empty h | nothing h => exact absurd hf h
  · rw [if_neg (fun hc => hf ((foreach_iff T { r with inputs := unique r.inputs }).1 hc))]
    cases hres : W.resolve s r.ooPaths (some (unique r.inputs)) with
    | none =>
      simp only [reduceCtorEq, false_iff]
      intro h
      cases h with
      | each h => exact hf h
      | plain _ _ _ _ h => rw [hres] at h; cases h
      | bang _ _ _ _ h => rw [hres] at h; cases h
      | empty _ _ _ _ h => rw [hres] at h; cases h
      | nothing _ _ _ _ h => rw [hres] at h; cases h
    | some q =>
      obtain ⟨s1, oo⟩ := q
      simp only
      by_cases hn : (unique r.inputs).entries ≠ [] ∨ r.emptyInput = true
      · rw [if_pos (hn.imp_left (num_pos h4).2)]
        by_cases hb : r.command.head? = some '!'
        · simp only [hb, if_true]
          have hM := (isMacro_iff _).2 hb
          have key : ∀ s2 r2, bangRule W T s1 { r with inputs := unique r.inputs, oo := addAll r.oo oo } none none =
              some (s2, r2) ↔ ∃ m l, Chosen T r.command none m ∧ MacroInputs W none s1 m.input l s2 ∧
                r2 = applied r m oo l := fun s2 r2 => bangRule_iff ..
          have hj := job_applied h1 h2 h3
          have hi : ∀ m oo l, (applied r m oo l).inputs = unique r.inputs := fun _ _ _ => rfl
          constructor
          · intro h
            cases hbr : bangRule W T s1 { r with inputs := unique r.inputs, oo := addAll r.oo oo } none none with
            | none => rw [hbr] at h; cases h
            | some q =>
              obtain ⟨s2, r2⟩ := q
              obtain ⟨m, l, hc, hmi, rfl⟩ := (key s2 r2).1 hbr
              rw [hbr] at h
              simp only [hi, hj, Option.map_eq_some_iff, Prod.mk.injEq] at h
              obtain ⟨s3, hrun, rfl, rfl⟩ := h
              exact .bang hf hd hn hM hres hc hmi hrun
          · intro h
            cases h with
            | each h => exact absurd h hf
            | plain _ _ _ h => exact absurd hM h
            | bang _ _ _ _ h5 h6 h7 h8 =>
              rw [hres] at h5; cases h5
              rw [(key _ _).2 ⟨_, _, h6, h7, rfl⟩]
              simp only [hi, hj, h8, Option.map_some]
            | empty _ h5 h6 =>
              rcases hn with hn | hn
              · exact absurd (huniq h5).symm hn
              · rw [hn] at h6; cases h6
            | nothing _ h5 h6 =>
              rcases hn with hn | hn
              · exact absurd (huniq h5).symm hn
              · rw [hn] at h6; cases h6
        · simp only [hb, if_false]
          have hM : ¬ IsMacro r.command := fun hc => hb ((isMacro_iff _).1 hc)
          have hj : job { r with inputs := unique r.inputs, oo := addAll r.oo oo } (unique r.inputs) none =
              plainJob r (unique r.inputs) none oo := by
            simp only [job, plainJob, addAll_entries, h1, h2, h3, NameList.empty, List.nil_append]
          simp only [hj]
          constructor
          · intro h
            simp only [Option.map_eq_some_iff, Prod.mk.injEq] at h
            obtain ⟨s3, hrun, rfl, rfl⟩ := h
            exact .plain hf hd hn hM hres hrun
          · intro h
            cases h with
            | each h => exact absurd h hf
            | bang _ _ _ h => exact absurd h hM
            | plain _ _ _ _ h5 h6 =>
              rw [hres] at h5; cases h5
              rw [h6]; rfl
            | empty _ h5 h6 =>
              rcases hn with hn | hn
              · exact absurd (huniq h5).symm hn
              · rw [hn] at h6; cases h6
            | nothing _ h5 h6 =>
              rcases hn with hn | hn
              · exact absurd (huniq h5).symm hn
              · rw [hn] at h6; cases h6
      · rw [if_neg (fun hc => hn (hc.imp_left (num_pos h4).1))]
        simp only [not_or, ne_eq, Classical.not_not, Bool.not_eq_true] at hn
        obtain ⟨hn1, hn2⟩ := hn
        have hd0 : Distinct r.inputs.entries [] := by rw [← hn1]; exact hd
        have hne : ∀ {ins}, Distinct r.inputs.entries ins → ¬ (ins ≠ [] ∨ r.emptyInput = true) := by
          intro ins hi
          rw [huniq hi, hn1, hn2]; simp
        by_cases hb : r.command.head? = some '!'
        · simp only [hb, if_true]
          have hM := (isMacro_iff _).2 hb
          cases hT : T (r.command ++ ".EMPTY".toList) with
          | none =>
            simp only [emptyMacro, hT, Option.some.injEq, Prod.mk.injEq]
            constructor
            · rintro ⟨rfl, rfl⟩; exact .nothing hf hd0 hn2 (fun _ => hT) hres
            · intro h
              cases h with
              | each h => exact absurd h hf
              | plain _ h5 h6 => exact absurd h6 (hne h5)
              | bang _ h5 h6 => exact absurd h6 (hne h5)
              | empty _ _ _ _ _ h5 => rw [hT] at h5; cases h5
              | nothing _ _ _ _ h5 => rw [hres] at h5; cases h5; exact ⟨rfl, rfl⟩
          | some m =>
            have hj := job_applied h1 h2 h3
            have hi : ∀ m oo l, (applied r m oo l).inputs = unique r.inputs := fun _ _ _ => rfl
            have key : ∀ s2 r2, useMacro W s1 { r with inputs := unique r.inputs, oo := addAll r.oo oo } m none =
                some (s2, r2) ↔ ∃ l, MacroInputs W none s1 m.input l s2 ∧ r2 = applied r m oo l :=
              fun s2 r2 => useMacro_iff ..
            simp only [emptyMacro, hT]
            constructor
            · intro h
              cases hu : useMacro W s1 { r with inputs := unique r.inputs, oo := addAll r.oo oo } m none with
              | none => rw [hu] at h; cases h
              | some q =>
                obtain ⟨s2, r2⟩ := q
                obtain ⟨l, hmi, rfl⟩ := (key _ _).1 hu
                rw [hu] at h
                simp only [Option.map_some, hi, hj, Option.map_eq_some_iff, Prod.mk.injEq] at h
                obtain ⟨s3, hrun, rfl, rfl⟩ := h
                exact .empty hf hd0 hn2 hM hres hT hmi hrun
            · intro h
              cases h with
              | each h => exact absurd h hf
              | plain _ h5 h6 => exact absurd h6 (hne h5)
              | bang _ h5 h6 => exact absurd h6 (hne h5)
              | empty _ _ _ _ h5 h6 h7 h8 =>
                rw [hres] at h5; cases h5
                rw [hT] at h6; cases h6
                rw [(key _ _).2 ⟨_, h7, rfl⟩]
                simp only [Option.map_some, hi, hj, h8]
              | nothing _ _ _ h5 => rw [hT] at h5; cases h5 hM
        · simp only [hb, if_false, Option.some.injEq, Prod.mk.injEq]
          have hM : ¬ IsMacro r.command := fun hc => hb ((isMacro_iff _).1 hc)
          constructor
          · rintro ⟨rfl, rfl⟩; exact .nothing hf hd0 hn2 (fun h => absurd h hM) hres
          · intro h
            cases h with
            | each h => exact absurd h hf
            | plain _ h5 h6 => exact absurd h6 (hne h5)
            | bang _ h5 h6 => exact absurd h6 (hne h5)
            | empty _ _ _ h5 => exact absurd h5 hM
            | nothing _ _ _ _ h5 => rw [hres] at h5; cases h5; exact ⟨rfl, rfl⟩

/-- **C51.** With `foreach` the commands and the distinct inputs correspond to each other one by one, in order. -/
theorem c51_foreach (W : World σ) (T : Table) (s s' : σ) (r : Rule) (js : List Job) (hr : Fresh r)
    (hf : Foreach T r) (h : execute W T s r = some (s', js)) :
    ∃ ins, Distinct r.inputs.entries ins ∧ js.map (·.inputs.entries) = ins.map fun e => [e] := by
  cases (c51_rule W T s s' r js hr).1 h with
  | each _ hd hE =>
    refine ⟨_, hd, ?_⟩
    clear hd h
    induction hE with
    | nil => rfl
    | cons h1 _ ih =>
      rw [List.map_cons, List.map_cons, ih]
      congr 1
      cases h1 <;> rfl
  | plain h' | bang h' | empty h' | nothing h' => exact absurd hf h'

/-- **C51.** Without `foreach` there is exactly one command if something is left of the inputs or none was asked for;
it gets all distinct inputs. -/
theorem c51_plain (W : World σ) (T : Table) (s s' : σ) (r : Rule) (js : List Job) (hr : Fresh r)
    (hf : ¬ Foreach T r) (hi : r.inputs.entries ≠ [] ∨ r.emptyInput = true)
    (h : execute W T s r = some (s', js)) :
    ∃ j, js = [j] ∧ Distinct r.inputs.entries j.inputs.entries := by
  have hne := fun hd : Distinct r.inputs.entries [] => distinct_nil hd rfl
  cases (c51_rule W T s s' r js hr).1 h with
  | each h => exact absurd h hf
  | plain => exact ⟨_, rfl, distinct_unique _⟩
  | bang => exact ⟨_, rfl, distinct_unique _⟩
  | empty _ h1 h2 =>
    rcases hi with hi | hi
    · exact absurd (hne h1) hi
    · rw [hi] at h2; cases h2
  | nothing _ h1 h2 =>
    rcases hi with hi | hi
    · exact absurd (hne h1) hi
    · rw [hi] at h2; cases h2

/-- **C51.** A rule with an input pattern that matches nothing makes no command, unless it calls a macro that has a
variant for this. -/
theorem c51_none (W : World σ) (T : Table) (s s' : σ) (r : Rule) (js : List Job) (hr : Fresh r)
    (hi : r.inputs.entries = []) (he : r.emptyInput = false)
    (hm : IsMacro r.command → T (r.command ++ ".EMPTY".toList) = none)
    (h : execute W T s r = some (s', js)) : js = [] := by
  have hz : ∀ {ins}, Distinct r.inputs.entries ins → ins = [] := by
    intro ins hd
    rw [hi] at hd
    rw [(distinct_iff _ _).1 hd]; rfl
  cases (c51_rule W T s s' r js hr).1 h with
  | each _ hd hE =>
    rw [hz hd] at hE
    cases hE; rfl
  | plain _ hd h2 =>
    rw [hz hd, he] at h2
    rcases h2 with h2 | h2
    · exact absurd rfl h2
    · cases h2
  | bang _ hd h2 =>
    rw [hz hd, he] at h2
    rcases h2 with h2 | h2
    · exact absurd rfl h2
    · cases h2
  | empty _ _ _ h1 _ h2 => rw [hm h1] at h2; cases h2
  | nothing => rfl

/-! ### Macro definitions -/

theorem macroInput_iff (input : Option Str) (fe : Bool) (i : Option Str) :
    macroInput input = some (fe, i) ↔ MacroInput input fe i := by
  cases input with
  | none =>
    simp only [macroInput, Option.some.injEq, Prod.mk.injEq]
    constructor
    · rintro ⟨rfl, rfl⟩; exact .none
    · intro h; cases h; exact ⟨rfl, rfl⟩
  | some s =>
    unfold macroInput
    simp only
    by_cases hf : s.take 7 = "foreach".toList
    · rw [if_pos hf]
      simp only
      have hs : s = "foreach".toList ++ s.drop 7 := by rw [← hf, List.take_append_drop]
      obtain ⟨w, hw, hsplit⟩ := skipSpaces_split (s.drop 7)
      have hhead := skipSpaces_head (s := s.drop 7)
      constructor
      · intro h
        split at h
        · next h0 =>
          cases h
          rw [h0, List.append_nil] at hsplit
          rw [hs, hsplit]
          exact .foreach hw
        · next c t h0 =>
          split at h
          · next hc =>
            subst hc
            cases h
            obtain ⟨w', hw', ht⟩ := skipSpaces_split t
            have := MacroInput.foreachOrderOnly (w := w) (w' := w') (t := skipSpaces t) hw hw' skipSpaces_head
            rw [h0] at hsplit
            rw [hs, hsplit]
            have e : "foreach".toList ++ (w ++ '|' :: t) = "foreach".toList ++ w ++ "|".toList ++ w' ++ skipSpaces t := by
              rw [List.append_assoc, List.append_assoc, List.append_assoc, ← ht]; rfl
            rw [e]; exact this
          · cases h
      · generalize hx : some s = x
        intro h
        cases h with
        | none => cases hx
        | orderOnly _ _ =>
          cases hx
          simp at hf
        | @foreach w1 hw1 =>
          cases hx
          have : ("foreach".toList ++ w1).drop 7 = w1 := rfl
          rw [this]
          have e : skipSpaces w1 = [] := by
            have := skipSpaces_append (s := []) hw1
            rw [List.append_nil] at this
            rw [this]; rfl
          rw [e]
        | blank => cases hx; simp at hf
        | @foreachOrderOnly w1 w2 t hw1 hw2 ht =>
          cases hx
          rw [List.append_assoc, List.append_assoc, List.append_assoc]
          have : ("foreach".toList ++ (w1 ++ ("|".toList ++ (w2 ++ t)))).drop 7 = w1 ++ ("|".toList ++ (w2 ++ t)) := rfl
          rw [this, skipSpaces_append hw1]
          have : skipSpaces ("|".toList ++ (w2 ++ t)) = "|".toList ++ (w2 ++ t) :=
            skipSpaces_of (by intro c hc; cases hc; decide)
          rw [this]
          show (if '|' = '|' then some (true, some (skipSpaces (w2 ++ t))) else none) = _
          rw [if_pos rfl, skipSpaces_append hw2, skipSpaces_of ht]
    · rw [if_neg hf]
      simp only
      have hno : ∀ x : Str, s ≠ "foreach".toList ++ x := by
        rintro x rfl
        exact hf (List.take_left' rfl)
      constructor
      · intro h
        split at h
        · cases h
          exact .blank
        · next c t =>
          split at h
          · next hc =>
            subst hc
            cases h
            obtain ⟨w', hw', ht⟩ := skipSpaces_split t
            have e : '|' :: t = "|".toList ++ w' ++ skipSpaces t := by rw [List.append_assoc, ← ht]; rfl
            rw [e]
            exact .orderOnly hw' skipSpaces_head
          · cases h
      · generalize hx : some s = x
        intro h
        cases h with
        | none => cases hx
        | blank => cases hx; rfl
        | @orderOnly w t hw ht =>
          cases hx
          rw [List.append_assoc]
          show (if '|' = '|' then some (false, some (skipSpaces (w ++ t))) else none) = _
          rw [if_pos rfl, skipSpaces_append hw, skipSpaces_of ht]
        | foreach => cases hx; exact absurd rfl (hno _)
        | foreachOrderOnly =>
          cases hx
          rw [List.append_assoc, List.append_assoc, List.append_assoc] at hno
          exact absurd rfl (hno _)

theorem outputs_iff (paths : Str → Option (List Str)) (s : Str) (o e : List Str) :
    outputLists paths s = some (o, e) ↔ Outputs paths s o e := by
  unfold outputLists cutBar
  cases h : strchr '|' s with
  | none =>
    have hn := strchr_none.1 h
    simp only
    cases hp : paths s with
    | none =>
      simp only [reduceCtorEq, false_iff]
      intro h
      cases h with
      | one _ h => rw [hp] at h; cases h
      | two => simp at hn
    | some o' =>
      simp only [Option.some.injEq, Prod.mk.injEq]
      constructor
      · rintro ⟨rfl, rfl⟩; exact .one hn hp
      · intro h
        cases h with
        | one _ h => rw [hp] at h; cases h; exact ⟨rfl, rfl⟩
        | two => simp at hn
  | some q =>
    obtain ⟨a, b⟩ := q
    obtain ⟨rfl, ha⟩ := strchr_some h
    simp only
    obtain ⟨w, hw, hb⟩ := skipSpaces_split b
    have hs : a ++ '|' :: b = a ++ "|".toList ++ w ++ skipSpaces b := by
      rw [List.append_assoc, List.append_assoc, ← hb]; rfl
    have det : Outputs paths (a ++ '|' :: b) o e → paths a = some o ∧ paths (skipSpaces b) = some e := by
      generalize hx : a ++ '|' :: b = x
      intro h
      cases h with
      | one hn _ => rw [← hx] at hn; simp at hn
      | @two a' w' b' _ _ ha' hw' hb' h1 h2 =>
        have h3 := strchr_append (b := w' ++ b') ha'
        have h4 : a' ++ "|".toList ++ w' ++ b' = a' ++ '|' :: (w' ++ b') := by simp
        rw [← h4, ← hx, h] at h3
        simp only [Option.some.injEq, Prod.mk.injEq] at h3
        obtain ⟨rfl, rfl⟩ := h3
        rw [skipSpaces_append hw', skipSpaces_of hb']
        exact ⟨h1, h2⟩
    constructor
    · intro h
      split at h
      · cases h
      · next e' he =>
        split at h
        · cases h
        · next o' ho =>
          cases h
          rw [hs]
          exact .two ha hw skipSpaces_head ho he
    · intro h
      obtain ⟨h1, h2⟩ := det h
      rw [h1, h2]

theorem line_iff (p name value : Str) :
    Line p name value ↔ ∃ n v, strchr '=' p = some (n, v) ∧ name = trimEnd n ∧ value = skipSpaces v := by
  constructor
  · rintro ⟨w, w', rfl, h1, h2, h3, h4, h5⟩
    have hn : '=' ∉ name ++ w := by
      simp only [List.mem_append, not_or]
      exact ⟨h1, fun hc => absurd (h2 _ hc) (by decide)⟩
    have := strchr_append (b := w' ++ value) hn
    refine ⟨name ++ w, w' ++ value, ?_, ?_, ?_⟩
    · rw [← this]; simp
    · exact (trimEnd_append h2 h4).symm
    · rw [skipSpaces_append h3, skipSpaces_of h5]
  · rintro ⟨n, v, h, rfl, rfl⟩
    obtain ⟨rfl, hn⟩ := strchr_some h
    obtain ⟨w, hw, hs⟩ := trimEnd_split n
    obtain ⟨w', hw', hs'⟩ := skipSpaces_split v
    refine ⟨w, w', ?_, ?_, hw, hw', trimEnd_last, skipSpaces_head⟩
    · rw [← hs, List.append_assoc, List.append_assoc, ← hs']; rfl
    · intro hc; apply hn; rw [hs]; exact List.mem_append_left _ hc

/-- **C57.** A macro definition succeeds exactly if the line has the form of a definition, and then changes the table at
that name and nowhere else.  A macro that stands for another one gets what the other one is at that time. -/
theorem c57_define (paths : Str → Option (List Str)) (T T' : Table) (p : Str) :
    define paths T p = .ok T' ↔
      ∃ name m, Defines paths T p name m ∧ T' name = some m ∧ ∀ n, n ≠ name → T' n = T n := by
  have hset : ∀ (T : Table) name m, T' = set T name (some m) ↔ T' name = some m ∧ ∀ n, n ≠ name → T' n = T n := by
    intro T name m
    constructor
    · rintro rfl
      exact ⟨by simp [set], fun n hn => by simp [set, hn]⟩
    · rintro ⟨h1, h2⟩
      funext n
      unfold set
      split
      · next h => rw [h]; exact h1
      · next h => exact h2 n h
  constructor
  · intro h
    unfold define at h
    cases hp : strchr '=' p with
    | none => rw [hp] at h; cases h
    | some q =>
      obtain ⟨n, v⟩ := q
      have hl := (line_iff p _ _).2 ⟨n, v, hp, rfl, rfl⟩
      rw [hp] at h
      simp only at h
      split at h
      · next ha =>
        split at h
        · cases h
        · next m hm =>
          simp only [DefRes.ok.injEq] at h
          have hne : skipSpaces v ≠ trimEnd n := by
            intro hc; simp [set, hc] at hm
          simp only [set, hne, if_false] at hm
          refine ⟨_, m, .alias hl ha hne hm, ?_⟩
          refine (hset T _ m).1 ?_
          rw [← h]
          funext x
          unfold set
          split <;> rfl
      · next ha =>
        split at h
        · cases h
        · next parts hs =>
          split at h
          · cases h
          · next hb =>
            split at h
            · cases h
            · next fe i hi =>
              split at h
              · split at h <;> cases h
              · next o e ho =>
                simp only [DefRes.ok.injEq] at h
                obtain ⟨input, cmd, output, bin⟩ := parts
                simp only [ne_eq, Classical.not_not] at hb
                subst hb
                exact ⟨_, _, .new hl ha hs ((macroInput_iff _ _ _).1 hi) ((outputs_iff _ _ _ _).1 ho),
                  (hset T _ _).1 h.symm⟩
  · rintro ⟨name, m, hd, h1⟩
    have h1 := (hset T name m).2 h1
    cases hd with
    | new hl ha hs hi ho =>
      obtain ⟨n, v, hp, rfl, rfl⟩ := (line_iff p _ _).1 hl
      unfold define
      rw [hp]
      simp only [if_neg ha, hs]
      rw [if_neg (by simp), (macroInput_iff _ _ _).2 hi]
      simp only [(outputs_iff _ _ _ _).2 ho, h1]
    | alias hl ha hne hm =>
      obtain ⟨n, v, hp, rfl, rfl⟩ := (line_iff p _ _).1 hl
      unfold define
      rw [hp]
      simp only [if_pos ha]
      have : set T (trimEnd n) none (skipSpaces v) = some m := by simp [set, hne, hm]
      simp only [this, h1, DefRes.ok.injEq]
      funext x
      unfold set
      split <;> rfl

/-- **C57.** The only definitions with undefined behaviour are those of a new macro whose outputs cannot be read, for
example `!m = |> cmd |> <g`. -/
theorem c57_undefined (paths : Str → Option (List Str)) (T : Table) (p : Str) :
    define paths T p = .ub ↔ ∃ name value input cmd output fe i, Line p name value ∧ value.head? ≠ some '!' ∧
      split value = .ok ⟨input, cmd, output, none⟩ ∧ MacroInput input fe i ∧
      (¬ ∃ o e, Outputs paths output o e) ∧ T name = none := by
  constructor
  · intro h
    unfold define at h
    cases hp : strchr '=' p with
    | none => rw [hp] at h; cases h
    | some q =>
      obtain ⟨n, v⟩ := q
      have hl := (line_iff p _ _).2 ⟨n, v, hp, rfl, rfl⟩
      rw [hp] at h
      simp only at h
      split at h
      · split at h <;> cases h
      · next ha =>
        split at h
        · cases h
        · next parts hs =>
          split at h
          · cases h
          · next hb =>
            split at h
            · cases h
            · next fe i hi =>
              split at h
              · next ho =>
                split at h
                · cases h
                · next hT =>
                  obtain ⟨input, cmd, output, bin⟩ := parts
                  simp only [ne_eq, Classical.not_not] at hb
                  subst hb
                  refine ⟨_, _, _, _, _, _, _, hl, ha, hs, (macroInput_iff _ _ _).1 hi, ?_, by simpa using hT⟩
                  rintro ⟨o, e, hoe⟩
                  rw [(outputs_iff _ _ _ _).2 hoe] at ho; cases ho
              · cases h
  · rintro ⟨name, value, input, cmd, output, fe, i, hl, ha, hs, hi, ho, hT⟩
    obtain ⟨n, v, hp, rfl, rfl⟩ := (line_iff p _ _).1 hl
    unfold define
    rw [hp]
    simp only [if_neg ha, hs]
    rw [if_neg (by simp), (macroInput_iff _ _ _).2 hi]
    simp only
    cases hoe : outputLists paths output with
    | none => simp [hT]
    | some q => exact absurd ⟨q.1, q.2, (outputs_iff _ _ _ _).1 hoe⟩ ho

/-- **C57.** A macro cannot be made to stand for itself, even if it is defined: the old definition is dropped first. -/
theorem c57_alias_self (paths : Str → Option (List Str)) (T : Table) (p name : Str) (hl : Line p name name)
    (hn : name.head? = some '!') : define paths T p = .error := by
  obtain ⟨n, v, hp, h1, h2⟩ := (line_iff p _ _).1 hl
  unfold define
  rw [hp]
  simp only [← h1, ← h2, if_pos hn]
  simp [set]

/-! ### Examples -/

def exC : Entry := { path := "foo.c".toList, extlesslen := 3, orderid := 1, tent := some 7 }
def exD : Entry := { path := "bar.d".toList, extlesslen := 3, orderid := 2, tent := some 8 }

/-- C51: the extension that `%e` stands for and that selects the macro is what follows the last dot of the name of the input, if
there is one that the name does not begin with. -/
theorem c51_extension {pat rel name stem : Str} {ext : Option Str} {orderid tent : Nat} {e : Entry}
    (h : fileEntry pat rel name orderid tent = .ok e) (hs : '/' ∉ name)
    (hr : rel = name ∨ ∃ d, rel = d ++ "/".toList ++ name) (hn : Named name stem ext) : extension e = ext := by
  obtain ⟨h1, h2, h3, h4, h5⟩ := c55_file h hs hr hn
  unfold extension
  cases hx : ext with
  | none => rw [if_pos (h5.1 hx)]
  | some x =>
    have hpos : 0 ≤ e.extlesslen := by
      have h6 : (e.baselen : Int) ≤ e.len := by
        unfold Entry.baselen Entry.len
        rw [h2, h1]
        rcases hr with rfl | ⟨d, rfl⟩
        · exact Int.le_refl _
        · simp only [List.length_append]; omega
      have h7 : e.extlessbaselen = e.baselen - (e.len - e.extlesslen) := rfl
      omega
    rw [if_neg (fun he => by rw [h5.2 he] at hx; cases hx), show (e.extlesslen + 1).toNat = e.extlesslen.toNat + 1 by omega, h4 x hx]

example : ∃ e, fileEntry "*.gz".toList "../foo.tar.gz".toList "foo.tar.gz".toList 1 5 = .ok e ∧ extension e = some "gz".toList := by
  obtain ⟨e, h⟩ : ∃ e, fileEntry "*.gz".toList "../foo.tar.gz".toList "foo.tar.gz".toList 1 5 = .ok e := ⟨_, rfl⟩
  exact ⟨e, h, c51_extension h (by decide) (.inr ⟨"..".toList, by decide⟩)
    (Named.ext (s := "foo.tar".toList) (e := "gz".toList) (by decide) (by decide))⟩

/-- A world in which the state counts the commands; more than two fail. -/
def exW : World Nat :=
  ⟨fun s => if s = "<g".toList then none else some [s], fun s _ _ => some (s, []),
    fun s _ => if s < 2 then some (s + 1) else none⟩

def exT : Table := fun n =>
  if n = "!cc".toList then some ⟨true, none, "gcc -c %f".toList, ["%B.o".toList], []⟩
  else if n = "!cc.d".toList then some ⟨false, some "x".toList, "dmd %f".toList, ["%B.obj".toList], ["%B.map".toList]⟩
  else none

def exR : Rule :=
  ⟨false, false, addAll .empty [exC, exD, exC], [], .empty, .empty, "!cc".toList, none, [], ["log".toList], []⟩

theorem exR_fresh : Fresh exR :=
  ⟨rfl, rfl, rfl, .step (op := .add exC) (.step (op := .add exD) (.step (op := .add exC) .init))⟩

theorem exR_foreach : Foreach exT exR := .inr ⟨⟨"cc".toList, rfl⟩, _, rfl, rfl⟩

/-- Two inputs (one twice), the macro for each extension, and none of the outputs of the first gets to the second. -/
example : (execute exW exT 0 exR).map (fun x => (x.1, x.2.map fun j => (j.inputs.entries, j.command, j.outputs,
      j.bangExtra, j.extraOutputs))) =
    some (2, [([exC], "gcc -c %f".toList, ["%B.o".toList], [], ["log".toList]),
      ([exD], "dmd %f".toList, ["%B.obj".toList], ["%B.map".toList], ["log".toList])]) := rfl

/-- A rule that is not `foreach`, with an input pattern that matches nothing. -/
example : execute exW exT 0 { exR with inputs := .empty, command := "ld".toList } = some (0, []) := rfl
example : ¬ Foreach exT { exR with inputs := .empty, command := "ld".toList } := by
  rw [← foreach_iff]; decide
/-- ... and without input pattern. -/
example : (execute exW exT 0 { exR with inputs := .empty, command := "ld".toList, emptyInput := true }).map
    (fun x => (x.1, x.2.length)) = some (1, 1) := by decide

example : Line "!cc  = foreach | a.h |> gcc |> %B.o | x".toList "!cc".toList
    "foreach | a.h |> gcc |> %B.o | x".toList :=
  ⟨"  ".toList, " ".toList, by decide, by decide, by decide, by decide, by decide, by decide⟩
example : (match define exW.paths (fun _ => none) "!cc  = foreach | a.h |> gcc |> %B.o | x".toList with
    | .ok T => T "!cc".toList
    | _ => none) = some ⟨true, some "a.h".toList, "gcc".toList, ["%B.o ".toList], ["x".toList]⟩ := by decide
/-- The crash. -/
example : define exW.paths (fun _ => none) "!m = |> cmd |> <g".toList = .ub := rfl
example : define exW.paths exT "!cc = !cc".toList = .error := rfl

end Tup.Execute
