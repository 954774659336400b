import Verif.Config.Spec

/-! Lemmas for C15 and C18. -/

namespace Tup.Config

theorem findNl_append {l t : Str} (h1 : '\n' ∉ l) (h2 : Char.ofNat 0 ∉ l) : findNl (l ++ '\n' :: t) = .found l := by
  induction l with
  | nil => rw [List.nil_append, findNl, if_pos rfl]
  | cons c l ih =>
    simp only [List.mem_cons, not_or] at h1 h2
    rw [List.cons_append, findNl, if_neg (Ne.symm h1.1), if_neg (Ne.symm h2.1), ih h1.2 h2.2]

theorem findNl_found {s l : Str} (h : findNl s = .found l) : '\n' ∉ l ∧ Char.ofNat 0 ∉ l ∧ ∃ t, s = l ++ '\n' :: t := by
  induction s generalizing l with
  | nil => cases h
  | cons c s ih =>
    rw [findNl] at h
    split at h
    · next hc => cases h; subst hc; exact ⟨by simp, by simp, s, rfl⟩
    · next hc =>
      split at h
      · cases h
      · next hc' =>
        cases hs : findNl s with
        | found l' =>
          rw [hs] at h
          cases h
          obtain ⟨h1, h2, t, rfl⟩ := ih hs
          refine ⟨?_, ?_, t, rfl⟩
          · simp only [List.mem_cons, not_or]; exact ⟨Ne.symm hc, h1⟩
          · simp only [List.mem_cons, not_or]; exact ⟨Ne.symm hc', h2⟩
        | nul => rw [hs] at h; cases h
        | past => rw [hs] at h; cases h

theorem findNl_past {s : Str} : findNl s = .past ↔ '\n' ∉ s ∧ Char.ofNat 0 ∉ s := by
  induction s with
  | nil => simp [findNl]
  | cons c s ih =>
    rw [findNl]
    split
    · next hc => subst hc; simp
    · next hc =>
      split
      · next hc' => subst hc'; simp
      · next hc' =>
        simp only [List.mem_cons, not_or]
        cases hs : findNl s with
        | found l =>
          rw [hs] at ih
          simp only [reduceCtorEq, false_iff] at ih ⊢
          exact fun h => ih ⟨h.1.2, h.2.2⟩
        | nul =>
          rw [hs] at ih
          simp only [reduceCtorEq, false_iff] at ih ⊢
          exact fun h => ih ⟨h.1.2, h.2.2⟩
        | past =>
          obtain ⟨h1, h2⟩ := ih.1 hs
          simp only [true_iff]
          exact ⟨⟨Ne.symm hc, h1⟩, Ne.symm hc', h2⟩

theorem parse_cons {s line : Str} (h : findNl s = .found line) :
    parse s = match parseLine (trimEnd line) with
      | none => .error
      | some b => Res.cons b (parse (s.drop ((trimEnd line).length + 1))) := by
  cases s with
  | nil => cases h
  | cons c s =>
    rw [parse]
    simp only [h]
    rfl

theorem trimEnd_blank {w : Str} (h : Blank w) : trimEnd w = [] := by
  have := trimEnd_append (s := []) h (by simp)
  rwa [List.nil_append] at this

/-- The remaining white space of a line is passed over. -/
theorem parse_blank {w t : Str} (h1 : Blank w) (h2 : '\n' ∉ w) (h3 : Char.ofNat 0 ∉ w) :
    parse (w ++ '\n' :: t) = parse t := by
  induction w with
  | nil =>
    rw [parse_cons (findNl_append h2 h3), trimEnd_blank h1]
    show Res.cons none (parse t) = _
    cases parse t <;> rfl
  | cons c w ih =>
    rw [parse_cons (findNl_append h2 h3), trimEnd_blank h1]
    simp only [List.mem_cons, not_or] at h2 h3
    show Res.cons none (parse (w ++ '\n' :: t)) = _
    rw [ih (fun x hx => h1 x (List.mem_cons_of_mem _ hx)) h2.2 h3.2]
    cases parse t <;> rfl

theorem parse_line {l t : Str} (h2 : '\n' ∉ l) (h3 : Char.ofNat 0 ∉ l) :
    parse (l ++ '\n' :: t) = match parseLine (trimEnd l) with
      | none => .error
      | some b => Res.cons b (parse t) := by
  rw [parse_cons (findNl_append h2 h3)]
  obtain ⟨w, hw, hl⟩ := trimEnd_split l
  cases hp : parseLine (trimEnd l) with
  | none => rfl
  | some b =>
    simp only
    congr 1
    cases w with
    | nil =>
      rw [List.append_nil] at hl
      rw [← hl]
      have : (l ++ '\n' :: t).drop (l.length + 1) = t := by
        rw [List.drop_append]
        simp
      rw [this]
    | cons c w =>
      have h2' : '\n' ∉ w := fun h => h2 (by rw [hl]; simp [h])
      have h3' : Char.ofNat 0 ∉ w := fun h => h3 (by rw [hl]; simp [h])
      have : (l ++ '\n' :: t).drop ((trimEnd l).length + 1) = w ++ '\n' :: t := by
        have h0 : l ++ '\n' :: t = trimEnd l ++ (c :: w ++ '\n' :: t) := by
          rw [← List.append_assoc, ← hl]
        rw [h0, List.drop_append]
        simp
      rw [this]
      exact parse_blank (fun x hx => hw x (List.mem_cons_of_mem _ hx)) h2' h3'

theorem trimEnd_keep {a t : Str} {c : Char} (hc : isSpace c = false) :
    trimEnd (a ++ c :: t) = a ++ c :: trimEnd t := by
  obtain ⟨w, hw, ht⟩ := trimEnd_split t
  have : a ++ c :: t = (a ++ c :: trimEnd t) ++ w := by
    conv => lhs; rw [ht]
    simp
  rw [this]
  refine trimEnd_append hw ?_
  intro d hd
  rw [List.getLast?_append] at hd
  cases hl : (trimEnd t).getLast? with
  | none =>
    have := List.getLast?_eq_none_iff.1 hl
    rw [this] at hd
    simp at hd
    rw [← hd]; exact hc
  | some e =>
    rw [List.getLast?_cons, hl] at hd
    simp at hd
    rw [← hd]; exact trimEnd_last e hl

theorem trimEnd_nil {l : Str} (h : trimEnd l = []) : Blank l := by
  obtain ⟨w, hw, hl⟩ := trimEnd_split l
  rw [h, List.nil_append] at hl
  rw [hl]; exact hw

theorem line_parse {l : Str} {b : Option (Str × Str)} (h : Line l b) : parseLine (trimEnd l) = some b := by
  cases h with
  | blank h => rw [trimEnd_blank h]; rfl
  | @comment t h =>
    have h1 : trimEnd ('#' :: t) = '#' :: trimEnd t := trimEnd_keep (a := []) (by decide)
    rw [h1, parseLine, if_neg (by simp), if_pos (by rfl), if_neg]
    intro hp
    obtain ⟨u, hu⟩ := (isPrefixOf_iff _ _).1 hp
    obtain ⟨w, _, ht⟩ := trimEnd_split t
    apply h
    refine ⟨u ++ w, ?_⟩
    rw [ht]
    have : trimEnd t = " CONFIG_".toList ++ u := List.cons.inj hu |>.2
    rw [this, List.append_assoc]
  | @unset x t hx ht =>
    have h0 : trimEnd t ≠ [] := fun h => ht (trimEnd_nil h)
    obtain ⟨w, hw, hs⟩ := trimEnd_split t
    have h1 : trimEnd ("# CONFIG_".toList ++ x ++ ' ' :: t) = "# CONFIG_".toList ++ x ++ ' ' :: trimEnd t := by
      conv => lhs; rw [hs]
      rw [show "# CONFIG_".toList ++ x ++ ' ' :: (trimEnd t ++ w) = ("# CONFIG_".toList ++ x ++ ' ' :: trimEnd t) ++ w by simp]
      refine trimEnd_append hw ?_
      intro d hd
      rw [List.getLast?_append] at hd
      cases hl : (trimEnd t).getLast? with
      | none => exact absurd (List.getLast?_eq_none_iff.1 hl) h0
      | some e =>
        rw [List.getLast?_cons, hl] at hd
        simp at hd
        rw [← hd]; exact trimEnd_last e hl
    rw [h1, parseLine, if_neg (by simp), if_pos (by simp), if_pos]
    · rw [List.append_assoc, show (9 : Nat) = "# CONFIG_".toList.length from rfl, List.drop_left, strchr_append hx]
    · rw [isPrefixOf_iff]; exact ⟨x ++ ' ' :: trimEnd t, by simp⟩
  | @plain x v w hx hv hl hw =>
    have h1 : trimEnd ("CONFIG_".toList ++ x ++ '=' :: v ++ w) = "CONFIG_".toList ++ x ++ '=' :: v := by
      refine trimEnd_append hw ?_
      intro d hd
      rw [List.getLast?_append] at hd
      cases hlv : v.getLast? with
      | none =>
        have := List.getLast?_eq_none_iff.1 hlv
        rw [this] at hd
        simp at hd
        rw [← hd]; decide
      | some e =>
        rw [List.getLast?_cons, hlv] at hd
        simp at hd
        rw [← hd]; exact hl e hlv
    have hx' : '=' ∉ "CONFIG_".toList ++ x := by
      rw [List.mem_append, not_or]; exact ⟨by decide, hx⟩
    rw [h1, parseLine, if_neg (by simp), if_neg (by simp), if_pos]
    · rw [strchr_append hx']
      simp only
      rw [if_neg]
      · rw [show (7 : Nat) = "CONFIG_".toList.length from rfl, List.drop_left]
      · intro h; exact hv _ h rfl
    · rw [isPrefixOf_iff]; exact ⟨x ++ '=' :: v, by simp⟩
  | @quoted x v t hx hv =>
    have h1 : trimEnd ("CONFIG_".toList ++ x ++ "=\"".toList ++ v ++ '"' :: t) =
        "CONFIG_".toList ++ x ++ "=\"".toList ++ v ++ '"' :: trimEnd t := trimEnd_keep (by decide)
    have hx' : '=' ∉ "CONFIG_".toList ++ x := by
      rw [List.mem_append, not_or]; exact ⟨by decide, hx⟩
    have h2 : "CONFIG_".toList ++ x ++ "=\"".toList ++ v ++ '"' :: trimEnd t =
        ("CONFIG_".toList ++ x) ++ '=' :: ('"' :: (v ++ '"' :: trimEnd t)) := by simp
    rw [h1, h2, parseLine, if_neg (by simp), if_neg (by simp), if_pos]
    · rw [strchr_append hx']
      simp only
      rw [if_pos (by rfl)]
      rw [show ('"' :: (v ++ '"' :: trimEnd t)).drop 1 = v ++ '"' :: trimEnd t from rfl, strchr_append hv]
      simp only
      rw [show (7 : Nat) = "CONFIG_".toList.length from rfl, List.drop_left]
    · rw [isPrefixOf_iff]; exact ⟨x ++ '=' :: ('"' :: (v ++ '"' :: trimEnd t)), by simp⟩

theorem parse_of_line {l : Str} {b : Option (Str × Str)} (h : parseLine (trimEnd l) = some b) : Line l b := by
  obtain ⟨w, hw, hl⟩ := trimEnd_split l
  have hlast := @trimEnd_last l
  generalize hp : trimEnd l = p at h hl hlast
  rw [parseLine] at h
  split at h
  · next hnil =>
    cases h
    exact .blank (trimEnd_nil (hp.trans hnil))
  · next hne =>
    split at h
    · next hh =>
      cases p with
      | nil => exact absurd rfl hne
      | cons c p =>
        cases hh
        split at h
        · next hpre =>
          obtain ⟨u, hu⟩ := (isPrefixOf_iff _ _).1 hpre
          rw [hu, show (9 : Nat) = "# CONFIG_".toList.length from rfl, List.drop_left] at h
          cases hc : strchr ' ' u with
          | none => rw [hc] at h; cases h
          | some q =>
            obtain ⟨x, t⟩ := q
            rw [hc] at h
            cases h
            obtain ⟨h1, h2⟩ := strchr_some hc
            have : l = "# CONFIG_".toList ++ x ++ ' ' :: (t ++ w) := by rw [hl, hu, h1]; simp
            rw [this]
            refine .unset h2 ?_
            intro hb
            have hlast' := hlast
            rw [hu, h1] at hlast'
            cases hlt : t.getLast? with
            | none =>
              have := List.getLast?_eq_none_iff.1 hlt
              subst this
              have := hlast' ' ' (by rw [List.getLast?_append, List.getLast?_append]; rfl)
              exact absurd this (by decide)
            | some e =>
              have h3 : e ∈ t := List.mem_of_getLast? hlt
              have := hlast' e (by rw [List.getLast?_append, List.getLast?_append, List.getLast?_cons, hlt]; simp)
              rw [hb e (List.mem_append_left _ h3)] at this
              cases this
        · next hpre =>
          cases h
          rw [hl]
          refine .comment ?_
          rintro ⟨u, hu⟩
          apply hpre
          rw [isPrefixOf_iff]
          -- the prefix lies in front of the white space
          rcases List.append_eq_append_iff.1 hu with ⟨a, ha, hb⟩ | ⟨a, ha, hb⟩
          · -- " CONFIG_" = p ++ a
            cases a with
            | nil => exact ⟨[], by rw [List.append_nil] at ha ⊢; rw [← ha]; rfl⟩
            | cons c a =>
              exfalso
              have hmem : '_' ∈ w := by
                rw [hb]
                have : (c :: a).getLast? = some '_' := by
                  have := congrArg List.getLast? ha
                  rw [List.getLast?_append, List.getLast?_cons] at this
                  simp at this
                  rw [List.getLast?_cons]
                  simp [← this]
                exact List.mem_append_left _ (List.mem_of_getLast? this)
              exact absurd (hw _ hmem) (by decide)
          · exact ⟨a, by rw [ha]; rfl⟩
    · next hh =>
      split at h
      · next hpre =>
        obtain ⟨u, hu⟩ := (isPrefixOf_iff _ _).1 hpre
        cases hc : strchr '=' p with
        | none => rw [hc] at h; cases h
        | some q =>
          obtain ⟨a, v⟩ := q
          rw [hc] at h
          simp only at h
          obtain ⟨h1, h2⟩ := strchr_some hc
          have ha : ∃ x, a = "CONFIG_".toList ++ x := by
            rw [hu] at h1
            rcases List.append_eq_append_iff.1 h1 with ⟨d, hd, _⟩ | ⟨d, hd, hd'⟩
            · exact ⟨d, hd⟩
            · cases d with
              | nil => exact ⟨[], by rw [List.append_nil] at hd ⊢; exact hd.symm⟩
              | cons y d =>
                exfalso
                simp only [List.cons_append, List.cons.injEq] at hd'
                have hm : '=' ∈ "CONFIG_".toList := by rw [hd, hd'.1]; simp
                exact absurd hm (by decide)
          obtain ⟨x, rfl⟩ := ha
          have hx : '=' ∉ x := fun hm => h2 (List.mem_append_right _ hm)
          rw [show (7 : Nat) = "CONFIG_".toList.length from rfl, List.drop_left] at h
          split at h
          · next hq =>
            cases v with
            | nil => cases hq
            | cons d v =>
              cases hq
              rw [show ('"' :: v).drop 1 = v from rfl] at h
              cases hc' : strchr '"' v with
              | none => rw [hc'] at h; cases h
              | some q =>
                obtain ⟨y, t⟩ := q
                rw [hc'] at h
                cases h
                obtain ⟨h3, h4⟩ := strchr_some hc'
                have : l = "CONFIG_".toList ++ x ++ "=\"".toList ++ y ++ '"' :: (t ++ w) := by
                  rw [hl, h1, h3]; simp
                rw [this]
                exact .quoted hx h4
          · next hq =>
            cases h
            have : l = "CONFIG_".toList ++ x ++ '=' :: v ++ w := by rw [hl, h1]
            rw [this]
            refine .plain hx ?_ ?_ hw
            · intro c hc0 hc1; subst hc1; exact hq hc0
            · intro c hc0
              apply hlast
              rw [h1, List.getLast?_append, List.getLast?_cons, hc0]
              simp
      · cases h

theorem res_cons_ok {b : Option (Str × Str)} {r : Res} {bs : List (Str × Str)} (h : Res.cons b r = .ok bs) :
    ∃ l, r = .ok l ∧ bs = b.toList ++ l := by
  cases r with
  | ok l => cases h; exact ⟨l, rfl, rfl⟩
  | error => cases h
  | ub => cases h

theorem parse_file {s : Str} {bs : List (Str × Str)} (h : File s bs) : parse s = .ok bs := by
  induction h with
  | nil => rw [parse]
  | cons h1 h2 h3 _ ih => rw [parse_line h1 h2, line_parse h3, ih]; rfl

/-- By induction on the lines. -/
theorem lines_induct {P : Str → Prop} (nil : P [])
    (last : ∀ l, l ≠ [] → (findNl l = .nul ∨ findNl l = .past) → P l)
    (line : ∀ l t, '\n' ∉ l → Char.ofNat 0 ∉ l → P t → P (l ++ '\n' :: t)) (s : Str) : P s := by
  generalize hn : s.length = n
  induction n using Nat.strongRecOn generalizing s with
  | ind n ih =>
    cases hs : s with
    | nil => exact nil
    | cons c s' =>
      rw [← hs]
      have hne : s ≠ [] := by rw [hs]; simp
      cases hf : findNl s with
      | nul => exact last s hne (.inl hf)
      | past => exact last s hne (.inr hf)
      | found l =>
        obtain ⟨h1, h2, t, ht⟩ := findNl_found hf
        rw [ht]
        refine line l t h1 h2 (ih t.length ?_ t rfl)
        rw [← hn, ht, List.length_append, List.length_cons]
        omega

theorem parse_last {l : Str} (hne : l ≠ []) :
    (findNl l = .nul → parse l = .error) ∧ (findNl l = .past → parse l = .ub) := by
  cases l with
  | nil => exact absurd rfl hne
  | cons c s => constructor <;> intro h <;> rw [parse, h]

theorem file_of_parse (s : Str) : ∀ bs, parse s = .ok bs → File s bs := by
  induction s using lines_induct with
  | nil => intro bs h; rw [parse] at h; cases h; exact .nil
  | last l hne hf =>
    intro bs h
    rcases hf with hf | hf
    · rw [(parse_last hne).1 hf] at h; cases h
    · rw [(parse_last hne).2 hf] at h; cases h
  | line l t h1 h2 ih =>
    intro bs h
    rw [parse_line h1 h2] at h
    cases hp : parseLine (trimEnd l) with
    | none => rw [hp] at h; cases h
    | some b =>
      rw [hp] at h
      obtain ⟨m, h3, rfl⟩ := res_cons_ok h
      exact .cons h1 h2 (parse_of_line hp) (ih m h3)

/-! varsed -/

theorem isWord_iff (c : Char) : isWord c = true ↔ c.isAlphanum = true ∨ c = '_' := by
  simp only [isWord, Char.isAlphanum, Char.isAlpha, Char.isUpper, Char.isLower, Char.isDigit, Bool.or_eq_true,
    Bool.and_eq_true, decide_eq_true_eq, ge_iff_le, UInt32.le_iff_toNat_le, Char.toNat]
  constructor
  · rintro (((h | h) | h) | h)
    · exact .inl (.inl (.inr h))
    · exact .inl (.inl (.inl h))
    · exact .inl (.inr h)
    · exact .inr h
  · rintro (((h | h) | h) | h)
    · exact .inl (.inl (.inr h))
    · exact .inl (.inl (.inl h))
    · exact .inl (.inr h)
    · exact .inr h

theorem subst_iff {look : Str → Option Str} {bin : Bool} {n v : Str} : Subst look bin n v ↔ v = value look bin n := by
  unfold value
  constructor
  · intro h
    cases h with
    | absent h => rw [h]
    | yes h hb => rw [h, hb]; rfl
    | no h hb => rw [h, hb]; rfl
    | value h hb =>
      rw [h]
      simp only
      cases bin with
      | false => rfl
      | true =>
        obtain ⟨h1, h2⟩ := hb rfl
        split
        · next hl =>
          match v, hl with
          | [c], _ =>
            rw [if_neg, if_neg]
            · intro h; cases h; exact h2 rfl
            · intro h; cases h; exact h1 rfl
          | [], hl => simp at hl
          | _ :: _ :: _, hl => simp at hl
        · rfl
  · intro h
    subst h
    cases hl : look n with
    | none => exact .absent hl
    | some v =>
      simp only
      cases bin with
      | false => exact .value hl (by intro h; cases h)
      | true =>
        split
        · next hlen =>
          match v, hlen with
          | [c], _ =>
            split
            · next h => cases h; exact .yes hl rfl
            · next h1 =>
              split
              · next h => cases h; exact .no hl rfl
              · next h2 =>
                refine .value hl fun _ => ⟨?_, ?_⟩
                · intro h; cases h; exact h1 rfl
                · intro h; cases h; exact h2 rfl
          | [], hl => simp at hl
          | _ :: _ :: _, hl => simp at hl
        · next hlen =>
          refine .value hl fun _ => ⟨?_, ?_⟩
          · intro h; subst h; exact hlen rfl
          · intro h; subst h; exact hlen rfl

theorem replace_nil (look : Str → Option Str) (bin : Bool) : replace look bin [] = [] := by
  rw [replace]; rfl

theorem replace_eq (look : Str → Option Str) (bin : Bool) (s : Str) : replace look bin s =
    match s.dropWhile (· != '@') with
    | [] => s.takeWhile (· != '@')
    | _ :: r =>
      match r.dropWhile isWord with
      | [] => s.takeWhile (· != '@') ++ '@' :: r.takeWhile isWord
      | d :: t =>
        if d = '@' then s.takeWhile (· != '@') ++ value look bin (r.takeWhile isWord) ++ replace look bin t
        else s.takeWhile (· != '@') ++ '@' :: r.takeWhile isWord ++ replace look bin (d :: t) := by
  rw [replace]
  split
  · next h => simp only [h]
  · next h =>
    simp only [h]
    split
    · next h' => simp only [h']
    · next h' => simp only [h']

theorem replace_byte {look : Str → Option Str} {bin : Bool} {c : Char} {s : Str} (hc : c ≠ '@') :
    replace look bin (c :: s) = c :: replace look bin s := by
  have h1 : (c :: s).dropWhile (· != '@') = s.dropWhile (· != '@') := by simp [hc]
  have h2 : (c :: s).takeWhile (· != '@') = c :: s.takeWhile (· != '@') := by simp [hc]
  rw [replace_eq, replace_eq (s := s), h1, h2]
  cases s.dropWhile (· != '@') with
  | nil => rfl
  | cons d r =>
    simp only
    cases r.dropWhile isWord with
    | nil => rfl
    | cons d t =>
      simp only
      split <;> rfl

theorem replace_at (look : Str → Option Str) (bin : Bool) (r : Str) : replace look bin ('@' :: r) =
    match r.dropWhile isWord with
    | [] => '@' :: r.takeWhile isWord
    | d :: t =>
      if d = '@' then value look bin (r.takeWhile isWord) ++ replace look bin t
      else '@' :: r.takeWhile isWord ++ replace look bin (d :: t) := by
  have h1 : ('@' :: r).dropWhile (· != '@') = '@' :: r := by simp
  have h2 : ('@' :: r).takeWhile (· != '@') = [] := by simp
  rw [replace]
  split
  · next h => rw [h1] at h; cases h
  · next h =>
    rw [h1] at h
    cases h
    rw [h2]
    split
    · next h => simp only [h]; rfl
    · next h => simp only [h]; rfl

theorem word_takeWhile (r : Str) : Word (r.takeWhile isWord) := by
  intro c hc
  exact (isWord_iff c).1 (List.all_eq_true.1 List.all_takeWhile c hc)

theorem span_word {n u : Str} (hn : Word n) (hu : ∀ c, u.head? = some c → isWord c = false) :
    (n ++ u).takeWhile isWord = n ∧ (n ++ u).dropWhile isWord = u := by
  induction n with
  | nil =>
    cases u with
    | nil => exact ⟨rfl, rfl⟩
    | cons c u => have := hu c rfl; simp [this]
  | cons c n ih =>
    have hc : isWord c = true := (isWord_iff c).2 (hn c List.mem_cons_self)
    obtain ⟨h1, h2⟩ := ih fun x hx => hn x (List.mem_cons_of_mem _ hx)
    simp [hc, h1, h2]

theorem isWord_at : isWord '@' = false := by decide

theorem word_at {n : Str} (hn : Word n) : '@' ∉ n := by
  intro h
  have := (isWord_iff '@').2 (hn _ h)
  rw [isWord_at] at this
  cases this

/-- Bytes that are not at signs are copied. -/
theorem sub_bytes {look : Str → Option Str} {bin : Bool} {n s t : Str} (hn : '@' ∉ n) (h : Sub look bin s t) :
    Sub look bin (n ++ s) (n ++ t) := by
  induction n with
  | nil => exact h
  | cons c n ih =>
    simp only [List.mem_cons, not_or] at hn
    exact .byte (Ne.symm hn.1) (ih hn.2)

theorem replace_bytes {look : Str → Option Str} {bin : Bool} {n s : Str} (hn : '@' ∉ n) :
    replace look bin (n ++ s) = n ++ replace look bin s := by
  induction n with
  | nil => rfl
  | cons c n ih =>
    simp only [List.mem_cons, not_or] at hn
    rw [List.cons_append, replace_byte (Ne.symm hn.1), ih hn.2]
    rfl

theorem replace_single {look : Str → Option Str} {bin : Bool} {s : Str} (h : ¬ ∃ n u, Word n ∧ s = n ++ '@' :: u) :
    replace look bin ('@' :: s) = '@' :: replace look bin s := by
  rw [replace_at]
  have hs : s = s.takeWhile isWord ++ s.dropWhile isWord := List.takeWhile_append_dropWhile.symm
  have hw := word_takeWhile s
  cases hd : s.dropWhile isWord with
  | nil =>
    rw [hd] at hs
    conv => rhs; rw [hs, replace_bytes (word_at hw), replace_nil, List.append_nil]
  | cons d t =>
    have hne : d ≠ '@' := by
      intro h0
      subst h0
      rw [hd] at hs
      exact h ⟨_, t, hw, hs⟩
    simp only
    rw [if_neg hne]
    rw [hd] at hs
    conv => rhs; rw [hs, replace_bytes (word_at hw)]
    rfl

theorem replace_sub {look : Str → Option Str} {bin : Bool} {s t : Str} (h : Sub look bin s t) :
    t = replace look bin s := by
  induction h with
  | nil => rw [replace_nil]
  | byte hc _ ih => rw [replace_byte hc, ih]
  | @var n v s t hn hv _ ih =>
    obtain ⟨h1, h2⟩ := span_word (n := n) (u := '@' :: s) hn (by intro c hc; cases hc; exact isWord_at)
    rw [List.cons_append, replace_at, h2, h1]
    simp only [if_true]
    rw [subst_iff.1 hv, ih]
  | «at» h _ ih => rw [replace_single h, ih]

theorem sub_replace (look : Str → Option Str) (bin : Bool) (s : Str) : Sub look bin s (replace look bin s) := by
  generalize hn : s.length = n
  induction n using Nat.strongRecOn generalizing s with
  | ind n ih =>
    cases s with
    | nil => rw [replace_nil]; exact .nil
    | cons c s =>
      simp only [List.length_cons] at hn
      by_cases hc : c = '@'
      · subst hc
        by_cases hx : ∃ n u, Word n ∧ s = n ++ '@' :: u
        · obtain ⟨m, u, hm, rfl⟩ := hx
          obtain ⟨h1, h2⟩ := span_word (n := m) (u := '@' :: u) hm (by intro c hc; cases hc; exact isWord_at)
          rw [replace_at, h2, h1]
          simp only [if_true]
          refine .var hm (subst_iff.2 rfl) (ih u.length ?_ u rfl)
          simp only [List.length_append, List.length_cons] at hn
          omega
        · rw [replace_single hx]
          exact .at hx (ih s.length (by omega) s rfl)
      · rw [replace_byte hc]
        exact .byte hc (ih s.length (by omega) s rfl)

end Tup.Config
