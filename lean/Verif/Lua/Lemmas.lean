import Verif.Lua.Spec
import Verif.PathList.Props
import Verif.Rules.Props

/-! Lemmas for C85. -/

namespace Tup.Lua

open Tup (Str)
open Tup.Bins (Base State)
open Tup.PathList (Written Denotes Sep numbered newPl Means Kind)

theorem Plain.denotes {w : Str} (h : Plain w) : Denotes w w := by
  have : ∀ t : Str, (∀ c ∈ t, isSpace c = false ∧ c ≠ '\\' ∧ c ≠ '"' ∧ c ≠ '|') → Denotes t t := by
    intro t
    induction t with
    | nil => exact fun _ => .nil
    | cons c t ih =>
      intro h
      have hc := h c (.head _)
      exact .plain hc.2.1 hc.2.2.1 hc.1 (ih fun d hd => h d (.tail _ hd))
  exact this w h.chars

theorem sep_space : Sep [' '] := ⟨by simp, by intro c hc; rw [List.mem_singleton.mp hc]; decide⟩

theorem joined_cons {w : Str} {l : List Str} (h : l ≠ []) : joined (w :: l) = w ++ ' ' :: joined l := by
  cases l with
  | nil => exact absurd rfl h
  | cons x l => rfl

theorem joined_head {l : List Str} (h : ∀ w ∈ l, Plain w) : ∀ c, (joined l).head? = some c → isSpace c = false := by
  cases l with
  | nil => intro c hc; cases hc
  | cons w l =>
    intro c hc
    have p := h w (.head _)
    have : (joined (w :: l)).head? = w.head? := by
      cases w with
      | nil => exact absurd rfl p.ne
      | cons x w => cases l <;> rfl
    rw [this] at hc
    exact (p.chars c (List.mem_of_mem_head? hc)).1

theorem joined_nil_iff {l : List Str} (h : ∀ w ∈ l, Plain w) : joined l = [] ↔ l = [] := by
  cases l with
  | nil => simp [joined]
  | cons w l =>
    have p := h w (.head _)
    cases l with
    | nil => simp [joined, p.ne]
    | cons x l => simp [joined]

theorem joined_last {l : List Str} (h : ∀ w ∈ l, Plain w) : ∀ c, (joined l).getLast? = some c → isSpace c = false := by
  induction l with
  | nil => intro c hc; cases hc
  | cons w l ih =>
    intro c hc
    cases l with
    | nil =>
      have p := h w (.head _)
      exact (p.chars c (List.mem_of_getLast? hc)).1
    | cons x l =>
      have e : joined (w :: x :: l) = w ++ (' ' :: joined (x :: l)) := rfl
      have ne : joined (x :: l) ≠ [] := by
        rw [Ne, joined_nil_iff fun y hy => h y (.tail _ hy)]; simp
      rw [e, List.getLast?_append, List.getLast?_cons] at hc
      refine ih (fun y hy => h y (.tail _ hy)) c ?_
      cases hl : (joined (x :: l)).getLast? with
      | none => rw [List.getLast?_eq_none_iff] at hl; exact absurd hl ne
      | some d => rw [hl] at hc; simpa using hc

theorem joined_bar {l : List Str} (h : ∀ w ∈ l, Plain w) : '|' ∉ joined l := by
  induction l with
  | nil => simp [joined]
  | cons w l ih =>
    have p := h w (.head _)
    have hw : '|' ∉ w := fun e => (p.chars _ e).2.2.2 rfl
    cases l with
    | nil => exact hw
    | cons x l =>
      intro e
      rcases List.mem_append.mp (show '|' ∈ w ++ ' ' :: joined (x :: l) from e) with e | e
      · exact hw e
      · rcases List.mem_cons.mp e with e | e
        · cases e
        · exact ih (fun y hy => h y (.tail _ hy)) e

theorem joined_written {l : List Str} (h : ∀ w ∈ l, Plain w) : Written (joined l) l := by
  induction l with
  | nil => exact .nil
  | cons w l ih =>
    have p := h w (.head _)
    have h' := fun y hy => h y (List.mem_cons_of_mem _ hy)
    cases l with
    | nil => exact .last p.ne p.denotes
    | cons x l =>
      have := Written.more (sep := [' ']) p.ne p.denotes sep_space (s := joined (x :: l)) (fun c r e => joined_head h' c (by rw [e]; rfl)) (ih h')
      rw [List.append_assoc] at this
      exact this

/-- A blank at the end makes no difference. -/
theorem joined_written_space {l : List Str} (hl : l ≠ []) (h : ∀ w ∈ l, Plain w) : Written (joined l ++ [' ']) l := by
  induction l with
  | nil => exact absurd rfl hl
  | cons w l ih =>
    have p := h w (.head _)
    have h' := fun y hy => h y (List.mem_cons_of_mem _ hy)
    cases l with
    | nil =>
      have := Written.more (sep := [' ']) p.ne p.denotes sep_space (s := []) (fun c r e => by cases e) .nil
      rw [List.append_nil] at this
      exact this
    | cons x l =>
      have := Written.more (sep := [' ']) p.ne p.denotes sep_space (s := joined (x :: l) ++ [' ']) (fun c r e => by
        have ne : joined (x :: l) ≠ [] := by rw [Ne, joined_nil_iff h']; simp
        cases hj : joined (x :: l) with
        | nil => exact absurd hj ne
        | cons d t =>
          rw [hj] at e
          cases e
          exact joined_head h' c (by rw [hj]; rfl)) (ih (by simp) h')
      have e : joined (w :: x :: l) ++ [' '] = w ++ [' '] ++ (joined (x :: l) ++ [' ']) := by
        show (w ++ ' ' :: joined (x :: l)) ++ [' '] = _
        simp
      rw [e]; exact this

/-- What `cutBar` finds. -/
theorem cut_barred {a b : List Str} (ha : ∀ w ∈ a, Plain w) (hb : ∀ w ∈ b, Plain w) :
    ∃ x, Rules.cutBar (barred a b) = (x, if b = [] then none else some (joined b)) ∧ Written x a := by
  unfold barred
  by_cases e : b = []
  · rw [if_pos e, if_pos e]
    exact ⟨joined a, by rw [Rules.cutBar, strchr_none.2 (joined_bar ha)], joined_written ha⟩
  · rw [if_neg e, if_neg e]
    have sk : skipSpaces (' ' :: joined b) = joined b := by
      have : skipSpaces ([' '] ++ joined b) = skipSpaces (joined b) := skipSpaces_append (by intro c hc; rw [List.mem_singleton.mp hc]; decide)
      exact this.trans (skipSpaces_of (joined_head hb))
    by_cases e' : a = []
    · rw [if_pos e']
      subst e'
      refine ⟨[], ?_, .nil⟩
      have := strchr_append (c := '|') (a := []) (b := ' ' :: joined b) (by simp)
      rw [List.nil_append] at this
      rw [Rules.cutBar, this]; dsimp only; rw [sk]
    · rw [if_neg e']
      refine ⟨joined a ++ [' '], ?_, joined_written_space e' ha⟩
      have := strchr_append (c := '|') (a := joined a ++ [' ']) (b := ' ' :: joined b) (by
        intro h
        rcases List.mem_append.mp h with h | h
        · exact joined_bar ha h
        · rw [List.mem_singleton] at h; cases h)
      have e2 : joined a ++ ' ' :: '|' :: ' ' :: joined b = (joined a ++ [' ']) ++ '|' :: ' ' :: joined b := by simp
      rw [Rules.cutBar, e2, this]; dsimp only; rw [sk]

theorem barred_nil_iff {a b : List Str} (ha : ∀ w ∈ a, Plain w) : barred a b = [] ↔ a = [] ∧ b = [] := by
  unfold barred
  by_cases e : b = []
  · simp [e, joined_nil_iff ha]
  · by_cases e' : a = [] <;> simp [e, e']

theorem barred_tight {a b : List Str} (ha : ∀ w ∈ a, Plain w) (hb : ∀ w ∈ b, Plain w) : Rules.Tight (barred a b) := by
  unfold barred
  by_cases e : b = []
  · rw [if_pos e]; exact ⟨joined_head ha, joined_last ha⟩
  · rw [if_neg e]
    have ne : joined b ≠ [] := by rw [Ne, joined_nil_iff hb]; exact e
    have last : ∀ x : Str, ∀ c, (x ++ joined b).getLast? = some c → isSpace c = false := by
      intro x c hc
      rw [List.getLast?_append] at hc
      refine joined_last hb c ?_
      cases hl : (joined b).getLast? with
      | none => rw [List.getLast?_eq_none_iff] at hl; exact absurd hl ne
      | some d => rw [hl] at hc; simpa using hc
    by_cases e' : a = []
    · rw [if_pos e']
      refine ⟨fun c hc => ?_, fun c hc => last ['|', ' '] c hc⟩
      cases hc; decide
    · rw [if_neg e']
      refine ⟨fun c hc => ?_, fun c hc => last (joined a ++ [' ', '|', ' ']) c (by simpa using hc)⟩
      refine joined_head ha c ?_
      have na : joined a ≠ [] := by rw [Ne, joined_nil_iff ha]; exact e'
      cases hj : joined a with
      | nil => exact absurd hj na
      | cons d t => rw [hj] at hc; exact hc

theorem no_marker {x : Str} (h : '|' ∉ x) : ¬ Occurs "|>".toList x := by
  rintro ⟨a, b, e⟩
  apply h
  rw [e]
  simp

theorem no_marker_bar {x y : Str} (hx : '|' ∉ x) (hy : '|' ∉ y) : ¬ Occurs "|>".toList (x ++ '|' :: ' ' :: y) := by
  rintro ⟨a, b, e⟩
  have e : x ++ '|' :: ' ' :: y = a ++ '|' :: '>' :: b := by rw [e]; simp
  by_cases ha : '|' ∈ a
  · have c1 : (x ++ '|' :: ' ' :: y).count '|' = 1 := by
      rw [List.count_append, List.count_cons_self, List.count_cons_of_ne (by decide), List.count_eq_zero.mpr hx, List.count_eq_zero.mpr hy]
    have c2 : 2 ≤ (a ++ '|' :: '>' :: b).count '|' := by
      rw [List.count_append, List.count_cons_self]
      have := List.count_pos_iff.mpr ha
      omega
    rw [e] at c1
    omega
  · have h1 := strchr_append (c := '|') (a := x) (b := ' ' :: y) hx
    have h2 := strchr_append (c := '|') (a := a) (b := '>' :: b) ha
    rw [e, h2] at h1
    have := (Prod.mk.inj (Option.some.inj h1)).2
    cases this

/-- The separator does not occur in the text before it. -/
theorem barred_marker {a b : List Str} (p q : Str) (hp : '|' ∉ p) (hq : '|' ∉ q) (ha : ∀ w ∈ a, Plain w) (hb : ∀ w ∈ b, Plain w) :
    ¬ Occurs "|>".toList (p ++ barred a b ++ q) := by
  have nm : ∀ {x y : Str}, '|' ∉ x → '|' ∉ y → '|' ∉ x ++ y := fun h1 h2 h => by
    rcases List.mem_append.mp h with h | h
    · exact h1 h
    · exact h2 h
  unfold barred
  by_cases e : b = []
  · rw [if_pos e]
    exact no_marker (nm (nm hp (joined_bar ha)) hq)
  · rw [if_neg e]
    by_cases e' : a = []
    · rw [if_pos e']
      have : p ++ '|' :: ' ' :: joined b ++ q = p ++ '|' :: ' ' :: (joined b ++ q) := by simp
      rw [this]
      exact no_marker_bar hp (nm (joined_bar hb) hq)
    · rw [if_neg e']
      have : p ++ (joined a ++ ' ' :: '|' :: ' ' :: joined b) ++ q = (p ++ joined a ++ [' ']) ++ '|' :: ' ' :: (joined b ++ q) := by simp
      rw [this]
      exact no_marker_bar (nm (nm hp (joined_bar ha)) (by simp)) (nm (joined_bar hb) hq)

/-- No bin begins in the text. -/
def NoBin (o : Str) : Prop := ∀ a b, o = a ++ b → ¬ Rules.BinAt a b

theorem noBin_nil : NoBin [] := by
  intro a b e h
  have := h.1
  have : b = [] := (List.append_eq_nil_iff.mp e.symm).2
  rw [this] at h
  cases h.1

theorem noBin_word {w : Str} (h : ∀ c ∈ w, isSpace c = false) (h' : w.head? ≠ some '{') : NoBin w := by
  rintro a b e ⟨hb, ha⟩
  rcases ha with rfl | ⟨d, hd, hs⟩
  · rw [List.nil_append] at e; rw [e] at h'; exact h' hb
  · have : d ∈ w := by rw [e]; exact List.mem_append_left _ (List.mem_of_getLast? hd)
    rw [h d this] at hs; cases hs

theorem noBin_append {o o' sep : Str} (h : NoBin o) (hs : Rules.Blank sep) (h' : NoBin o') : NoBin (o ++ sep ++ o') := by
  intro a b e hb
  have h1 : NoBin (o ++ sep) := Rules.noBin_append_blank hs h
  rcases List.append_eq_append_iff.mp e with ⟨t, ht, e2⟩ | ⟨t, ht, e2⟩
  · -- a = (o ++ sep) ++ t, o' = t ++ b
    refine h' t b e2 ⟨hb.1, ?_⟩
    cases t with
    | nil => exact .inl rfl
    | cons x t =>
      right
      rcases hb.2 with hn | ⟨d, hd, hsd⟩
      · rw [ht] at hn; simp at hn
      · refine ⟨d, ?_, hsd⟩
        rw [ht, List.getLast?_append] at hd
        cases hl : (x :: t).getLast? with
        | none => simp at hl
        | some y => rw [hl] at hd; simpa using hd
  · -- o ++ sep = a ++ t, b = t ++ o'
    cases t with
    | nil =>
      rw [List.append_nil] at ht
      rw [List.nil_append] at e2
      subst e2
      exact h' [] b rfl ⟨hb.1, .inl rfl⟩
    | cons x t =>
      refine h1 a (x :: t) ht ⟨?_, hb.2⟩
      have := hb.1
      rw [e2] at this
      exact this

theorem noBin_joined {l : List Str} (h : ∀ w ∈ l, Plain w ∧ w.head? ≠ some '{') : NoBin (joined l) := by
  induction l with
  | nil => exact noBin_nil
  | cons w l ih =>
    have p := h w (.head _)
    have hw := noBin_word (fun c hc => (p.1.chars c hc).1) p.2
    cases l with
    | nil => exact hw
    | cons x l =>
      have := noBin_append (sep := [' ']) hw sep_space.2 (ih fun y hy => h y (.tail _ hy))
      rw [List.append_assoc] at this
      exact this

theorem noBin_barred {a b : List Str} (ha : ∀ w ∈ a, Plain w ∧ w.head? ≠ some '{') (hb : ∀ w ∈ b, Plain w ∧ w.head? ≠ some '{') : NoBin (barred a b) := by
  have bar : NoBin ['|'] := noBin_word (by intro c hc; rw [List.mem_singleton.mp hc]; decide) (by decide)
  have right : NoBin ('|' :: ' ' :: joined b) := noBin_append (o := ['|']) (sep := [' ']) bar sep_space.2 (noBin_joined hb)
  unfold barred
  split
  · exact noBin_joined ha
  · split
    · exact right
    · have := noBin_append (sep := [' ']) (noBin_joined ha) sep_space.2 right
      rw [List.append_assoc] at this
      exact this

/-- A text that may be missing holds these words. -/
def OptWritten : Option Str → List Str → Prop
  | none, l => l = []
  | some x, l => Written x l

theorem prefix_word {p w r : Str} (hp : ' ' ∉ p) (hr : r = [] ∨ r.head? = some ' ') {t : Str} (e : w ++ r = p ++ t) : ∃ t, w = p ++ t := by
  rcases List.append_eq_append_iff.mp e with ⟨x, hx, e2⟩ | ⟨x, hx, _⟩
  · cases x with
    | nil => exact ⟨[], by rw [hx]; simp⟩
    | cons c x =>
      rcases hr with rfl | hr
      · cases e2
      · rw [e2] at hr
        cases hr
        exact absurd (by rw [hx]; simp) hp
  · exact ⟨x, hx⟩

theorem barred_cons (w : Str) (l b : List Str) : ∃ r, barred (w :: l) b = w ++ r ∧ (r = [] ∨ r.head? = some ' ') := by
  have hj : ∃ r, joined (w :: l) = w ++ r ∧ (r = [] ∨ r.head? = some ' ') := by
    cases l with
    | nil => exact ⟨[], by simp [joined], .inl rfl⟩
    | cons x l => exact ⟨' ' :: joined (x :: l), rfl, .inr rfl⟩
  obtain ⟨r, e, hr⟩ := hj
  unfold barred
  by_cases h : b = []
  · rw [if_pos h]; exact ⟨r, e, hr⟩
  · rw [if_neg h, if_neg (by simp)]
    refine ⟨r ++ ' ' :: '|' :: ' ' :: joined b, by rw [e]; simp, .inr ?_⟩
    rcases hr with rfl | hr
    · rfl
    · cases r with
      | nil => cases hr
      | cons c r => exact hr

/-- What is before the first separator, without the white space. -/
def inputText (c : Call) : Str := (if c.foreach_ then "foreach ".toList else []) ++ barred c.inputs c.extraInputs

/-- The parts of the line. -/
def partsOf (c : Call) : Rules.Parts := ⟨Rules.nonEmpty (inputText c), c.command, barred c.outputs c.extraOutputs, c.bin⟩

theorem line_form {c : Call} (hi : ∀ w ∈ c.inputs, Plain w) (hei : ∀ w ∈ c.extraInputs, Plain w)
    (ho : ∀ w ∈ c.outputs, Plain w ∧ w.head? ≠ some '{') (heo : ∀ w ∈ c.extraOutputs, Plain w ∧ w.head? ≠ some '{')
    (ht : Rules.Tight c.command) (hb : ¬ Occurs "|>".toList c.command) (hbin : ∀ b, c.bin = some b → '}' ∉ b) (he : c.foreach_ = true → c.inputs ≠ []) :
    Rules.split (line c) = .ok (partsOf c) := by
  have bl : Rules.Blank [' '] := sep_space.2
  have tb := barred_tight hi hei
  have to := barred_tight (fun w hw => (ho w hw).1) (fun w hw => (heo w hw).1)
  have nb := noBin_barred ho heo
  have fe : '|' ∉ (if c.foreach_ then "foreach ".toList else []) := by
    split <;> decide
  have hI : ¬ Occurs "|>".toList ([' '] ++ inputText c ++ [' ']) := by
    have := barred_marker (a := c.inputs) (b := c.extraInputs) ([' '] ++ if c.foreach_ then "foreach ".toList else []) [' ']
      (by intro h; rcases List.mem_append.mp h with h | h
          · rw [List.mem_singleton] at h; cases h
          · exact fe h) (by simp) hi hei
    rw [inputText, ← List.append_assoc]
    exact this
  have tI : Rules.Tight (inputText c) := by
    unfold inputText
    by_cases hf : c.foreach_ = true
    · rw [if_pos hf]
      have ne : barred c.inputs c.extraInputs ≠ [] := fun e => he hf ((barred_nil_iff hi).mp e).1
      refine ⟨fun x hx => ?_, fun x hx => tb.2 x ?_⟩
      · have : some 'f' = some x := hx
        cases this; decide
      · rw [List.getLast?_append] at hx
        cases hl : (barred c.inputs c.extraInputs).getLast? with
        | none => rw [List.getLast?_eq_none_iff] at hl; exact absurd hl ne
        | some d => rw [hl] at hx; simpa using hx
    · rw [if_neg hf]; exact tb
  have hC : ¬ Occurs "|>".toList ([' '] ++ c.command ++ [' ']) := by
    rintro ⟨a, b, e⟩
    have e : [' '] ++ c.command ++ [' '] = a ++ ['|', '>'] ++ b := e
    cases a with
    | nil => simp at e
    | cons x a =>
      have e : x = ' ' ∧ c.command ++ [' '] = a ++ ['|', '>'] ++ b := by
        have e := List.cons.inj (show ' ' :: (c.command ++ [' ']) = x :: (a ++ ['|', '>'] ++ b) by simpa using e)
        exact ⟨e.1.symm, e.2⟩
      rcases List.eq_nil_or_concat b with rfl | ⟨b', y, rfl⟩
      · have := congrArg List.getLast? e.2
        simp at this
      · have := e.2
        rw [List.concat_eq_append, ← List.append_assoc] at this
        have := (List.append_inj' this rfl).1
        exact hb ⟨a, b', this⟩
  have trI : Rules.Trims ([' '] ++ inputText c ++ [' ']) (inputText c) := ⟨tI, [' '], [' '], bl, bl, rfl⟩
  have trC : Rules.Trims ([' '] ++ c.command ++ [' ']) c.command := ⟨ht, [' '], [' '], bl, bl, rfl⟩
  rw [Rules.split_iff]
  unfold partsOf
  cases hcb : c.bin with
  | none =>
    have := Rules.RuleForm.plain hI hC trI trC bl to.1 nb
    have e : line c = ([' '] ++ inputText c ++ [' ']) ++ "|>".toList ++ ([' '] ++ c.command ++ [' ']) ++ "|>".toList ++ [' '] ++ barred c.outputs c.extraOutputs := by
      unfold line inputText
      rw [hcb]
      generalize "|>".toList = m
      generalize (if c.foreach_ = true then "foreach ".toList else []) = f
      dsimp only
      generalize "{".toList = l, "}".toList = r
      simp only [List.append_assoc, List.cons_append, List.nil_append, List.append_nil]
    rw [e]; exact this
  | some b =>
    have := Rules.RuleForm.bin (w' := [' ']) hI hC trI trC bl to bl (fun _ => by simp) nb (hbin b hcb)
    have e : line c = ([' '] ++ inputText c ++ [' ']) ++ "|>".toList ++ ([' '] ++ c.command ++ [' ']) ++ "|>".toList ++ [' '] ++ barred c.outputs c.extraOutputs ++ [' '] ++ "{".toList ++ b ++ "}".toList := by
      unfold line inputText
      rw [hcb]
      generalize "|>".toList = m
      generalize (if c.foreach_ = true then "foreach ".toList else []) = f
      dsimp only
      generalize "{".toList = l, "}".toList = r
      simp only [List.append_assoc, List.cons_append, List.nil_append, List.append_nil]
    rw [e]; exact this

/-- The search for `foreach`. -/
def eachOf (i : Option Str) : Bool × Option Str :=
  match i with
  | none => (false, none)
  | some i => if i.take 7 = "foreach".toList then (true, some (skipSpaces (i.drop 7))) else (false, some i)

/-- The search for arguments of a macro. -/
def bangOf (c : Str) : Str × Option Str :=
  match c with
  | '!' :: t =>
    match strchr ' ' ('!' :: t) with
    | some (a, b) => (a, some b)
    | none => ('!' :: t, none)
  | c => (c, none)

theorem parseRule_eq (p : Str) : Rules.parseRule p = (Rules.split p).map fun r =>
    ⟨(eachOf r.input).1, (match (eachOf r.input).2 with | none => true | some i => decide (i.head? = some '|')), (eachOf r.input).2.map fun i => (Rules.cutBar i).1,
      (eachOf r.input).2.bind fun i => (Rules.cutBar i).2, (bangOf r.cmd).1, (bangOf r.cmd).2, (Rules.cutBar r.output).1, (Rules.cutBar r.output).2, r.bin⟩ := by
  unfold Rules.parseRule
  congr 1
  funext r
  unfold eachOf bangOf
  cases r.input with
  | none => rfl
  | some i =>
    dsimp only
    split <;> rfl

theorem parse_line {c : Call} (hi : ∀ w ∈ c.inputs, Plain w) (hei : ∀ w ∈ c.extraInputs, Plain w)
    (ho : ∀ w ∈ c.outputs, Plain w ∧ w.head? ≠ some '{') (heo : ∀ w ∈ c.extraOutputs, Plain w ∧ w.head? ≠ some '{')
    (ht : Rules.Tight c.command) (hb : ¬ Occurs "|>".toList c.command) (hm : c.command.head? = some '!' → ' ' ∉ c.command)
    (hbin : ∀ b, c.bin = some b → '}' ∉ b) (he : c.foreach_ = true → c.inputs ≠ [])
    (hne : c.foreach_ = false → ∀ w l, c.inputs = w :: l → ¬ ∃ t, w = "foreach".toList ++ t) :
    ∃ xi xoo xo xeo, Rules.parseRule (line c) = .ok ⟨c.foreach_, decide (c.inputs = []), xi, xoo, c.command, none, xo, xeo, c.bin⟩ ∧
      OptWritten xi c.inputs ∧ OptWritten xoo c.extraInputs ∧ Written xo c.outputs ∧ OptWritten xeo c.extraOutputs := by
  obtain ⟨x, hx, wx⟩ := cut_barred hi hei
  obtain ⟨y, hy, wy⟩ := cut_barred (fun w hw => (ho w hw).1) (fun w hw => (heo w hw).1)
  have wopt : ∀ {b : List Str}, (∀ w ∈ b, Plain w) → OptWritten (if b = [] then none else some (joined b)) b := by
    intro b h
    by_cases e : b = []
    · rw [if_pos e]; exact e
    · rw [if_neg e]; exact joined_written h
  have cmd : bangOf c.command = (c.command, none) := by
    unfold bangOf
    split
    · rename_i t e
      rw [e] at hm
      rw [strchr_none.2 (hm rfl), e]
    · rfl
  have hempty : ∀ w l, c.inputs = w :: l → (barred c.inputs c.extraInputs).head? ≠ some '|' := by
    intro w l e h
    obtain ⟨r, e2, _⟩ := barred_cons w l c.extraInputs
    rw [e, e2] at h
    have p := hi w (by rw [e]; exact .head _)
    cases w with
    | nil => exact p.ne rfl
    | cons d w =>
      cases h
      exact (p.chars '|' (.head _)).2.2.2 rfl
  -- what becomes of the first part
  have first : eachOf (partsOf c).input = (c.foreach_, Rules.nonEmpty (barred c.inputs c.extraInputs)) := by
    unfold partsOf inputText eachOf
    by_cases hf : c.foreach_ = true
    · rw [if_pos hf, hf]
      have ne : barred c.inputs c.extraInputs ≠ [] := fun e => he hf ((barred_nil_iff hi).mp e).1
      have n1 : "foreach ".toList ++ barred c.inputs c.extraInputs ≠ [] := by simp
      have t7 : ("foreach ".toList ++ barred c.inputs c.extraInputs).take 7 = "foreach".toList := rfl
      have d7 : ("foreach ".toList ++ barred c.inputs c.extraInputs).drop 7 = [' '] ++ barred c.inputs c.extraInputs := rfl
      rw [Rules.nonEmpty, if_neg n1]
      dsimp only
      rw [if_pos t7, d7, skipSpaces_append sep_space.2, skipSpaces_of (barred_tight hi hei).1, Rules.nonEmpty, if_neg ne]
    · have hf' : c.foreach_ = false := by simpa using hf
      rw [if_neg hf, hf', List.nil_append, Rules.nonEmpty]
      by_cases e : barred c.inputs c.extraInputs = []
      · rw [if_pos e]
      · rw [if_neg e]
        dsimp only
        refine if_neg fun h7 => ?_
        have e7 : barred c.inputs c.extraInputs = "foreach".toList ++ (barred c.inputs c.extraInputs).drop 7 := by
          rw [← h7, List.take_append_drop]
        cases hin : c.inputs with
        | nil =>
          rw [hin] at e7
          unfold barred at e7
          split at e7
          · cases e7
          · rw [if_pos rfl] at e7; cases e7
        | cons w l =>
          obtain ⟨r, e2, hr⟩ := barred_cons w l c.extraInputs
          rw [hin, e2] at e7
          exact hne hf' w l hin (prefix_word (by decide) hr e7)
  rw [parseRule_eq, line_form hi hei ho heo ht hb hbin he]
  refine ⟨(Rules.nonEmpty (barred c.inputs c.extraInputs)).map fun i => (Rules.cutBar i).1, (Rules.nonEmpty (barred c.inputs c.extraInputs)).bind fun i => (Rules.cutBar i).2,
    y, if c.extraOutputs = [] then none else some (joined c.extraOutputs), ?_, ?_, ?_, wy, wopt fun w hw => (heo w hw).1⟩
  · simp only [Except.map]
    rw [first]
    have cmd' : bangOf (partsOf c).cmd = (c.command, none) := cmd
    rw [cmd']
    have out : Rules.cutBar (partsOf c).output = (y, if c.extraOutputs = [] then none else some (joined c.extraOutputs)) := hy
    rw [out]
    by_cases e : barred c.inputs c.extraInputs = []
    · have := (barred_nil_iff hi).mp e
      rw [Rules.nonEmpty, if_pos e]
      simp [this.1, partsOf]
    · rw [Rules.nonEmpty, if_neg e]
      have : decide ((barred c.inputs c.extraInputs).head? = some '|') = decide (c.inputs = []) := by
        cases hin : c.inputs with
        | cons w l =>
          have := hempty w l hin
          rw [hin] at this
          simp [this]
        | nil =>
          have : c.extraInputs ≠ [] := fun h => e ((barred_nil_iff hi).mpr ⟨hin, h⟩)
          unfold barred
          rw [if_neg this, if_pos rfl]
          rfl
      simp [this, partsOf]
  · by_cases e : barred c.inputs c.extraInputs = []
    · rw [Rules.nonEmpty, if_pos e]; exact ((barred_nil_iff hi).mp e).1
    · rw [Rules.nonEmpty, if_neg e]
      show Written (Rules.cutBar _).1 _
      rw [hx]; exact wx
  · by_cases e : barred c.inputs c.extraInputs = []
    · rw [Rules.nonEmpty, if_pos e]; exact ((barred_nil_iff hi).mp e).2
    · rw [Rules.nonEmpty, if_neg e]
      show OptWritten (Rules.cutBar _).2 _
      rw [hx]; exact wopt hei

theorem optPaths_written {bins reOk} {x : Option Str} {l : List Str} (h : OptWritten x l) (kind : Str → Kind) (hk : ∀ w ∈ l, newPl bins reOk w = some (kind w))
    (hl : ∀ w ∈ l, w.length < PathList.pathMax) : Bins.optPaths bins reOk x = .ok (numbered kind 1 l) := by
  cases x with
  | none => cases (show l = [] from h); rfl
  | some x => exact PathList.c04_reads_what_is_written h kind hk hl

theorem paths_numbered {σ} (B : Base σ) (s : State σ) (kind : Str → Kind) : ∀ (l : List Str) (n : Nat),
    (∀ w ∈ l, B.expand s.base none w = some w ∧ newPl (Bins.known s.bins) B.reOk w = some (kind w)) → paths B s n l = some (numbered kind n l)
  | [], _, _ => rfl
  | w :: l, n, h => by
    have hw := h w (.head _)
    unfold paths
    rw [hw.1]
    dsimp only
    rw [hw.2]
    dsimp only
    rw [paths_numbered B s kind l (n + 1) fun x hx => h x (.tail _ hx)]
    rfl

theorem evalPaths_numbered {σ} (B : Base σ) (s : σ) (kind : Str → Kind) : ∀ (l : List Str) (n : Nat),
    (∀ w ∈ l, B.expand s none w = some w) → Bins.evalPaths B s none (numbered kind n l) = some (numbered kind n l)
  | [], _, _ => rfl
  | w :: l, n, h => by
    have hw := h w (.head _)
    show Bins.evalPaths B s none (⟨w, kind w, n⟩ :: numbered kind (n + 1) l) = _
    unfold Bins.evalPaths
    rw [hw]
    dsimp only
    rw [if_neg (fun h => h rfl)]
    dsimp only
    rw [evalPaths_numbered B s kind l (n + 1) fun x hx => h x (.tail _ hx)]
    rfl

theorem find_add {n b : Str} {bins : List Bins.Bin} (h : (Bins.find n bins).isSome = true) : (Bins.find n (Bins.add b bins)).isSome = true := by
  unfold Bins.add
  split
  · exact h
  · unfold Bins.find
    split
    · rfl
    · exact h

theorem means_add {reOk} {bins : List Bins.Bin} {b w : Str} {k : Kind} (h : Means (Bins.known bins) reOk w k) : Means (Bins.known (Bins.add b bins)) reOk w k := by
  generalize hk : Bins.known bins = K at h
  cases h with
  | bin e h1 h2 =>
    subst hk
    cases e
    exact .bin rfl h1 (find_add h2)
  | excl h => exact .excl h
  | group a b c d => exact .group a b c d
  | file a b c => exact .file a b c

theorem means_none {reOk} {K} {w : Str} {k : Kind} (h : Means none reOk w k) : Means K reOk w k := by
  generalize hk : (none : Option (Str → Bool)) = K' at h
  cases h with
  | bin e h1 h2 => subst hk; cases e
  | excl h => exact .excl h
  | group a b c d => exact .group a b c d
  | file a b c => exact .file a b c

theorem means_none_head {reOk} {w : Str} {k : Kind} (h : Means none reOk w k) : w.head? ≠ some '{' := by
  generalize hk : (none : Option (Str → Bool)) = K' at h
  cases h with
  | bin e h1 h2 => subst hk; cases e
  | excl h => intro h; cases h
  | group a b c d => exact a
  | file a b c => exact a

end Tup.Lua
