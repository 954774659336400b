import Verif.Assign.Lemmas

/-! C09 (assignments) and C54 (`ifeq`). -/

namespace Tup.Assign

open Tup.Eval Tup.Rules

/-- C09: the effect of an assignment to an ordinary variable.  `n` and `x` are what the left and the right side
expand to.  The variable is set to `x`, or `x` is appended to its value behind one space; nothing else changes.
White space behind a space in `x` is dropped. -/
theorem c09_assign (w : World) (st : Store) (hst : st.Wf) {line a b n x : Str} {op : Op} {d d' : List Str}
    (hl : Assigns line op a b) (ha : a ≠ [])
    (hn : Expands (env w st) (trimTail a) n d) (hx : Expands (env w st) (skipSpaces b) x d')
    (hc : ∀ t, n ≠ "CONFIG_".toList ++ t) (hamp : n.head? ≠ some '&') :
    ∃ st', setVariable w st line = .ok st' ∧ st'.Wf ∧
      st'.value n = some (match (generalizing := false) op, st.value n with
        | .append, some old => old ++ " ".toList ++ collapse false x
        | _, _ => collapse false x) ∧
      (∀ m, m ≠ n → st'.value m = st.value m) ∧ st'.nodeVars = st.nodeVars ∧
      st'.inputs = st.inputs ++ d ++ d' := by
  have h1 := (splitAssign_iff line op a b).2 hl
  have h2 := (c05_expansion (env w st) _ _ _).2 hn
  have h3 := (c05_expansion (env w st) _ _ _).2 hx
  have h4 : n.take 7 ≠ "CONFIG_".toList := by
    intro h
    exact hc (n.drop 7) (by rw [← h, List.take_append_drop])
  let st1 : Store := { st with inputs := st.inputs ++ d ++ d' }
  refine ⟨store st1 op n x, ?_, ?_, ?_, ?_, rfl, rfl⟩
  · unfold setVariable
    rw [h1]
    simp only [if_neg ha, h2, h3, if_neg h4]
    cases n with
    | nil => rfl
    | cons c t =>
      have : c ≠ '&' := by simpa using hamp
      split
      · next heq => exact absurd (List.cons.inj heq).1 this
      · rfl
  · intro m hm
    simp only [store] at hm
    split at hm
    · cases op with
      | set => simp only [Option.some.injEq] at hm; exact toWords_ne _ hm
      | append =>
        simp only [Option.some.injEq, List.append_eq_nil_iff] at hm
        exact toWords_ne _ hm.2
    · exact hst m hm
  · simp only [Store.value, store, if_true]
    have e := joinWords_toWords _ x (Nat.le_refl _)
    cases op with
    | set => simp only [Option.map_some, e]
    | append =>
      cases hv : st.vars n with
      | none =>
        simp only [Option.getD_none, List.nil_append, Option.map_none]
        rw [Option.map_some, e]
      | some l =>
        simp only [Option.getD_some, Option.map_some]
        have hl : l ≠ [] := fun h0 => hst n (by rw [hv, h0])
        rw [joinWords_append hl (toWords_ne x), e]
        simp
  · intro m hm
    simp only [Store.value, store, if_neg hm]
    rfl

/-- C09 for names and values without references and equals signs: `NAME = V`, `NAME := V` and `NAME += V`. -/
theorem c09_plain (w : World) (st : Store) (hst : st.Wf) {n v : Str} (hn : n ≠ []) (ht : Tight n) (hv : Tight v)
    (h1 : '=' ∉ n) (h2 : '=' ∉ v) (h3 : '(' ∉ n) (h4 : '(' ∉ v) (h5 : n.take 7 ≠ "CONFIG_".toList)
    (h6 : n.head? ≠ some '&') :
    (∃ st', setVariable w st (n ++ " = ".toList ++ v) = .ok st' ∧ st'.value n = some (collapse false v) ∧
      ∀ m, m ≠ n → st'.value m = st.value m) ∧
    (∃ st', setVariable w st (n ++ " := ".toList ++ v) = .ok st' ∧ st'.value n = some (collapse false v) ∧
      ∀ m, m ≠ n → st'.value m = st.value m) ∧
    (∃ st', setVariable w st (n ++ " += ".toList ++ v) = .ok st' ∧
      st'.value n = some (match (generalizing := false) st.value n with
        | some old => old ++ " ".toList ++ collapse false v
        | none => collapse false v) ∧
      ∀ m, m ≠ n → st'.value m = st.value m) := by
  have key : ∀ (p : Str), '=' ∉ p → ∀ c, (n ++ ' ' :: p).getLast? ≠ some c →
      ¬ Occurs [c, '='] (n ++ ' ' :: p ++ '=' :: ' ' :: v) := by
    rintro p hp c hc ⟨a, b, hab⟩
    have e1 := strchr_append (c := '=') (a := n ++ ' ' :: p) (b := ' ' :: v) (by simp [h1, hp])
    have hb : '=' ∉ a ++ [c] := by
      intro hm
      have e2 : n ++ ' ' :: p ++ '=' :: ' ' :: v = (a ++ [c]) ++ '=' :: b := by rw [hab]; simp
      have := congrArg (List.count '=') e2
      simp only [List.count_append, List.count_cons, List.count_eq_zero.2 h1, List.count_eq_zero.2 h2,
        List.count_eq_zero.2 hp] at this
      have := List.count_pos_iff.2 hm
      simp only [List.count_append, List.count_cons] at this
      simp at *
      omega
    have e2 := strchr_append (c := '=') (a := a ++ [c]) (b := b) hb
    have e3 : n ++ ' ' :: p ++ '=' :: ' ' :: v = (a ++ [c]) ++ '=' :: b := by rw [hab]; simp
    rw [e3, e2] at e1
    simp only [Option.some.injEq, Prod.mk.injEq] at e1
    rw [← e1.1] at hc
    simp at hc
  have hno : ∀ c : Char, ¬ Occurs [c, '='] (n ++ [' ']) := by
    rintro c ⟨a, b, hab⟩
    have : '=' ∈ n ++ [' '] := by rw [hab]; simp
    simp [h1] at this
  have hE : ∀ s : Str, '(' ∉ s → Expands (env w st) s s [] := fun s hs =>
    (c05_expansion _ _ _ _).1 (c05_plain _ _ hs)
  have hT : trimTail (n ++ [' ']) = n := by
    rw [trimTail_eq, trimEnd_append (by simp; rfl) ht.2]
    intro c hc
    cases n with
    | nil => exact absurd rfl hn
    | cons x n => exact ht.1 c (by simpa using hc)
  have hS : skipSpaces (' ' :: v) = v := by
    rw [show ' ' :: v = [' '] ++ v from rfl, skipSpaces_append (by simp; rfl), skipSpaces_of hv.1]
  have h5' : ∀ t, n ≠ "CONFIG_".toList ++ t := by rintro t rfl; exact h5 rfl
  refine ⟨?_, ?_, ?_⟩
  · have ha : Assigns (n ++ " = ".toList ++ v) .set (n ++ [' ']) (' ' :: v) := by
      have e : n ++ " = ".toList ++ v = (n ++ [' ']) ++ "=".toList ++ (' ' :: v) := by simp
      rw [e]
      refine .set ?_ ?_ (by simp [h1])
      · have := key [] (by simp) '+' (by simp)
        simpa using this
      · have := key [] (by simp) ':' (by simp)
        simpa using this
    obtain ⟨st', r1, _, r2, r3, _⟩ := c09_assign w st hst ha (by simp) (by rw [hT]; exact hE n h3)
      (by rw [hS]; exact hE v h4) h5' h6
    exact ⟨st', r1, r2, r3⟩
  · have ha : Assigns (n ++ " := ".toList ++ v) .set (n ++ [' ']) (' ' :: v) := by
      have e : n ++ " := ".toList ++ v = (n ++ [' ']) ++ ":=".toList ++ (' ' :: v) := by simp
      rw [e]
      refine .define ?_ (hno ':')
      have := key [':'] (by simp) '+' (by simp)
      simpa using this
    obtain ⟨st', r1, _, r2, r3, _⟩ := c09_assign w st hst ha (by simp) (by rw [hT]; exact hE n h3)
      (by rw [hS]; exact hE v h4) h5' h6
    exact ⟨st', r1, r2, r3⟩
  · have ha : Assigns (n ++ " += ".toList ++ v) .append (n ++ [' ']) (' ' :: v) := by
      have e : n ++ " += ".toList ++ v = (n ++ [' ']) ++ "+=".toList ++ (' ' :: v) := by simp
      rw [e]
      exact .append (hno '+')
    obtain ⟨st', r1, _, r2, r3, _⟩ := c09_assign w st hst ha (by simp) (by rw [hT]; exact hE n h3)
      (by rw [hS]; exact hE v h4) h5' h6
    refine ⟨st', r1, ?_, r3⟩
    rw [r2]
    cases st.value n <;> rfl

/-- C09: an assignment to a node variable. -/
theorem c09_assign_node (w : World) (st : Store) {line a b n x : Str} {op : Op} {d d' : List Str} {id : Nat}
    (hl : Assigns line op a b) (ha : a ≠ [])
    (hn : Expands (env w st) (trimTail a) ('&' :: n) d) (hx : Expands (env w st) (skipSpaces b) x d')
    (hid : w.node x = some id) :
    ∃ st', setVariable w st line = .ok st' ∧
      st'.nodeVars n = some (match (generalizing := false) op, st.nodeVars n with
        | .append, some old => old ++ " ".toList ++ "%".toList ++ digits id ++ "t".toList
        | _, _ => "%".toList ++ digits id ++ "t".toList) ∧
      (∀ m, m ≠ n → st'.nodeVars m = st.nodeVars m) ∧ st'.vars = st.vars := by
  have h1 := (splitAssign_iff line op a b).2 hl
  have h2 := (c05_expansion (env w st) _ _ _).2 hn
  have h3 := (c05_expansion (env w st) _ _ _).2 hx
  have h4 : ('&' :: n).take 7 ≠ "CONFIG_".toList := by
    intro h
    have := congrArg List.head? h
    simp at this
  let st1 : Store := { st with inputs := st.inputs ++ d ++ d' }
  refine ⟨storeNode st1 op n ('%' :: digits id ++ ['t']), ?_, ?_, ?_, rfl⟩
  · unfold setVariable
    rw [h1]
    simp only [if_neg ha, h2, h3, if_neg h4, hid]
    rfl
  · simp only [storeNode, if_true]
    show (match op, st.nodeVars n with
      | .append, some old => _
      | _, _ => _) = _
    cases op <;> cases st.nodeVars n <;> simp
  · intro m hm
    simp only [storeNode, if_neg hm]
    rfl

/-- C09: when an assignment fails. -/
theorem c09_errors (w : World) (st : Store) (line : Str) :
    (setVariable w st line = .syntaxError ↔ ¬ ∃ op a b, Assigns line op a b) ∧
    ('=' ∉ line → setVariable w st line = .syntaxError) ∧
    (∀ op a b n x d d', Assigns line op a b → a ≠ [] →
      Expands (env w st) (trimTail a) n d → Expands (env w st) (skipSpaces b) x d' →
      setVariable w st line = .error →
      (∃ t, n = "CONFIG_".toList ++ t) ∨ (∃ t, n = '&' :: t ∧ w.node x = none)) := by
  refine ⟨?_, ?_, ?_⟩
  · unfold setVariable
    cases h : splitAssign line with
    | none =>
      simp only [true_iff]
      rintro ⟨op, a, b, hl⟩
      rw [(splitAssign_iff line op a b).2 hl] at h
      cases h
    | some q =>
      obtain ⟨op, a, b⟩ := q
      have hl := (splitAssign_iff line op a b).1 h
      constructor
      · intro h'
        exfalso
        simp only at h'
        repeat' (split at h' <;> try cases h')
      · intro h'
        exact absurd ⟨op, a, b, hl⟩ h'
  · intro heq
    unfold setVariable
    have : splitAssign line = none := by
      cases h : splitAssign line with
      | none => rfl
      | some q =>
        obtain ⟨op, a, b⟩ := q
        exfalso
        apply heq
        cases (splitAssign_iff line op a b).1 h <;> simp
    rw [this]
  · intro op a b n x d d' hl ha hn hx h
    have h1 := (splitAssign_iff line op a b).2 hl
    have h2 := (c05_expansion (env w st) _ _ _).2 hn
    have h3 := (c05_expansion (env w st) _ _ _).2 hx
    unfold setVariable at h
    rw [h1] at h
    simp only [if_neg ha, h2, h3] at h
    by_cases h4 : n.take 7 = "CONFIG_".toList
    · left
      exact ⟨n.drop 7, by rw [← h4, List.take_append_drop]⟩
    · right
      rw [if_neg h4] at h
      split at h
      · next t =>
        refine ⟨t, rfl, ?_⟩
        cases hw : w.node x with
        | none => rfl
        | some id => rw [hw] at h; cases h
      · cases h

/-- C09: what a reference to a variable gives: its value, nothing if it is not set; a name of 4095 bytes or more
is an error.  The name is not one of those with a meaning of their own. -/
theorem c09_read (w : World) (st : Store) {n : Str} (hn : ')' ∉ n) (hd : n ≠ "TUP_CWD".toList)
    (hv : n ≠ "TUP_VARIANTDIR".toList) (ho : n ≠ "TUP_VARIANT_OUTPUTDIR".toList)
    (hc : ∀ y, y ≠ [] → n ≠ "CONFIG_".toList ++ y) (o : Str) (d : List Str) :
    Expands (env w st) ('$' :: '(' :: n ++ [')']) o d ↔
      n.length < 4095 ∧ d = [] ∧ (st.value n = some o ∨ st.value n = none ∧ o = []) := by
  rw [expands_one (Or.inl rfl) hn]
  unfold Store.value
  constructor
  · intro h
    generalize e : '$' = c at h
    cases h with
    | cwd h => exact absurd rfl hd
    | variantDir => exact absurd rfl hv
    | outputDir h => exact absurd rfl ho
    | config hx h => exact absurd rfl (hc _ hx)
    | var _ _ _ _ h =>
      change (if n.length + 1 ≥ 4096 then none else some (joinWords ((st.vars n).getD []))) = some o at h
      split at h
      · cases h
      · next hl =>
        cases h
        refine ⟨by omega, rfl, ?_⟩
        cases st.vars n with
        | none => exact Or.inr ⟨rfl, rfl⟩
        | some l => exact Or.inl rfl
    | atConfig h => exact absurd e (by decide)
    | nodeVar => exact absurd e (by decide)
  · rintro ⟨hl, rfl, h⟩
    refine .var hd hv ho hc ?_
    change (if n.length + 1 ≥ 4096 then none else some (joinWords ((st.vars n).getD []))) = some o
    rw [if_neg (by omega)]
    cases hs : st.vars n with
    | none =>
      rw [hs] at h
      rcases h with h | ⟨_, rfl⟩
      · cases h
      · rfl
    | some l =>
      rw [hs] at h
      rcases h with h | ⟨h, _⟩
      · exact h
      · cases h

/-- C09: a reference to a node variable gives the id it holds, or nothing. -/
theorem c09_read_node (w : World) (st : Store) {n : Str} (hn : ')' ∉ n) (o : Str) (d : List Str) :
    Expands (env w st) ('&' :: '(' :: n ++ [')']) o d ↔
      d = [] ∧ (st.nodeVars n = some o ∨ st.nodeVars n = none ∧ o = []) := by
  rw [expands_one (Or.inr (Or.inr rfl)) hn]
  constructor
  · intro h
    generalize e : '&' = c at h
    cases h with
    | nodeVar =>
      refine ⟨rfl, ?_⟩
      change _ = some ((st.nodeVars n).getD []) ∨ _ ∧ (st.nodeVars n).getD [] = []
      cases st.nodeVars n with
      | none => exact Or.inr ⟨rfl, rfl⟩
      | some l => exact Or.inl rfl
    | _ => exact absurd e (by decide)
  · rintro ⟨rfl, h⟩
    have : o = (env w st).nodeVar n := by
      change o = (st.nodeVars n).getD []
      rcases h with h | ⟨h, rfl⟩ <;> rw [h] <;> rfl
    rw [this]
    exact .nodeVar

def exWorld : World where
  cwd := some ".".toList
  outputDir := some ".".toList
  dirId := 1
  config _ := some []
  node _ := none

def exStore : Store where
  vars n := if n = "X".toList then some ["a".toList] else none
  nodeVars _ := none
  inputs := []

example : exStore.Wf ∧ Assigns "X += b  c".toList .append "X ".toList " b  c".toList ∧
    Expands (env exWorld exStore) (trimTail "X ".toList) "X".toList [] ∧
    Expands (env exWorld exStore) (skipSpaces " b  c".toList) "b  c".toList [] := by
  refine ⟨?_, ?_, ?_, ?_⟩
  · intro n
    simp only [exStore]
    split <;> simp
  · rw [← splitAssign_iff]; rfl
  · rw [← c05_expansion]; exact c05_plain _ _ (by decide)
  · rw [← c05_expansion]; exact c05_plain _ _ (by decide)

example : Expands (env exWorld exStore) "$(X)".toList "a".toList [] :=
  (c09_read exWorld exStore (n := "X".toList) (by decide) (by decide +kernel) (by decide +kernel) (by decide +kernel)
    (by intro y _ h; revert h; simp) _ _).2 ⟨by decide, rfl, Or.inl (by decide +kernel)⟩

example (k : Nat) (hk : 4095 ≤ k) (o : Str) (d : List Str) :
    ¬ Expands (env exWorld exStore) ('$' :: '(' :: List.replicate k 'a' ++ [')']) o d := by
  obtain ⟨j, rfl⟩ : ∃ j, k = j + 1 := ⟨k - 1, by omega⟩
  intro h
  have hd : ∀ (c : Char) (t : Str), c ≠ 'a' → List.replicate (j + 1) 'a' ≠ c :: t := by
    intro c t hc e
    rw [List.replicate_succ] at e
    exact hc (List.cons.inj e).1.symm
  have := ((c09_read exWorld exStore (n := List.replicate (j + 1) 'a') (fun h => absurd (List.eq_of_mem_replicate h) (by decide))
    (hd 'T' _ (by decide)) (hd 'T' _ (by decide)) (hd 'T' _ (by decide))
    (fun y _ => hd 'C' _ (by decide)) o d).1 h).1
  rw [List.length_replicate] at this
  omega

example : Expands (env exWorld { exStore with nodeVars := fun _ => some "7".toList }) "&(X)".toList "7".toList [] :=
  (c09_read_node exWorld _ (n := "X".toList) (by decide) _ _).2 ⟨rfl, Or.inl rfl⟩

/-- An assignment whose value contains `+=` is taken for an append to another variable, so that the claim does
not hold for every value. -/
theorem c09_false_for_operators_in_values :
    Assigns "X = a += b".toList .append "X = a ".toList " b".toList := by
  rw [← splitAssign_iff]; rfl

/-- C54: `ifeq (L,R)` compares what `L` and `R` expand to, if `L` has no comma; what is in front of the opening
and behind the last closing parenthesis is ignored. -/
theorem c54_ifeq (e : Env) {pre l r post : Str} (h1 : '(' ∉ pre) (h2 : ',' ∉ l) (h3 : ')' ∉ post) :
    (∀ b, evalEq e (pre ++ "(".toList ++ l ++ ",".toList ++ r ++ ")".toList ++ post) = .value b ↔
      ∃ x y d d', Expands e l x d ∧ Expands e r y d' ∧ (b = true ↔ x = y)) ∧
    (evalEq e (pre ++ "(".toList ++ l ++ ",".toList ++ r ++ ")".toList ++ post) = .error ↔
      Fails e l ∨ Fails e r) := by
  have e1 : pre ++ "(".toList ++ l ++ ",".toList ++ r ++ ")".toList ++ post =
      pre ++ '(' :: (l ++ ',' :: (r ++ ')' :: post)) := by simp [List.append_assoc]
  have e2 : evalEq e (pre ++ "(".toList ++ l ++ ",".toList ++ r ++ ")".toList ++ post) =
      match eval e none l with
      | none => .error
      | some (x, _) =>
        match eval e none r with
        | none => .error
        | some (y, _) => .value (x == y) := by
    rw [e1]
    unfold evalEq
    rw [strchr_append h1]
    simp only
    rw [strchr_append h2]
    simp only
    rw [beforeLast_append r h3]
    rfl
  rw [e2]
  rw [← c05_errors, ← c05_errors]
  simp only [← c05_expansion]
  cases hl : eval e none l with
  | none => simp
  | some p =>
    obtain ⟨x, d⟩ := p
    cases hr : eval e none r with
    | none => simp
    | some q =>
      obtain ⟨y, d'⟩ := q
      simp only [Cond.value.injEq, Option.some.injEq, Prod.mk.injEq, reduceCtorEq, or_self, and_true]
      intro b
      constructor
      · rintro rfl
        exact ⟨x, y, d, d', ⟨rfl, rfl⟩, ⟨rfl, rfl⟩, by simp⟩
      · rintro ⟨x', y', _, _, ⟨rfl, _⟩, ⟨rfl, _⟩, hb⟩
        cases b with
        | true => simpa using hb.1 rfl
        | false =>
          have : ¬ x = y := fun h => by cases hb.2 h
          simpa using this

/-- C54: what is not of this form is a syntax error, unless a closing parenthesis stands somewhere in front of
the comma. -/
theorem c54_syntax (e : Env) {expr : Str} (h : evalEq e expr = .syntaxError) :
    ¬ ∃ pre l r post, '(' ∉ pre ∧ ',' ∉ l ∧ ')' ∉ post ∧
      expr = pre ++ "(".toList ++ l ++ ",".toList ++ r ++ ")".toList ++ post := by
  rintro ⟨pre, l, r, post, h1, h2, h3, rfl⟩
  obtain ⟨hv, he⟩ := c54_ifeq e (r := r) h1 h2 h3
  cases hl : eval e none l with
  | none =>
    have := he.2 (.inl ((c05_errors e l).1 hl))
    rw [h] at this
    cases this
  | some p =>
    obtain ⟨x, d⟩ := p
    cases hr : eval e none r with
    | none =>
      have := he.2 (.inr ((c05_errors e r).1 hr))
      rw [h] at this
      cases this
    | some q =>
      obtain ⟨y, d'⟩ := q
      have := (hv (decide (x = y))).2
        ⟨x, y, d, d', (c05_expansion e _ _ _).1 hl, (c05_expansion e _ _ _).1 hr, by simp⟩
      rw [h] at this
      cases this

example : evalEq (env exWorld exStore) "($(X),a)".toList = .value true ∧
    evalEq (env exWorld exStore) "(b,a)".toList = .value false ∧
    evalEq (env exWorld exStore) "(b a)".toList = .syntaxError ∧
    evalEq (env exWorld exStore) "($(X,a)".toList = .error := by
  decide +kernel

/-- A closing parenthesis in front of the comma makes up for a missing one. -/
theorem c54_misplaced_parenthesis (e : Env) : evalEq e "(a)x,a".toList = .value true := by
  have h : eval e none "a".toList = some ("a".toList, []) := c05_plain e _ (by decide)
  unfold evalEq
  simp only [show strchr '(' "(a)x,a".toList = some ([], "a)x,a".toList) from rfl,
    show strchr ',' "a)x,a".toList = some ("a)x".toList, "a".toList) from rfl,
    show beforeLast ')' "a".toList = none from rfl,
    show beforeLast ')' "a)x".toList = some "a".toList from rfl, h]
  rfl

end Tup.Assign
