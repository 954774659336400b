import Verif.Execute.Model
import Verif.Names.Spec

/-! Which commands a rule stands for, and what a macro definition defines, as rules. -/

namespace Tup.Execute

open Tup.Names Tup.Rules

/-- `Distinct l r`: `r` is `l` without the entries for a node that has been there before. -/
inductive Distinct : List Entry → List Entry → Prop
  | nil : Distinct [] []
  | new {l r e} : Distinct l r → (e.tent = none ∨ ∀ x ∈ l, x.tent ≠ e.tent) → Distinct (l ++ [e]) (r ++ [e])
  | old {l r e x} : Distinct l r → e.tent ≠ none → x ∈ l → x.tent = e.tent → Distinct (l ++ [e]) r

/-- The command text calls a macro. -/
def IsMacro (command : Str) : Prop := ∃ t, command = "!".toList ++ t

/-- The rule makes one command for each input: it says so, or the macro does. -/
def Foreach (T : Table) (r : Rule) : Prop :=
  r.foreach_ = true ∨ (IsMacro r.command ∧ ∃ m, T r.command = some m ∧ m.foreach_ = true)

/-- The macro for a command and an extension: that for the extension if there is one. -/
inductive Chosen (T : Table) (command : Str) : Option Str → Macro → Prop
  | special {x m} : T (command ++ ".".toList ++ x) = some m → Chosen T command (some x) m
  | general {x m} : T (command ++ ".".toList ++ x) = none → T command = some m → Chosen T command (some x) m
  | plain {m} : T command = some m → Chosen T command none m

variable {σ : Type}

/-- The order-only inputs of a macro. -/
inductive MacroInputs (W : World σ) (nl : Option NameList) (s : σ) : Option Str → List Entry → σ → Prop
  | none : MacroInputs W nl s none [] s
  | some {i ps l s'} : W.paths i = some ps → W.resolve s ps nl = some (s', l) → MacroInputs W nl s (some i) l s'

/-- The command for a rule without macro, with inputs `nl` and order-only inputs `oo`. -/
def plainJob (r : Rule) (nl : NameList) (ext : Option Str) (oo : List Entry) : Job :=
  ⟨nl, ext, r.command, r.extraCommand, r.outputs, r.extraOutputs, [], oo, []⟩

/-- The command for a rule with macro `m`: the text is that of the macro, the outputs are those of the rule if there
are any, the extra outputs are those of both. -/
def macroJob (r : Rule) (m : Macro) (nl : NameList) (ext : Option Str) (oo bangOo : List Entry) : Job :=
  ⟨nl, ext, m.command, r.extraCommand, if r.outputs = [] then m.outputs else r.outputs, r.extraOutputs, m.extra,
    oo, bangOo⟩

/-- Making the command for one input. -/
inductive One (W : World σ) (T : Table) (r : Rule) (s : σ) (e : Entry) : Job → σ → Prop
  | plain {oo s1 s2} : ¬ IsMacro r.command →
      W.resolve s r.ooPaths (some (NameList.empty.add e)) = some (s1, oo) →
      W.run s1 (plainJob r (.add .empty e) (extension e) oo) = some s2 →
      One W T r s e (plainJob r (.add .empty e) (extension e) oo) s2
  | bang {m oo bangOo s1 s2 s3} : IsMacro r.command → Chosen T r.command (extension e) m →
      MacroInputs W (some (.add .empty e)) s m.input bangOo s1 →
      W.resolve s1 r.ooPaths (some (NameList.empty.add e)) = some (s2, oo) →
      W.run s2 (macroJob r m (.add .empty e) (extension e) oo bangOo) = some s3 →
      One W T r s e (macroJob r m (.add .empty e) (extension e) oo bangOo) s3

/-- One command for each input, in order. -/
inductive Each (W : World σ) (T : Table) (r : Rule) : σ → List Entry → List Job → σ → Prop
  | nil {s} : Each W T r s [] [] s
  | cons {s e l j js s1 s2} : One W T r s e j s1 → Each W T r s1 l js s2 → Each W T r s (e :: l) (j :: js) s2

/-- `Meaning W T r s js s'`: executing the rule makes the commands `js`. -/
inductive Meaning (W : World σ) (T : Table) (r : Rule) (s : σ) : List Job → σ → Prop
  /-- one for each distinct input -/
  | each {ins js s'} : Foreach T r → Distinct r.inputs.entries ins → Each W T r s ins js s' → Meaning W T r s js s'
  /-- one for all inputs together -/
  | plain {ins oo s1 s2} : ¬ Foreach T r → Distinct r.inputs.entries ins → ins ≠ [] ∨ r.emptyInput = true →
      ¬ IsMacro r.command → W.resolve s r.ooPaths (some (unique r.inputs)) = some (s1, oo) →
      W.run s1 (plainJob r (unique r.inputs) none oo) = some s2 →
      Meaning W T r s [plainJob r (unique r.inputs) none oo] s2
  | bang {ins m oo bangOo s1 s2 s3} : ¬ Foreach T r → Distinct r.inputs.entries ins →
      ins ≠ [] ∨ r.emptyInput = true → IsMacro r.command →
      W.resolve s r.ooPaths (some (unique r.inputs)) = some (s1, oo) → Chosen T r.command none m →
      MacroInputs W none s1 m.input bangOo s2 →
      W.run s2 (macroJob r m (unique r.inputs) none oo bangOo) = some s3 →
      Meaning W T r s [macroJob r m (unique r.inputs) none oo bangOo] s3
  /-- the macro for no inputs -/
  | empty {m oo bangOo s1 s2 s3} : ¬ Foreach T r → Distinct r.inputs.entries [] → r.emptyInput = false →
      IsMacro r.command → W.resolve s r.ooPaths (some (unique r.inputs)) = some (s1, oo) →
      T (r.command ++ ".EMPTY".toList) = some m → MacroInputs W none s1 m.input bangOo s2 →
      W.run s2 (macroJob r m (unique r.inputs) none oo bangOo) = some s3 →
      Meaning W T r s [macroJob r m (unique r.inputs) none oo bangOo] s3
  /-- nothing -/
  | nothing {oo s1} : ¬ Foreach T r → Distinct r.inputs.entries [] → r.emptyInput = false →
      (IsMacro r.command → T (r.command ++ ".EMPTY".toList) = none) →
      W.resolve s r.ooPaths (some (unique r.inputs)) = some (s1, oo) → Meaning W T r s [] s1

/-- A rule as it comes from the parser (`init_rule`, then the fields are filled in). -/
structure Fresh (r : Rule) : Prop where
  oo : r.oo = .empty
  bangOo : r.bangOo = .empty
  bangExtra : r.bangExtra = []
  inputs : Run r.inputs

/-! ### Macro definitions -/

/-- What is in front of the first marker of a macro: nothing, or `foreach` and order-only inputs. -/
inductive MacroInput : Option Str → Bool → Option Str → Prop
  | none : MacroInput none false none
  | blank : MacroInput (some []) false (some [])
  | orderOnly {w t} : (∀ c ∈ w, isSpace c = true) → (∀ c, t.head? = some c → isSpace c = false) →
      MacroInput (some ("|".toList ++ w ++ t)) false (some t)
  | foreach {w} : (∀ c ∈ w, isSpace c = true) → MacroInput (some ("foreach".toList ++ w)) true (some [])
  | foreachOrderOnly {w w' t} : (∀ c ∈ w, isSpace c = true) → (∀ c ∈ w', isSpace c = true) →
      (∀ c, t.head? = some c → isSpace c = false) →
      MacroInput (some ("foreach".toList ++ w ++ "|".toList ++ w' ++ t)) true (some t)

/-- The two lists of outputs. -/
inductive Outputs (paths : Str → Option (List Str)) : Str → List Str → List Str → Prop
  | one {s o} : '|' ∉ s → paths s = some o → Outputs paths s o []
  | two {a w b o e} : '|' ∉ a → (∀ c ∈ w, isSpace c = true) → (∀ c, b.head? = some c → isSpace c = false) →
      paths a = some o → paths b = some e → Outputs paths (a ++ "|".toList ++ w ++ b) o e

/-- A line `name = value`. -/
def Line (p name value : Str) : Prop :=
  ∃ w w', p = name ++ w ++ "=".toList ++ w' ++ value ∧ '=' ∉ name ∧ (∀ c ∈ w, isSpace c = true) ∧
    (∀ c ∈ w', isSpace c = true) ∧ (∀ c, name.getLast? = some c → isSpace c = false) ∧
    (∀ c, value.head? = some c → isSpace c = false)

/-- `Defines paths T p name m`: the line defines macro `name` as `m`. -/
inductive Defines (paths : Str → Option (List Str)) (T : Table) (p : Str) : Str → Macro → Prop
  /-- a new macro -/
  | new {name value input cmd output fe i o e} : Line p name value → value.head? ≠ some '!' →
      split value = .ok ⟨input, cmd, output, none⟩ → MacroInput input fe i → Outputs paths output o e →
      Defines paths T p name ⟨fe, i, cmd, o, e⟩
  /-- another name for a macro -/
  | alias {name value m} : Line p name value → value.head? = some '!' → value ≠ name → T value = some m →
      Defines paths T p name m

end Tup.Execute
