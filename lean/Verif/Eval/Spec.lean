import Verif.Eval.Model

/-! What a reference stands for and what the expansion of a text is, written down as rules. -/

namespace Tup.Eval

/-- `Stands env c name v deps`: the reference `c(name)` stands for `v`; the tup.config variables `deps` were
looked at. -/
inductive Stands (env : Env) : Char → Str → Str → List Str → Prop
  | cwd {v} : env.cwd = some v → Stands env '$' "TUP_CWD".toList v []
  | variantDir : Stands env '$' "TUP_VARIANTDIR".toList ("%".toList ++ digits env.dirId ++ "t".toList) []
  | outputDir {v} : env.outputDir = some v → Stands env '$' "TUP_VARIANT_OUTPUTDIR".toList v []
  | config {x v} : x ≠ [] → env.config x = some v → Stands env '$' ("CONFIG_".toList ++ x) v [x]
  | var {x v} : x ≠ "TUP_CWD".toList → x ≠ "TUP_VARIANTDIR".toList → x ≠ "TUP_VARIANT_OUTPUTDIR".toList →
      (∀ y, y ≠ [] → x ≠ "CONFIG_".toList ++ y) → env.var x = some v → Stands env '$' x v []
  | atConfig {x v} : env.config x = some v → Stands env '@' x v [x]
  | nodeVar {x} : Stands env '&' x (env.nodeVar x) []

/-- A character that begins references. -/
def Sigil (c : Char) : Prop := c = '$' ∨ c = '@' ∨ c = '&'

/-- `s` begins with the opening of a reference. -/
def Opens (s : Str) : Prop := ∃ c t, Sigil c ∧ s = c :: '(' :: t

/-- `s` begins with an escaped opening. -/
def Escaped (s : Str) : Prop := ∃ c t, (c = '$' ∨ c = '@') ∧ s = '\\' :: c :: '(' :: t

/-- `Expands env s o deps`: reading `s` from left to right once, `o` is `s` with its references replaced by what
they stand for and the backslash of escaped openings dropped. -/
inductive Expands (env : Env) : Str → Str → List Str → Prop
  | nil : Expands env [] [] []
  | escaped {c t o d} : c = '$' ∨ c = '@' → Expands env t o d →
      Expands env ('\\' :: c :: '(' :: t) (c :: '(' :: o) d
  | reference {c name t v o d d'} : Sigil c → ')' ∉ name → Stands env c name v d → Expands env t o d' →
      Expands env (c :: '(' :: name ++ ')' :: t) (v ++ o) (d ++ d')
  | other {c t o d} : ¬ Opens (c :: t) → ¬ Escaped (c :: t) → Expands env t o d → Expands env (c :: t) (c :: o) d

/-- Why the expansion of a text fails: some reference is not closed, or what it refers to cannot be had. -/
inductive Fails (env : Env) : Str → Prop
  | unclosed {c t} : Sigil c → ')' ∉ t → Fails env (c :: '(' :: t)
  | lookup {c name t} : Sigil c → ')' ∉ name → (¬ ∃ v d, Stands env c name v d) →
      Fails env (c :: '(' :: name ++ ')' :: t)
  | afterEscaped {c t} : c = '$' ∨ c = '@' → Fails env t → Fails env ('\\' :: c :: '(' :: t)
  | afterReference {c name t v d} : Sigil c → ')' ∉ name → Stands env c name v d → Fails env t →
      Fails env (c :: '(' :: name ++ ')' :: t)
  | afterOther {c t} : ¬ Opens (c :: t) → ¬ Escaped (c :: t) → Fails env t → Fails env (c :: t)

/-- A node reference: a percent sign, digits, and `t`; the id fits 64 bits. -/
def NodeRef (s : Str) : Prop :=
  ∃ n t, n ≠ [] ∧ (∀ c ∈ n, isDigit c = true) ∧ number n < 2 ^ 63 ∧ s = '%' :: n ++ 't' :: t

/-- `ExpandsNodes path s o`: `o` is `s` with its node references replaced by paths. -/
inductive ExpandsNodes (path : Nat → Option Str) : Str → Str → Prop
  | nil : ExpandsNodes path [] []
  | node {n t p o} : n ≠ [] → (∀ c ∈ n, isDigit c = true) → number n < 2 ^ 63 → path (number n) = some p →
      ExpandsNodes path t o → ExpandsNodes path ('%' :: n ++ 't' :: t) (p ++ o)
  | other {c t o} : ¬ NodeRef (c :: t) → ExpandsNodes path t o → ExpandsNodes path (c :: t) (c :: o)

end Tup.Eval
