import Verif.Printf.Model
import Verif.Strings.Lemmas

/-! What the %-flags stand for and what the expansion of a text is, written down as rules. -/

namespace Tup.Printf

open Tup.Names Tup.Eval

/-- Words with single spaces between them. -/
def spaced (l : List Str) : Str := List.intercalate " ".toList l

/-- `Stems l r`: `r` are the names of the entries without directory and extension. -/
def Stems (l : List Entry) (r : List Str) : Prop :=
  r.length = l.length ∧ ∀ (i : Nat) (e : Entry) (s : Str), l[i]? = some e → r[i]? = some s →
    0 ≤ e.extlessbaselen ∧ s = e.base.take e.extlessbaselen.toNat

/-- The entries with a number; of a list in ascending order these are all entries with that number. -/
def withNumber (n : Nat) (l : List Entry) : List Entry :=
  (l.takeWhile fun e => e.orderid ≤ n).filter fun e => e.orderid = n

/-- The digits of a numbered flag, and the number they stand for (it is cut to 32 bits). -/
def Digits (ds : Str) (n : Nat) : Prop :=
  ds ≠ [] ∧ (∀ c ∈ ds, isDigit c = true) ∧ number ds < 2 ^ 63 ∧ n = number ds % 2 ^ 32 ∧ 1 ≤ n ∧ n ≤ 98

/-- What a flag (without its percent sign) stands for. -/
inductive Stands (a : Args) : Str → Str → Prop
  | inputs : a.nl.entries ≠ [] → Stands a ['f'] (spaced (a.nl.entries.map (·.path)))
  | bases : a.nl.entries ≠ [] → Stands a ['b'] (spaced (a.nl.entries.map (·.base)))
  | stems {r} : a.nl.entries ≠ [] → Stems a.nl.entries r → Stands a ['B'] (spaced r)
  | orderOnly {l} : a.oo = some l → l.entries ≠ [] → Stands a ['i'] (spaced (l.entries.map (·.path)))
  | ext {x} : a.ext = some x → Stands a ['e'] x
  | outputs {l} : a.onl = some l → l.entries ≠ [] → Stands a ['o'] (spaced (l.entries.map (·.path)))
  | output {l e} : a.onl = some l → l.entries = [e] → 0 ≤ e.extlesslen →
      Stands a ['O'] (e.path.take e.extlesslen.toNat)
  | dir : Stands a ['d'] a.dir
  | glob {e start n r x y z} : a.nl.entries = [e] → a.nl.globcnt ≠ 0 → e.globs = (start, some n) :: r →
      e.base = x ++ y ++ z → x.length = start → y.length = n → Stands a ['g'] y
  | group : Stands a ['<'] "%<".toList
  | percent : a.perc = true → Stands a ['%'] "%".toList
  | percents : a.perc = false → Stands a ['%'] "%%".toList
  | quotedInputs {q} : q = '\'' ∨ q = '"' → a.nl.entries ≠ [] →
      Stands a [q, 'f'] (spaced (a.nl.entries.map fun e => [q] ++ Strings.escaped q e.path ++ [q]))
  | quotedOutputs {q l} : q = '\'' ∨ q = '"' → a.onl = some l → l.entries ≠ [] →
      Stands a [q, 'o'] (spaced (l.entries.map fun e => [q] ++ Strings.escaped q e.path ++ [q]))
  | input {ds n} : Digits ds n → Stands a (ds ++ ['f']) (spaced ((withNumber n a.nl.entries).map (·.path)))
  | base {ds n} : Digits ds n → Stands a (ds ++ ['b']) (spaced ((withNumber n a.nl.entries).map (·.base)))
  | stem {ds n r} : Digits ds n → Stems (withNumber n a.nl.entries) r → Stands a (ds ++ ['B']) (spaced r)
  | numberedOutput {ds n l} : Digits ds n → a.onl = some l →
      Stands a (ds ++ ['o']) (spaced ((withNumber n l.entries).map (·.path)))
  | noOutput {ds n} : Digits ds n → a.onl = none → Stands a (ds ++ ['o']) []
  | numberedOrderOnly {ds n l} : Digits ds n → a.oo = some l →
      Stands a (ds ++ ['i']) (spaced ((withNumber n l.entries).map (·.path)))
  | node {ds} : ds ≠ [] → (∀ c ∈ ds, isDigit c = true) → number ds < 2 ^ 63 →
      Stands a (ds ++ ['t']) ("%".toList ++ ds ++ "t".toList)

/-- `Prints a s o`: reading `s` from left to right once, `o` is `s` with its flags replaced by what they stand
for. -/
inductive Prints (a : Args) : Str → Str → Prop
  | nil : Prints a [] []
  | other {c t o} : c ≠ '%' → Prints a t o → Prints a (c :: t) (c :: o)
  | flag {f v t o} : Stands a f v → Prints a t o → Prints a ("%".toList ++ f ++ t) (v ++ o)

/-- Some name without extension has a negative length. -/
def BadStem (l : List Entry) : Prop := ∃ e ∈ l, e.extlessbaselen < 0

/-- The flags that use memory outside of an object or that has not been written. -/
inductive Undefined (a : Args) : Str → Prop
  | stems : BadStem a.nl.entries → Undefined a ['B']
  | stem {ds n} : Digits ds n → BadStem (withNumber n a.nl.entries) → Undefined a (ds ++ ['B'])
  | output {l e} : a.onl = some l → l.entries = [e] → e.extlesslen < 0 → Undefined a ['O']
  | glob {e} : a.nl.entries = [e] → a.nl.globcnt ≠ 0 →
      (¬ ∃ start n r, e.globs = (start, some n) :: r ∧ start + n ≤ e.base.length) → Undefined a ['g']

/-- The expansion gets to an undefined flag. -/
inductive Breaks (a : Args) : Str → Prop
  | here {f t} : Undefined a f → Breaks a ("%".toList ++ f ++ t)
  | other {c t} : c ≠ '%' → Breaks a t → Breaks a (c :: t)
  | flag {f v t} : Stands a f v → Breaks a t → Breaks a ("%".toList ++ f ++ t)

end Tup.Printf
