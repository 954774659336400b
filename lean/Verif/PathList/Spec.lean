import Verif.PathList.Model

/-! How a list of paths is written, independently of how it is read. -/

namespace Tup.PathList

/-- Text inside double quotes and what it stands for: a backslash takes the next byte as it is. -/
inductive InQuotes : Str → Str → Prop
  | nil : InQuotes [] []
  | plain {c t w} : c ≠ '\\' → c ≠ '"' → InQuotes t w → InQuotes (c :: t) (c :: w)
  | esc {c t w} : InQuotes t w → InQuotes ('\\' :: c :: t) (c :: w)

/-- `Denotes t w`: the text `t` is one word, which stands for `w`. -/
inductive Denotes : Str → Str → Prop
  | nil : Denotes [] []
  | plain {c t w} : c ≠ '\\' → c ≠ '"' → isSpace c = false → Denotes t w → Denotes (c :: t) (c :: w)
  | esc {c t w} : Denotes t w → Denotes ('\\' :: c :: t) (c :: w)
  | quoted {q v t w} : InQuotes q v → Denotes t w → Denotes ('"' :: q ++ '"' :: t) (v ++ w)

/-- Separators: white space, at least one byte. -/
def Sep (s : Str) : Prop := s ≠ [] ∧ ∀ c ∈ s, isSpace c = true

/-- `Written s ws`: `s` is the words `ws`, separated by white space, possibly followed by white space. -/
inductive Written : Str → List Str → Prop
  | nil : Written [] []
  | last {t w} : t ≠ [] → Denotes t w → Written t [w]
  | more {t w sep s ws} : t ≠ [] → Denotes t w → Sep sep → (∀ c r, s = c :: r → isSpace c = false) →
      Written s ws → Written (t ++ sep ++ s) (w :: ws)

/-- A path between double quotes, with backslashes before double quotes and backslashes. -/
def quote (p : Str) : Str :=
  '"' :: p.flatMap (fun c => if c = '"' ∨ c = '\\' then ['\\', c] else [c]) ++ ['"']

/-- Quoted paths with separators. -/
def quoteList : List (Str × Str) → Str
  | [] => []
  | [(p, _)] => quote p
  | (p, sep) :: l => quote p ++ sep ++ quoteList l

/-- Whether a double quote is open at the end of a string. -/
def quoteOpen (esc q : Bool) : Str → Bool
  | [] => q
  | c :: s =>
    if esc then quoteOpen false q s
    else if c = '\\' then quoteOpen true q s
    else if c = '"' then quoteOpen false (!q) s
    else quoteOpen false q s

/-- What a word stands for: `{name}` a bin that exists (where bins are allowed), `^regex` an exclusion whose regular
expression can be compiled, a word with `<` and `>` a group, any other word without `<` a file.  Anything else stands
for nothing. -/
inductive Means (bins : Option (Str → Bool)) (reOk : Str → Bool) : Str → Kind → Prop
  | bin {bl name rest} : bins = some bl → '}' ∉ name → bl name = true → Means bins reOk ('{' :: name ++ '}' :: rest) (.bin name)
  | excl {r} : reOk r = true → Means bins reOk ('^' :: r) (.excl r)
  | group {w} : w.head? ≠ some '{' → w.head? ≠ some '^' → '<' ∈ w → '>' ∈ w → Means bins reOk w .group
  | file {w} : w.head? ≠ some '{' → w.head? ≠ some '^' → '<' ∉ w → Means bins reOk w .file

end Tup.PathList
