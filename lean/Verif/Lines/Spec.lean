import Verif.Lines.Model

/-! What the lines of a Tupfile are, independently of how they are found. -/

namespace Tup.Lines

/-- A byte of the file, or one that a line continuation turned into a space. -/
inductive Tok where
  | ch (c : Char)
  | gap
deriving DecidableEq, Repr

/-- Line continuations (backslash newline, or backslash carriage-return newline) become gaps. -/
def toks : Str → List Tok
  | [] => []
  | '\\' :: '\n' :: s => .gap :: .gap :: toks s
  | '\\' :: '\r' :: '\n' :: s => .gap :: .gap :: .gap :: toks s
  | c :: s => .ch c :: toks s

/-- Cut at newlines. -/
def cut : List Tok → List (List Tok)
  | [] => [[]]
  | .ch '\n' :: s => [] :: cut s
  | t :: s =>
    match cut s with
    | [] => [[t]]
    | l :: ls => (t :: l) :: ls

def Tok.isSpace : Tok → Bool
  | .ch c => Tup.isSpace c
  | .gap => false

def Tok.char : Tok → Char
  | .ch c => c
  | .gap => ' '

/-- A line without leading and trailing white space; `none` for blank lines and comments.  (Leading gaps
stay: a line that begins with a continuation begins with spaces.) -/
def logical (l : List Tok) : Option Str :=
  match l.dropWhile Tok.isSpace with
  | [] => none
  | l =>
    let line := trimEnd (l.map Tok.char)
    if line.head? = some '#' then none else some line

/-- The text of a file: what follows the byte-order mark EF BB BF, if the file begins with it, else all of it. -/
def IsText (content s : Str) : Prop :=
  content = Char.ofNat 0xEF :: Char.ofNat 0xBB :: Char.ofNat 0xBF :: s ∨
    (s = content ∧ ∀ r, content ≠ Char.ofNat 0xEF :: Char.ofNat 0xBB :: Char.ofNat 0xBF :: r)

/-- The logical lines of a file. -/
def logicalLines (s : Str) : List Str := (cut (toks s)).filterMap logical

/-- The file ends in the middle of a line continuation. -/
def EndsInBackslash (s : Str) : Prop := (∃ a, s = a ++ ['\\']) ∨ ∃ a, s = a ++ ['\\', '\r']

/-- The first line is a single character (not a backslash). -/
def OneCharFirst (s : Str) : Prop :=
  ∃ c r, s = c :: r ∧ isSpace c = false ∧ c ≠ '\\' ∧ (r = [] ∨ ∃ r', r = '\n' :: r')

end Tup.Lines
