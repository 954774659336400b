import Verif.Strings.Model

/-! How a POSIX shell reads quoted words, and how JSON strings are decoded. -/

namespace Tup.Strings

/-- The C string in a buffer is `t`: the length is right, the bytes are there, and a NUL byte follows. -/
def Holds (e : Estring) (t : Str) : Prop :=
  e.len = t.length ∧ e.s.length = e.maxlen ∧ t.length < e.maxlen ∧
  e.s.take (t.length + 1) = (t ++ ['\x00']).map some

/-- States of the shell's word reader (POSIX 2.2). -/
inductive Sh where
  | plain | single | double
deriving DecidableEq, Repr

/-- Reads one word, as POSIX 2.2 (Quoting) says: inside single quotes every byte stands for itself; inside
double quotes everything but `$`, backquote, backslash and the closing quote stands for itself, and a backslash
quotes these four bytes only (and removes a newline); outside of quotes only bytes without any special meaning are
accepted here.  `none`: the text is not one complete literal word — a quote is open, or the shell would expand
or split something. -/
def shWord : Sh → Str → Option Str
  | .plain, [] => some []
  | .single, [] => none
  | .double, [] => none
  | .single, c :: s => if c = '\'' then shWord .plain s else (shWord .single s).map (c :: ·)
  | .double, '\\' :: c :: s =>
    if c = '\n' then shWord .double s
    else if c ∈ ['$', '`', '"', '\\'] then (shWord .double s).map (c :: ·)
    else (shWord .double s).map ('\\' :: c :: ·)
  | .double, c :: s =>
    if c = '"' then shWord .plain s
    else if c ∈ ['$', '`', '\\'] then none
    else (shWord .double s).map (c :: ·)
  | .plain, '\\' :: c :: s =>
    if c = '\n' then shWord .plain s else (shWord .plain s).map (c :: ·)
  | .plain, c :: s =>
    if c = '\'' then shWord .single s
    else if c = '"' then shWord .double s
    else if c.isAlphanum ∨ c ∈ ['_', '.', '/', '-', '+', ',', ':', '@', '%'] then (shWord .plain s).map (c :: ·)
    else none

/-- Decodes the inside of a JSON string (RFC 8259, section 7), `\u` escapes left out; `none`: not valid. -/
def jsonDecode : Str → Option Str
  | [] => some []
  | '\\' :: c :: s =>
    if c = '\\' ∨ c = '"' ∨ c = '/' then (jsonDecode s).map (c :: ·)
    else if c = 'n' then (jsonDecode s).map ('\n' :: ·)
    else if c = 't' then (jsonDecode s).map ('\t' :: ·)
    else if c = 'r' then (jsonDecode s).map ('\r' :: ·)
    else if c = 'b' then (jsonDecode s).map ('\x08' :: ·)
    else if c = 'f' then (jsonDecode s).map ('\x0c' :: ·)
    else none
  | c :: s =>
    if c = '\\' ∨ c = '"' ∨ c.toNat < 32 then none else (jsonDecode s).map (c :: ·)

/-- A byte that JSON does not allow in a string unescaped and that is not escaped by a backslash. -/
def control (c : Char) : Bool := c.toNat < 32

end Tup.Strings
