/-
Conventions shared by all parts of the model.

A C string (or byte buffer) is a `List Char`; one `Char` stands for one byte, its code point is the
byte value.  The C code never produces codes above 255; the theorems do not need that restriction.
-/

namespace Tup

/-- A C string / byte buffer.  (Convention of the model, no single source location.) -/
abbrev Str := List Char

/-- C `isspace` in the "C" locale, used e.g. in src/tup/parser.c:572.
tup never calls `setlocale`, so this is the locale in force. -/
def isSpace (c : Char) : Bool :=
  c = ' ' || c = '\t' || c = '\n' || c = '\r' || c = '\x0b' || c = '\x0c'

end Tup
