import Verif.Basic

/-!
Model of how `parse_tupfile` (src/tup/parser.c:554-615) cuts the contents of a Tupfile into lines.

The buffer is the file's bytes followed by one NUL byte (`fslurp_null`, src/tup/fslurp.c:36-44).  It is kept
as `before ++ rest`, where `rest` starts at the C pointer `p`.  Reading in front of the buffer or behind the
final NUL byte is undefined behaviour in C and gives `ub`.
-/

namespace Tup.Lines

/-- The outcome of cutting up a buffer: the lines in order, or undefined behaviour. -/
inductive Res where
  | ok (lines : List Str)
  | ub
deriving DecidableEq, Repr

/-- Dropping the UTF-8 byte-order mark, src/tup/fslurp.c:65-85. -/
def dropBom : Str → Str
  | '\xef' :: '\xbb' :: '\xbf' :: s => s
  | s => s

/-- `get_newline`, src/tup/parser.c:543-552: the bytes before the first newline or NUL byte, that byte, and
the bytes after it.  `none`: `strchr` runs off the end of the buffer. -/
def getNewline : Str → Option (Str × Char × Str)
  | [] => none
  | c :: s =>
    if c = '\n' ∨ c = '\x00' then some ([], c, s)
    else (getNewline s).map fun (b, n, a) => (c :: b, n, a)

/-- The condition of the `while` at line 589: `newline` points behind `before ++ body`.  `none`: a byte in
front of the buffer is read. -/
def continued (before body : Str) : Option Bool :=
  match (before ++ body).reverse with
  | [] => none
  | '\\' :: _ => some true
  | [_] => none
  | c1 :: c2 :: _ => some (c2 = '\\' && c1 = '\r')

/-- The last `n` bytes of `body` become spaces. -/
def blank (n : Nat) (body : Str) : Str := body.take (body.length - n) ++ List.replicate n ' '

/-- The search for the end of the line, lines 581-603: `body` is the line so far (from `p` to `newline`),
`term` the byte at `newline`, `after` the rest of the buffer.  The line is continued at most once per byte,
so the number of bytes behind it bounds the number of iterations.  `none` is undefined behaviour. -/
def extend (before : Str) : Nat → Str → Char → Str → Option (Str × Char × Str)
  | 0, _, _, _ => none
  | fuel + 1, body, term, after =>
    match continued before body with
    | none => none
    | some false => some (body, term, after)
    | some true =>
      let k := if body.getLast? = some '\r' then 2 else 1
      match getNewline (blank k body ++ ' ' :: after) with
      | none => none
      | some (body, term, after) => extend before fuel body term after

/-- Removing trailing white space, lines 607-610. -/
def trimEnd (s : Str) : Str := (s.reverse.dropWhile isSpace).reverse

/-- The `while` loop of `parse_tupfile`, lines 569-615, as far as it cuts lines; every iteration moves `p`
forward, so the length of the buffer bounds the number of iterations. -/
def loop : Nat → Str → Str → Res
  | 0, _, _ => .ok []
  | fuel + 1, before, rest =>
    if rest.length ≤ 1 then .ok []                        -- p < e, line 569
    else
      let ws := rest.dropLast.takeWhile isSpace           -- line 573
      let before := before ++ ws
      let rest := rest.drop ws.length
      if rest.length ≤ 1 then .ok []                      -- line 579
      else match getNewline rest with
        | none => .ub
        | some (body, term, after) =>
          match extend before (after.length + 2) body term after with
          | none => .ub
          | some (body, term, after) =>
            let line := trimEnd body
            -- line 611: the byte behind the line becomes NUL
            let before := before ++ (body ++ [term]).set line.length '\x00'
            match loop fuel before after with
            | .ub => .ub
            | .ok ls => if line.head? = some '#' then .ok ls else .ok (line :: ls)

/-- All lines of a Tupfile. -/
def readLines (content : Str) : Res :=
  let s := dropBom content
  loop (s.length + 1) [] (s ++ ['\x00'])

end Tup.Lines
