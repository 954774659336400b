import Verif.Text

/-!
Model of `tup.file`, `tup.base` and `tup.ext` for Tupfile.lua (src/luabuiltin/builtin.lua:47-61), with the part of Lua's patterns that they use (src/lua/lstrlib.c:360-670, 770-820, 940-982).

A pattern is taken as the list of its items; how it is read (`classend`, `matchbracketclass`) is left out, as are the items that do not come up here and the limit of recursion, 200, which these patterns do not reach.
-/

namespace Tup.LuaNames

open Tup (Str)

/-- Items of a pattern: a class, a class with `*`, the two ends of a capture, and `$` at the end. -/
inductive Item where
  | one (p : Char → Bool)
  | star (p : Char → Bool)
  | start
  | stop
  | eos

/-- `max_expand`, lstrlib.c:507-520: as many as possible, and less if the rest then does not match.  `k` is the match of the rest. -/
def expand {β : Type} (p : Char → Bool) (k : Str → Option β) : Str → Option β
  | [] => k []
  | c :: t => if p c then (match expand p k t with | some r => some r | none => k (c :: t)) else k (c :: t)

/-- `match`, lstrlib.c:570-670: what is left behind the match, and the capture.  `s0` is the text from the start of the capture, `cap` the capture when it is closed; there is at most one. -/
def matchAt : List Item → Str → Str → Str → Option (Str × Str)
  | [], _, cap, s => some (s, cap)
  | .one _ :: _, _, _, [] => none
  | .one p :: q, s0, cap, c :: t => if p c then matchAt q s0 cap t else none
  | .star p :: q, s0, cap, s => expand p (matchAt q s0 cap) s
  | .start :: q, _, cap, s => matchAt q s cap s
  | .stop :: q, s0, _, s => matchAt q s0 (s0.take (s0.length - s.length)) s
  | .eos :: q, s0, cap, s => if s = [] then matchAt q s0 cap s else none

/-- `match` for a pattern without captures. -/
def endOf (pat : List Item) (s : Str) : Option Str := (matchAt pat [] [] s).map (·.1)

/-- The loop of `str_gsub`, lstrlib.c:962-974, with an empty replacement; positions are the lengths of what is left.  `none`: there were not enough rounds. -/
def gsubLoop (pat : List Item) : Nat → Option Nat → Str → Option Str
  | 0, _, _ => none
  | n + 1, last, s =>
    match (endOf pat s).filter (fun e => last ≠ some e.length), s with
    | some e, _ => gsubLoop pat n (some e.length) e
    | none, [] => some []
    | none, c :: t => (gsubLoop pat n last t).map (c :: ·)

/-- `string.gsub(s, pat, '')`: at each position there is at most one match and then one step. -/
def gsub (pat : List Item) (s : Str) : Option Str := gsubLoop pat (2 * s.length + 2) none s

/-- `string.match(s, pat)` for a pattern with a capture, the loop of `str_find_aux`, lstrlib.c:790-806: the first position that matches. -/
def find (pat : List Item) : Str → Option Str
  | [] => (matchAt pat [] [] []).map (·.2)
  | c :: t => match matchAt pat [] [] (c :: t) with | some r => some r.2 | none => find pat t

/-- `[/\\]`. -/
def isSep (c : Char) : Bool := c = '/' || c = '\\'

/-- `%w`: `isalnum` of the C locale. -/
def isWord (c : Char) : Bool := c.isAlphanum

/-- `'[^/\\]*[/\\]'`. -/
def dirPat : List Item := [.star fun c => !isSep c, .one isSep]

/-- `'%.%w*$'`. -/
def dotPat : List Item := [.one (· = '.'), .star isWord, .eos]

/-- `'%.(%w*)$'`. -/
def extPat : List Item := [.one (· = '.'), .start, .star isWord, .stop, .eos]

/-- `tup.file`, builtin.lua:47-50. -/
def file (s : Str) : Option Str := gsub dirPat s

/-- `tup.base`, builtin.lua:52-55. -/
def base (s : Str) : Option Str :=
  match file s with
  | none => none
  | some f => gsub dotPat f

/-- `tup.ext`, builtin.lua:57-61; that it also sets a global variable is in `LuaVars`. -/
def ext (s : Str) : Str :=
  match find extPat s with
  | none => []
  | some x => x

end Tup.LuaNames
