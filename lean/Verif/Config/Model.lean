import Verif.Text

/-!
Model of how `tup.config` is read (src/tup/db.c:7672-7745, with src/tup/fslurp.c) and of `tup varsed`
(src/tup/varsed.c:76-136).
-/

namespace Tup.Config

/-- The byte-order mark. -/
def bom : Str := [Char.ofNat 0xef, Char.ofNat 0xbb, Char.ofNat 0xbf]

/-- `fslurp`, src/tup/fslurp.c:32-110: the content of a file, without a byte-order mark.  Simplified: reading does not
fail.  There is no NUL byte behind the content. -/
def slurp (s : Str) : Str := if bom.isPrefixOf s then s.drop 3 else s

/-- What `strchr` comes to when it looks for the end of the line in a buffer without a NUL byte at its end. -/
inductive Nl where
  | found (line : Str)
  | nul
  | past
deriving DecidableEq, Repr

/-- `strchr(p, '\n')`, db.c:7684. -/
def findNl : Str → Nl
  | [] => .past
  | c :: s =>
    if c = '\n' then .found []
    else if c = Char.ofNat 0 then .nul
    else
      match findNl s with
      | .found l => .found (c :: l)
      | r => r

/-- One line without white space at its end, db.c:7696-7737: `none` for an error, else the variable that is set. -/
def parseLine (p : Str) : Option (Option (Str × Str)) :=
  if p = [] then some none
  else if p.head? = some '#' then
    if "# CONFIG_".toList.isPrefixOf p then
      match strchr ' ' (p.drop 9) with
      | none => none
      | some (x, _) => some (some (x, "n".toList))
    else some none
  else if "CONFIG_".toList.isPrefixOf p then
    match strchr '=' p with
    | none => none
    | some (a, v) =>
      if v.head? = some '"' then
        match strchr '"' (v.drop 1) with
        | none => none
        | some (w, _) => some (some (a.drop 7, w))
      else some (some (a.drop 7, v))
  else none

/-- `ub`: memory behind the buffer is read. -/
inductive Res where
  | ok (bindings : List (Str × Str))
  | error
  | ub
deriving DecidableEq, Repr

def Res.cons (b : Option (Str × Str)) : Res → Res
  | .ok l => .ok (b.toList ++ l)
  | r => r

/-- The loop of `get_file_var_tree`, db.c:7680-7741.  The end of the line is moved to the front of the white space at
its end, and the next round begins one character behind that, so the rest of the white space is taken for another line.
The result is the list of the calls of `vardb_set`. -/
def parse (s : Str) : Res :=
  match s with
  | [] => .ok []
  | c :: s =>
    match findNl (c :: s) with
    | .past => .ub
    | .nul => .error
    | .found line =>
      match parseLine (trimEnd line) with
      | none => .error
      | some b => Res.cons b (parse ((c :: s).drop ((trimEnd line).length + 1)))
termination_by s.length
decreasing_by simp only [List.length_drop, List.length_cons]; omega

/-- `get_file_var_tree`, db.c:7672-7745. -/
def readConfig (file : Str) : Res := parse (slurp file)

/-! ### varsed -/

/-- `isalnum(c) || c == '_'` in the C locale. -/
def isWord (c : Char) : Bool :=
  ('a'.toNat ≤ c.toNat && c.toNat ≤ 'z'.toNat) || ('A'.toNat ≤ c.toNat && c.toNat ≤ 'Z'.toNat) ||
    ('0'.toNat ≤ c.toNat && c.toNat ≤ '9'.toNat) || c = '_'

/-- The text written for a variable, varsed.c:110-123; `look` is `tup_config_var`. -/
def value (look : Str → Option Str) (bin : Bool) (n : Str) : Str :=
  match look n with
  | none => []
  | some v =>
    if bin && v.length = 1 then
      if v.head? = some 'y' then "1".toList else if v.head? = some 'n' then "0".toList else v
    else v

set_option linter.unusedVariables false in
/-- The loop of `var_replace`, varsed.c:86-133: what is written.  Simplified: writing does not fail. -/
def replace (look : Str → Option Str) (bin : Bool) (s : Str) : Str :=
  match h : s.dropWhile (· != '@') with
  | [] => s.takeWhile (· != '@')
  | _ :: r =>
    match h' : r.dropWhile isWord with
    | [] => s.takeWhile (· != '@') ++ '@' :: r.takeWhile isWord
    | d :: t =>
      if d = '@' then s.takeWhile (· != '@') ++ value look bin (r.takeWhile isWord) ++ replace look bin t
      else s.takeWhile (· != '@') ++ '@' :: r.takeWhile isWord ++ replace look bin (d :: t)
termination_by s.length
decreasing_by
  all_goals
    have h1 : (s.dropWhile (· != '@')).length ≤ s.length := (List.dropWhile_suffix _).length_le
    have h2 : (r.dropWhile isWord).length ≤ r.length := (List.dropWhile_suffix _).length_le
    rw [h] at h1
    rw [h'] at h2
    simp only [List.length_cons] at h1 h2 ⊢
    omega

/-- `var_replace`, varsed.c:76-136. -/
def varsed (look : Str → Option Str) (bin : Bool) (file : Str) : Str := replace look bin (slurp file)

end Tup.Config
