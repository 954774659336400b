import Verif.Text

/-!
Model of the expansion of `$(X)`, `@(X)` and `&(X)` and of internal node references `%<id>t` in Tupfile text
(src/tup/parser.c:4165-4351).
-/

namespace Tup.Eval

/-- What the expansion looks up. -/
structure Env where
  /-- `get_relative_dir` from the Tupfile's directory to the current one, parser.c:4251; `none`: it fails -/
  cwd : Option Str
  /-- `get_relative_dir` from the source to the output directory, parser.c:4267 -/
  outputDir : Option Str
  /-- the id of the current directory, parser.c:4260 -/
  dirId : Nat
  /-- `tup_db_get_var`, src/tup/db.c:4867-4880: the value of a tup.config variable -/
  config : Str → Option Str
  /-- `tup_get_var` as seen by `luadb_copy`, src/tup/luaparser.c:949-977: the value as a string, empty if the
  variable is not set; `none`: the name is too long -/
  var : Str → Option Str
  /-- `vardb_copy` from the node variables, parser.c:4325 -/
  nodeVar : Str → Str

/-- The digits of a number, `%lli`. -/
def digits (n : Nat) : Str := (Nat.repr n).toList

/-- The value of a `$(name)`: what is appended to the output, and the names of the tup.config variables that
are added to the inputs of the Tupfile, parser.c:4248-4290. -/
def dollar (env : Env) (name : Str) : Option (Str × List Str) :=
  if name = "TUP_CWD".toList then env.cwd.map (·, [])
  else if name = "TUP_VARIANTDIR".toList then some ('%' :: digits env.dirId ++ ['t'], [])
  else if name = "TUP_VARIANT_OUTPUTDIR".toList then env.outputDir.map (·, [])
  else if name.length > 7 ∧ name.take 7 = "CONFIG_".toList then
    (env.config (name.drop 7)).map (·, [name.drop 7])
  else (env.var name).map (·, [])

/-- The value of an `@(name)`, parser.c:4301-4313. -/
def at_ (env : Env) (name : Str) : Option (Str × List Str) := (env.config name).map (·, [name])

/-- The value of an `&(name)`, parser.c:4324-4327. -/
def amp (env : Env) (name : Str) : Option (Str × List Str) := some (env.nodeVar name, [])

/-- Put text and inputs in front of a result. -/
def pre (v : Str) (d : List Str) (o : Option (Str × List Str)) : Option (Str × List Str) :=
  o.map fun p => (v ++ p.1, d ++ p.2)

/-- The tests `(s[1] == '$' || s[1] == '@') && s[2] == '('`, parser.c:4223: the escaped character and the text
behind the parenthesis. -/
def escaped : Str → Option (Char × Str)
  | d :: '(' :: t => if d = '$' ∨ d = '@' then some (d, t) else none
  | _ => none

theorem escaped_eq {s d t} (h : escaped s = some (d, t)) : s = d :: '(' :: t ∧ (d = '$' ∨ d = '@') := by
  unfold escaped at h
  split at h
  · split at h
    · simp only [Option.some.injEq, Prod.mk.injEq] at h
      obtain ⟨rfl, rfl⟩ := h
      exact ⟨rfl, by assumption⟩
    · cases h
  · cases h

/-- The test `s[1] == '('`: the text behind the parenthesis. -/
def opened : Str → Option Str
  | '(' :: t => some t
  | _ => none

theorem opened_eq {s t} (h : opened s = some t) : s = '(' :: t := by
  unfold opened at h
  split at h
  · simp only [Option.some.injEq] at h; rw [h]
  · cases h

/-- The loop of `eval`, parser.c:4217-4336: the expanded text and the tup.config variables that became inputs;
`none`: an error.  Memory allocation succeeds (growing the output is modelled in `Tup.Strings`). -/
def evalLoop (env : Env) : Str → Option (Str × List Str)
  | [] => some ([], [])
  | c :: rest =>
    if c = '\\' then
      match h : escaped rest with
      | some (d, t) =>
        -- `s += 2` leaves the parenthesis for the next turn
        have : t.length + 2 = rest.length := by rw [(escaped_eq h).1]; rfl
        pre [d] [] (evalLoop env ('(' :: t))
      | none => pre [c] [] (evalLoop env rest)
    else if c = '$' ∨ c = '@' ∨ c = '&' then
      match h : opened rest with
      | some t =>
        have : t.length + 1 = rest.length := by rw [opened_eq h]; rfl
        match h' : strchr ')' t with
        | none => none
        | some (name, after) =>
          have := strchr_length h'
          match if c = '$' then dollar env name else if c = '@' then at_ env name else amp env name with
          | none => none
          | some (v, d) => pre v d (evalLoop env after)
      | none => pre [c] [] (evalLoop env rest)
    else pre [c] [] (evalLoop env rest)
termination_by s => s.length
decreasing_by all_goals (simp only [List.length_cons]; omega)

/-- `isdigit` -/
def isDigit (c : Char) : Bool := '0'.toNat ≤ c.toNat && c.toNat ≤ '9'.toNat

/-- The number that digits denote, `strtoll` base 10. -/
def number (l : Str) : Nat := l.foldl (fun n c => n * 10 + (c.toNat - '0'.toNat)) 0

/-- `expand_node_strings`, parser.c:4165-4209; `path` is the relative path of the node with an id, if the node
exists.  A number that does not fit 64 bits makes `strtoll` set `errno`. -/
def expandNodes (path : Nat → Option Str) (s : Str) : Option Str :=
  match s with
  | [] => some []
  | c :: rest =>
    if c = '%' ∧ (rest.takeWhile isDigit) ≠ [] then
      match h : rest.dropWhile isDigit with
      | 't' :: after =>
        if number (rest.takeWhile isDigit) < 2 ^ 63 then
          match path (number (rest.takeWhile isDigit)) with
          | none => none
          | some p =>
            have : after.length < rest.length := by
              have := (List.dropWhile_suffix (l := rest) isDigit).length_le
              rw [h] at this
              simp only [List.length_cons] at this
              omega
            (expandNodes path after).map (p ++ ·)
        else (expandNodes path rest).map (c :: ·)
      | _ => (expandNodes path rest).map (c :: ·)
    else (expandNodes path rest).map (c :: ·)
termination_by s.length
decreasing_by all_goals (simp only [List.length_cons] at *; omega)

/-- `eval`, parser.c:4211-4351; `nodes = none` is `KEEP_NODES`, otherwise it gives the paths that node
references expand to (they depend on `expand_nodes`). -/
def eval (env : Env) (nodes : Option (Nat → Option Str)) (s : Str) : Option (Str × List Str) :=
  match evalLoop env s with
  | none => none
  | some (o, d) =>
    match nodes with
    | none => some (o, d)
    | some path => (expandNodes path o).map (·, d)

end Tup.Eval
