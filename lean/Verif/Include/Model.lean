import Verif.Pel.Model

/-!
Which files a directory is parsed from: the choice of the Tupfile, `include` and `include_rules`.
src/tup/parser.c:158-250 (`parse`), 398-499 (`open_tupfile`), 791-843 (`parser_include_rules`), 1274-1368 (`check_toplevel_gitignore`), 1370-1468 (`parser_include_file`),
src/tup/luaparser.c:134-158, 816-828, src/tup/create_name_file.c:561-660 (`find_dir_tupid_dt_pg`).

What the lines of a file do apart from this is a parameter.  Only the build in place is modelled, not the variants, and only the update, not the program `tup parse` that works
without a server.
-/

namespace Tup.Include

/-- A node is identified by the names from the top of the project. -/
abbrev Path := List Str

/-- The database and the disk.  `top` is the directory of the project, `node` says for each path whether there is a node and whether it is more than a ghost, `text` is what can
be read from the file. -/
structure World where
  top : Str
  node : Path → Option Bool
  text : Path → Option Str

/-- What a file does when it is parsed, in steps: it ends in a state (variables, rules made so far, ...), fails, includes a file or includes the rules, and continues with what
these leave.  The lines of a Tupfile (src/tup/parser.c:615-684) and the functions that a Lua program calls are such steps. -/
inductive Prog (σ : Type) where
  | ret (s : σ)
  | fail
  | incl (s : σ) (file : Str) (k : σ → Prog σ)
  | rules (s : σ) (k : σ → Prog σ)

/-- What the text of a file means: whether it is parsed as Lua, the text, the current directory (`TUP_CWD`), the state. -/
abbrev Meaning (σ : Type) := Bool → Str → Path → σ → Prog σ

/-- The fields of `struct tupfile` that matter: `curtent` (with `cur_dfd`), `including_rules`, the files in `finfo` and `input_root`; and the state. -/
structure St (σ : Type) where
  cur : Path
  inRules : Bool
  reads : List Path
  user : σ

/-- The loop of `find_dir_tupid_dt_pg`, src/tup/create_name_file.c:599-659, with `SOTGV_NO_GHOST`.  A missing node and the step above the top are failures here. -/
def findDir (w : World) : Path → List Str → Option Path
  | p, [] => some p
  | p, e :: l =>
    if e = "..".toList then if p = [] then none else findDir w p.dropLast l
    else if w.node (p ++ [e]) = none then none
    else findDir w (p ++ [e]) l

/-- The file that is included and its directory, src/tup/parser.c:1385-1424. -/
def locate (w : World) (cur : Path) (file : Str) : Option (Path × Path) :=
  match Pel.getPathElements w.top file with
  | none => none
  | some r =>
    if r.hidden then none
    else if r.outside then none
    else
      match r.elems.getLast? with
      | none => none
      | some e =>
        match findDir w (if r.root then [] else cur) r.elems.dropLast with
        | none => none
        | some d => if w.node (d ++ [e]) = none then none else some (d, d ++ [e])

/-- `strstr(file, ".lua")` with the comparison of what it finds, src/tup/parser.c:1435-1437. -/
def isLua : Str → Bool
  | [] => false
  | c :: s => if ".lua".toList.isPrefixOf (c :: s) then decide (c :: s = ".lua".toList) else isLua s

/-- The path of `parser_include_rules`, src/tup/parser.c:815-825, from the `x`-th directory on if `n` are left. -/
def rulesPath (n : Nat) (name : Str) : Str := (List.replicate n "../".toList).flatten ++ name

/-- The loop of `parser_include_rules`, src/tup/parser.c:827-836; the number is that of the rounds that are left.  `fstatat` is taken to find the file if it can be read. -/
def rulesLoop {σ : Type} (w : World) (inc : Str → St σ → Option (St σ)) (name : Str) : Nat → St σ → Option (St σ)
  | 0, st => some st
  | n + 1, st =>
    let p := st.cur.take (st.cur.length - n) ++ [name]
    let st := { st with reads := st.reads ++ [p] }
    if (w.text p).isSome then
      match inc (rulesPath n name) st with
      | none => none
      | some st => rulesLoop w inc name n st
    else rulesLoop w inc name n st

/-- `parser_include_rules`, src/tup/parser.c:791-843. -/
def includeRules {σ : Type} (w : World) (inc : Str → St σ → Option (St σ)) (name : Str) (st : St σ) : Option (St σ) :=
  if st.inRules then none
  else
    match rulesLoop w inc name (st.cur.length + 1) { st with inRules := true } with
    | none => none
    | some st => some { st with inRules := false }

/-- `parse_tupfile` or `parse_lua_tupfile`, where `inc` is `parser_include_file`. -/
def exec {σ : Type} (w : World) (inc : Str → St σ → Option (St σ)) : Prog σ → St σ → Option (St σ)
  | .ret s, st => some { st with user := s }
  | .fail, _ => none
  | .incl s file k, st =>
    match inc file { st with user := s } with
    | none => none
    | some st => exec w inc (k st.user) st
  | .rules s k, st =>
    match includeRules w inc "Tuprules.tup".toList { st with user := s } with
    | none => none
    | some st => exec w inc (k st.user) st

/-- `parser_include_file`, src/tup/parser.c:1370-1468.  The number is that of the files that may be open at the same time: an inclusion holds two descriptors until it ends, and
fails if there are no more. -/
def includeFile {σ : Type} (w : World) (sem : Meaning σ) : Nat → Str → St σ → Option (St σ)
  | 0, _, _ => none
  | n + 1, file, st =>
    match locate w st.cur file with
    | none => none
    | some (d, p) =>
      match w.text p with
      | none => none
      | some t =>
        match exec w (includeFile w sem n) (sem (isLua file) t d st.user) { st with cur := d, reads := st.reads ++ [p] } with
        | none => none
        | some st' => some { st' with cur := st.cur }

/-- `open_if_entry`, src/tup/parser.c:398-424: is there such a file.  (A ghost is added to `input_root`; all are in `finfo`.) -/
def there (w : World) (p : Path) : Bool := decide (w.node p = some true) && (w.text p).isSome

/-- The loop for the default files, src/tup/parser.c:477-497.  The directory is given as the list of its names in the opposite order. -/
def defaults (w : World) : List Str → List Path × Option (Path × Bool)
  | [] =>
    if there w ["Tupdefault".toList] then ([["Tupdefault".toList]], some (["Tupdefault".toList], false))
    else if there w ["Tupdefault.lua".toList] then ([["Tupdefault".toList], ["Tupdefault.lua".toList]], some (["Tupdefault.lua".toList], true))
    else ([["Tupdefault".toList], ["Tupdefault.lua".toList]], none)
  | n :: d =>
    let p := (n :: d).reverse ++ ["Tupdefault".toList]
    let q := (n :: d).reverse ++ ["Tupdefault.lua".toList]
    if there w p then ([p], some (p, false))
    else if there w q then ([p, q], some (q, true))
    else
      match defaults w d with
      | (reads, r) => ([p, q] ++ reads, r)

/-- `open_tupfile`, src/tup/parser.c:441-499: the files looked for, and the one that is found, with `parser_lua`. -/
def openTupfile (w : World) (dir : Path) : List Path × Option (Path × Bool) :=
  let p := dir ++ ["Tupfile".toList]
  let q := dir ++ ["Tupfile.lua".toList]
  if there w p then ([p], some (p, false))
  else if there w q then ([p, q], some (q, true))
  else
    match defaults w dir.reverse with
    | (reads, r) => ([p, q] ++ reads, r)

/-- `parse`, src/tup/parser.c:263-298, for a directory; `ign` is what `check_toplevel_gitignore` (1274-1368) does with the text of the file.  The result is the state and the files
that the directory then depends on. -/
def parseDir {σ : Type} (w : World) (sem : Meaning σ) (ign : Str → σ → σ) (n : Nat) (dir : Path) (s : σ) : Option (List Path × σ) :=
  match openTupfile w dir with
  | (reads, none) =>
    if dir = [] then
      if w.node ["Tuprules.tup".toList] = some true then
        match w.text ["Tuprules.tup".toList] with
        | none => some (reads ++ [["Tuprules.tup".toList]], s)
        | some t => some (reads ++ [["Tuprules.tup".toList]], ign t s)
      else some (reads, s)
    else some (reads, s)
  | (reads, some (p, lua)) =>
    match w.text p with
    | none => none
    | some t =>
      if lua then
        match includeRules w (includeFile w sem n) "Tuprules.lua".toList { cur := dir, inRules := false, reads := reads, user := s } with
        | none => none
        | some st => (exec w (includeFile w sem n) (sem true t dir st.user) st).map fun st => (st.reads, st.user)
      else (exec w (includeFile w sem n) (sem false t dir s) { cur := dir, inRules := false, reads := reads, user := s }).map fun st => (st.reads, st.user)

end Tup.Include
