import Verif.Text

/-!
Model of the lists of input and output names of a rule: how an entry is made from a path, which part of it a
wildcard stands for, the list with its running totals, and the removal of duplicates and exclusions
(src/tup/parser.h:78-115, src/tup/parser.c:2098-2122, 2807-3115, 3738-3830).
-/

namespace Tup.Names

/-- `struct name_list_entry`, parser.h:82-99.  `base`, `baselen` and `extlessbaselen` are computed below; `globs`
has `globcnt` pairs of a start, relative to the base, and a length (`none`: the length has not been written, so the
field holds what `malloc` left there). -/
structure Entry where
  path : Str
  extlesslen : Int
  globs : List (Nat × Option Nat) := []
  orderid : Nat
  tent : Option Nat
deriving DecidableEq, Repr

/-- `nle->len`. -/
def Entry.len (e : Entry) : Int := e.path.length

/-- `nle->base` with `nle->baselen`, `set_nle_base`, parser.c:3739-3752: what is behind the last slash. -/
def Entry.base (e : Entry) : Str := (e.path.reverse.takeWhile (· ≠ '/')).reverse

def Entry.baselen (e : Entry) : Int := e.base.length

/-- parser.c:3753-3756. -/
def Entry.extlessbaselen (e : Entry) : Int := e.baselen - (e.len - e.extlesslen)

/-- `while(i > 0 && s[i] != '.') i--;` -/
def scanFrom (s : Str) : Nat → Nat
  | 0 => 0
  | i + 1 => if s[i + 1]? = some '.' then i + 1 else scanFrom s i

/-- The search for the extension in a whole path, parser.c:2825-2827, 2847-2849 and 3373-3375. -/
def extScan (path : Str) : Int :=
  match path.length with
  | 0 => -1
  | n + 1 => scanFrom path n

/-- An entry for an output, parser.c:3371-3375. -/
def outputEntry (path : Str) (orderid : Nat) (tent : Option Nat) : Entry :=
  { path, extlesslen := extScan path, orderid, tent }

/-- An entry for a path outside of the project or from a bin, `nl_add_external_path` and `nl_add_bin`,
parser.c:2807-2877. -/
def pathEntry (path : Str) (orderid : Nat) (tent : Option Nat) : Entry :=
  { path, extlesslen := if extScan path = 0 then path.length else extScan path, orderid, tent }

inductive Res (α : Type) where
  | ok (a : α)
  | error
  /-- memory outside of an object or memory that has not been written is used -/
  | ub
deriving DecidableEq, Repr

/-- The loop that skips what pattern and name have in common, parser.c:2991-2995. -/
def common : Str → Str → Nat × Str × Str
  | c :: p, d :: m => if c = d then let r := common p m; (r.1 + 1, r.2) else (0, c :: p, d :: m)
  | p, m => (0, p, m)

/-- `MAX_GLOBS`, parser.h:80. -/
def maxGlobs : Nat := 10

/-- The search from the right, parser.c:3079-3087: `strncmp(lit, match + i, |lit|) == 0` with `i` going down from
`start + k` to `start`; `m` is the name from `start` on.  The result is `i - start`. -/
def rightmost (lit m : Str) : Nat → Option Nat
  | 0 => if lit.isPrefixOf m then some 0 else none
  | k + 1 => if lit.isPrefixOf (m.drop (k + 1)) then some (k + 1) else rightmost lit m k

/-- `glob_parse`, parser.c:2979-3115: the pairs written for a name that matches a pattern.  The `while` loop ends
in its first round in all cases, so the position in the pattern behind a bracket (parser.c:3012-3018) plays no role.
A star that ends the pattern leaves the loop without being counted (parser.c:3066-3070). -/
def globParse (pat name : Str) : Res (List (Nat × Option Nat)) :=
  if pat = [] then .ok []
  else
    let (start, p, m) := common pat name
    if p = [] ∧ m = [] then .ok []
    else if p.head? = some '[' ∨ p.head? = some '?' then .ok [(start, some 1)]
    else
      let stars := (p.drop 1).takeWhile (· = '*')
      let q := (p.drop 1).dropWhile (· = '*')
      let before := stars.map fun _ => ((start, none) : Nat × Option Nat)
      if maxGlobs < stars.length + 1 then .ub
      else if (q.drop 1).any (fun c => c = '?' ∨ c = '[') then .ok (before ++ [(start, some 0)])
      else
        let lit := q.takeWhile fun c => c ≠ '*' ∧ c ≠ '?' ∧ c ≠ '['
        if lit = [] then .ok before
        else
          .ok (before ++ [(start, if lit.length ≤ m.length then rightmost lit m (m.length - lit.length) else none)])

/-- An entry for a node found in the database, `build_name_list_cb`, parser.c:2899-2957; `rel` is the path from the
Tupfile's directory, `name` the name of the node. -/
def fileEntry (pat rel name : Str) (orderid : Nat) (tent : Nat) : Res Entry :=
  let j := scanFrom name name.length
  let extlesslen : Int := if j = 0 then rel.length else rel.length - (name.length - j)
  match globParse pat name with
  | .ok globs => .ok { path := rel, extlesslen, globs, orderid, tent := some tent }
  | .error => .error
  | .ub => .ub

/-- The totals of `struct name_list`, parser.h:102-115.  Integers do not overflow. -/
structure Totals where
  num : Int
  totlen : Int
  basetotlen : Int
  extlessbasetotlen : Int
  globtotlen : Nat → Int
  globcnt : Nat

/-- `init_name_list`, parser.c:3728-3737. -/
def Totals.init : Totals := ⟨0, 0, 0, 0, fun _ => 0, 0⟩

/-- What entry `e` contributes to `globtotlen[i]`. -/
def Entry.globlen (e : Entry) (i : Nat) : Int :=
  match e.globs[i]? with
  | some (_, some n) => n
  | _ => 0

/-- `add_name_list_entry`, parser.c:3760-3775.  A length that has not been written counts as zero. -/
def Totals.add (t : Totals) (e : Entry) : Totals :=
  ⟨t.num + 1, t.totlen + e.len, t.basetotlen + e.baselen, t.extlessbasetotlen + e.extlessbaselen,
    fun i => t.globtotlen i + e.globlen i, e.globs.length⟩

/-- `delete_name_list_entry`, parser.c:3786-3803. -/
def Totals.sub (t : Totals) (e : Entry) : Totals :=
  ⟨t.num - 1, t.totlen - e.len, t.basetotlen - e.baselen, t.extlessbasetotlen - e.extlessbaselen,
    fun i => t.globtotlen i - e.globlen i, t.globcnt⟩

/-- `struct name_list`. -/
structure NameList where
  entries : List Entry
  tot : Totals

def NameList.empty : NameList := ⟨[], .init⟩

def NameList.add (nl : NameList) (e : Entry) : NameList := ⟨nl.entries ++ [e], nl.tot.add e⟩

/-- Deleting the entry at a position, parser.c:3786-3803; nothing if there is none. -/
def NameList.delete (nl : NameList) (i : Nat) : NameList :=
  match nl.entries[i]? with
  | none => nl
  | some e => ⟨nl.entries.eraseIdx i, nl.tot.sub e⟩

/-- `move_name_list_entry`, parser.c:3805-3834. -/
def NameList.move (new old : NameList) (i : Nat) : NameList × NameList :=
  match old.entries[i]? with
  | none => (new, old)
  | some e => (new.add e, old.delete i)

/-- A loop over the entries that deletes some of them; `drop` says which, knowing what was seen before. -/
def deleteLoop {σ : Type} (drop : σ → Entry → Bool × σ) : σ → Totals → List Entry → NameList
  | _, t, [] => ⟨[], t⟩
  | s, t, e :: l =>
    match drop s e with
    | (true, s) => deleteLoop drop s (t.sub e) l
    | (false, s) =>
      let r := deleteLoop drop s t l
      ⟨e :: r.entries, r.tot⟩

/-- `make_name_list_unique`, parser.c:2098-2122; `seen` is the tree of nodes (a set by `Tup.Tree.c47_id_sets`). -/
def unique (nl : NameList) : NameList :=
  deleteLoop (σ := List Nat)
    (fun seen e =>
      match e.tent with
      | none => (false, seen)
      | some t => if t ∈ seen then (true, seen) else (false, t :: seen)) [] nl.tot nl.entries

/-- `nl_rm_exclusion`, parser.c:2879-2897, for a regular expression that matches the paths in `re`. -/
def exclude (re : Str → Bool) (nl : NameList) : NameList :=
  deleteLoop (σ := Unit) (fun _ e => (re e.path, ())) () nl.tot nl.entries

/-- `delete_name_list`, parser.c:3777-3784. -/
def NameList.clear (nl : NameList) : NameList :=
  deleteLoop (σ := Unit) (fun _ _ => (true, ())) () nl.tot nl.entries

inductive Op where
  | add (e : Entry)
  | delete (i : Nat)
  | unique
  | exclude (re : Str → Bool)
  | clear

def step (nl : NameList) : Op → NameList
  | .add e => nl.add e
  | .delete i => nl.delete i
  | .unique => Names.unique nl
  | .exclude re => Names.exclude re nl
  | .clear => nl.clear

end Tup.Names
