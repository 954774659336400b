import Verif.Generate.Model
import Verif.Relative.Spec
import Verif.Strings.Spec

/-! What a shell does with a script like the one that is written, and what it should do. -/

namespace Tup.Generate

open Tup.Relative (Table Place Proper)
open Tup.Strings (shWord)

/-- The file system, as far as the shell itself is concerned: which places are directories (a place is the list of names that leads to it from the top of the project), a directory that is
made, and a command that is run in a directory and fails or not.  Commands do not delete directories. -/
structure World (W : Type) where
  isDir : W → List Str → Bool
  make : W → List Str → W
  exec : W → List Str → Str → Option W
  make_dir : ∀ w p q, isDir (make w p) q = (isDir w q || decide (q = p))
  keeps : ∀ w d c w', exec w d c = some w' → ∀ q, isDir w q = true → isDir w' q = true

/-- The lines of a file. -/
def lines : Str → List Str
  | [] => []
  | c :: s =>
    if c = '\n' then [] :: lines s
    else
      match lines s with
      | [] => [[c]]
      | l :: ls => (c :: l) :: ls

/-- The pieces of a path between slashes. -/
def pieces : Str → List Str
  | [] => [[]]
  | c :: s =>
    if c = '/' then [] :: pieces s
    else
      match pieces s with
      | [] => [[c]]
      | p :: ps => (c :: p) :: ps

/-- The components of a path. -/
def comps (s : Str) : List Str := (pieces s).filter fun p => !p.isEmpty

/-- Going along a path; `none` if there is no such directory, or if it leaves the project. -/
def walk (isDir : List Str → Bool) : List Str → List Str → Option (List Str)
  | p, [] => some p
  | p, e :: l =>
    if e = ['.'] then walk isDir p l
    else if e = ['.', '.'] then (if p = [] then none else walk isDir p.dropLast l)
    else if isDir (p ++ [e]) then walk isDir (p ++ [e]) l
    else none

/-- `mkdir -p` with a path that goes only down. -/
def mkdirP {W : Type} (K : World W) (w : W) : List Str → List Str → Option W
  | _, [] => some w
  | p, e :: l =>
    if e = ['.'] then mkdirP K w p l
    else if e = ['.', '.'] then none
    else if K.isDir w (p ++ [e]) then mkdirP K w (p ++ [e]) l
    else mkdirP K (K.make w (p ++ [e])) (p ++ [e]) l

/-- Where the reader of a command line is. -/
inductive Q where
  | plain (depth : Nat) (start : Bool)
  | esc (depth : Nat)
  | single (depth : Nat)
  | double (depth : Nat)
  | doubleEsc (depth : Nat)
deriving DecidableEq

/-- Whether a text can be put into parentheses and is still the same commands: quotes and parentheses are closed in the right order, and there is no comment, no `<<`, and no backslash at
the end.  (There are others for which this is so, for example with `)` in a `case`.) -/
def whole : Q → Str → Bool
  | .plain d _, [] => d = 0
  | .plain d b, c :: s =>
    if c = '\\' then whole (.esc d) s
    else if c = '\'' then whole (.single d) s
    else if c = '"' then whole (.double d) s
    else if c = '(' then whole (.plain (d + 1) true) s
    else if c = ')' then (match d with | 0 => false | d + 1 => whole (.plain d true) s)
    else if c = '#' && b then false
    else if c = '<' && s.head? = some '<' then false
    else whole (.plain d (c = ' ' || c = '\t' || c = ';' || c = '&' || c = '|')) s
  | .esc _, [] => false
  | .esc d, _ :: s => whole (.plain d false) s
  | .single _, [] => false
  | .single d, c :: s => if c = '\'' then whole (.plain d false) s else whole (.single d) s
  | .double _, [] => false
  | .double d, c :: s => if c = '\\' then whole (.doubleEsc d) s else if c = '"' then whole (.plain d false) s else whole (.double d) s
  | .doubleEsc _, [] => false
  | .doubleEsc d, _ :: s => whole (.double d) s

/-- A command that can be put into parentheses on a line of its own. -/
def Whole (c : Str) : Bool := whole (.plain 0 true) c && !c.contains '\n' && c.any fun x => decide (x ≠ ' ' ∧ x ≠ '\t')

/-- The lines that occur. -/
inductive Line where
  | nothing
  | mkdir (path : Str)
  | cd (path : Str)
  | sub (command : Str)

/-- What is behind a prefix. -/
def behind : Str → Str → Option Str
  | [], s => some s
  | a :: p, b :: s => if a = b then behind p s else none
  | _ :: _, [] => none

/-- The operand of `mkdir -p` or `cd`: one word, which does not look like an option. -/
def operand (s : Str) : Option Str :=
  match shWord .plain s with
  | some ('-' :: _) => none
  | some [] => none
  | r => r

/-- How the shell reads a line; `none` is anything else.  A comment and the setting of a variable do nothing here. -/
def readLine (s : Str) : Option Line :=
  match s with
  | '#' :: _ => some .nothing
  | '(' :: c => if c.getLast? = some ')' && Whole c.dropLast then some (.sub c.dropLast) else none
  | _ =>
    match behind "export tup_vardict=".toList s with
    | some _ => some .nothing
    | none =>
      match behind "mkdir -p ".toList s with
      | some r => (operand r).map .mkdir
      | none =>
        match behind "cd ".toList s with
        | some r => (operand r).map .cd
        | none => none

/-- A shell that runs a script with `-e`: it stops at the first command that fails.  What is in parentheses is run in another shell, in the same directory. -/
def shell {W : Type} (K : World W) (w : W) (cwd : List Str) : List Str → Option W
  | [] => some w
  | l :: ls =>
    match readLine l with
    | none => none
    | some .nothing => shell K w cwd ls
    | some (.mkdir p) => if p.head? = some '/' then none else (mkdirP K w cwd (comps p)).bind fun w => shell K w cwd ls
    | some (.cd p) => if p.head? = some '/' then none else (walk (K.isDir w) cwd (comps p)).bind fun cwd => shell K w cwd ls
    | some (.sub c) => (K.exec w cwd c).bind fun w => shell K w cwd ls

/-- Commands, each run in its directory, until one fails. -/
def runAll {W : Type} (K : World W) (w : W) : List (List Str × Str) → Option W
  | [] => some w
  | (d, c) :: l => (K.exec w d c).bind fun w => runAll K w l

/-- `Needs E n g`: the file `n` is in the directory `g` or in one below it, and all of these are made by tup. -/
inductive Needs (E : Env) : Nat → Nat → Prop
  | here {n d m} : E.tab n = some ⟨m, some d⟩ → E.genDir d = true → Needs E n d
  | up {n d p m} : Needs E n d → E.tab d = some ⟨m, some p⟩ → E.genDir p = true → Needs E n p

/-- The commands among nodes: each with the place of its directory, and its text. -/
inductive Commands (E : Env) : List Nat → List (List Str × Str) → Prop
  | nil : Commands E [] []
  | other {n l cs} : E.dirOf n = none → Commands E l cs → Commands E (n :: l) cs
  | command {n l cs d q c} : E.dirOf n = some d → Place E.tab (E.src d) q → E.text n = some c → Commands E l cs → Commands E (n :: l) ((q, c) :: cs)

/-- A name without the characters that mean something in double quotes, and not like an option. -/
def PlainName (n : Str) : Prop := (∀ c ∈ n, c ≠ '"' ∧ c ≠ '$' ∧ c ≠ '`' ∧ c ≠ '\\' ∧ c ≠ '\n') ∧ n.head? ≠ some '-'

/-- A name that means itself without quotes. -/
def BareName (n : Str) : Prop := ∀ c ∈ n, c.isAlphanum = true ∨ c ∈ ['_', '.', '-', '+', ',', ':', '@', '%']

/-- What is needed of the entries: one top directory, which tup did not make; the fuel is enough for every path; and the directories that tup makes are not in the build directory. -/
structure Sound (E : Env) : Prop where
  proper : Proper E.tab
  top : ∃ t, E.tab E.top = some ⟨t, none⟩
  deep : ∀ id p, Place E.tab id p → p.length < E.fuel
  genTop : E.genDir E.top = false
  genBuild : ∀ d, E.genDir d = true → E.inBuild d = false

/-- What is needed of the project and of the file system at the beginning: the names and the commands can be written into a script as they are; the directories of the commands are there,
and so are those in which tup makes directories. -/
structure Tame {W : Type} (K : World W) (E : Env) (w0 : W) (args : List Str) (build nodes : List Nat) : Prop where
  args : ∀ a ∈ args, '\n' ∉ a
  build : ∀ v ∈ build, ∃ p, Place E.tab v p ∧ ∀ n ∈ p, BareName n ∧ n.head? ≠ some '-'
  files : ∀ n ∈ nodes, E.genFile n = true → ∃ m d p, E.tab n = some ⟨m, some d⟩ ∧ Place E.tab d p ∧ ∀ g q, Needs E n g → Place E.tab g q → ∀ e ∈ q, PlainName e
  above : ∀ g m p a, E.genDir g = true → E.tab g = some ⟨m, some p⟩ → E.genDir p = false → Place E.tab p a → ∀ x y, a = x ++ y → K.isDir w0 x = true
  dirs : ∀ n d, E.dirOf n = some d → ∃ q, Place E.tab (E.src d) q ∧ (∀ a b, q = a ++ b → K.isDir w0 a = true) ∧ ∀ e ∈ q, PlainName e
  commands : ∀ n d c, E.dirOf n = some d → E.text n = some c → Whole c = true

end Tup.Generate
