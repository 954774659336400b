import Verif.Basic

/-!
Model of src/tup/if_stmt.c and of the line dispatch of `parse_tupfile` in src/tup/parser.c.
-/

namespace Tup.IfStmt

/-- `struct if_stmt` (src/tup/if_stmt.h: two `unsigned char` fields `ifness` and `level`). -/
structure St where
  ifness : BitVec 8
  level : BitVec 8
deriving DecidableEq, Repr

/-- `if_init`, src/tup/if_stmt.c:26-30. -/
def init : St := ⟨0, 0⟩

/-- `if_add`, src/tup/if_stmt.c:32-45.  `none` is the return value -1.
`level <<= 1` happens in `int` and is truncated to 8 bits on assignment, as `BitVec` shifting does. -/
def add (s : St) (isTrue : Bool) : Option St :=
  if s.level ≥ 0x80#8 then none
  else
    let lvl := if s.level = 0#8 then 1#8 else s.level <<< 1
    some { level := lvl, ifness := if !isTrue then s.ifness ||| lvl else s.ifness }

/-- `if_else`, src/tup/if_stmt.c:47-55.  `none` is the return value -2. -/
def els (s : St) : Option St :=
  if s.level = 0#8 then none
  else some { s with ifness := s.ifness ^^^ s.level }

/-- `if_endif`, src/tup/if_stmt.c:57-66.  `none` is the return value -2. -/
def endif (s : St) : Option St :=
  if s.level = 0#8 then none
  else some { ifness := s.ifness &&& ~~~ s.level, level := s.level >>> 1 }

/-- `if_true`, src/tup/if_stmt.c:68-73. -/
def isTrue (s : St) : Bool := s.ifness = 0#8

/-- `if_check`, src/tup/if_stmt.c:75-80; `true` is the return value 0. -/
def check (s : St) : Bool := s.level = 0#8

/-- The four conditional directives; `neg` is true for `ifneq`/`ifndef`, `eq` for `ifeq`/`ifneq`
(src/tup/parser.c:625-648). -/
structure Cond where
  eq : Bool
  neg : Bool
  arg : Str
deriving DecidableEq, Repr

/-- How `parse_tupfile` sees a logical line. -/
inductive Kind where
  | els
  | endif
  | cond (c : Cond)
  | other
deriving DecidableEq, Repr

/-- The `strcmp`/`strncmp` chain of src/tup/parser.c:621-648.  Everything else is `other`. -/
def classify (l : Str) : Kind :=
  if l = "else".toList then .els
  else if l = "endif".toList then .endif
  else if "ifeq ".toList.isPrefixOf l then .cond ⟨true, false, l.drop 5⟩
  else if "ifneq ".toList.isPrefixOf l then .cond ⟨true, true, l.drop 6⟩
  else if "ifdef ".toList.isPrefixOf l then .cond ⟨false, false, l.drop 6⟩
  else if "ifndef ".toList.isPrefixOf l then .cond ⟨false, true, l.drop 7⟩
  else .other

/-- The directive handlers called from the loop, abstracted: `cond` is `eval_eq`/`var_ifdef`
(src/tup/parser.c:705-770), `exec` is whatever src/tup/parser.c:651-682 calls for the line.  Both may
change the parser state `σ` and return a C status (negative: error). -/
structure Handlers (σ : Type) where
  cond : σ → Bool → Str → σ × Int
  exec : σ → Str → σ × Int

variable {σ : Type}

/-- One iteration of the loop of `parse_tupfile`, src/tup/parser.c:620-695, on a logical line.
`none` is "return -1". Comment lines never get here (line 612-615). -/
def stepLine (h : Handlers σ) (s : St) (t : σ) (l : Str) : Option (St × σ) :=
  match classify l with
  | .els => (els s).map (·, t)
  | .endif => (endif s).map (·, t)
  | .cond c =>
    if isTrue s then
      let r := h.cond t c.eq c.arg
      if r.2 ≥ 0 then
        (add s (if c.neg then r.2 = 0 else r.2 ≠ 0)).map (·, r.1)
      else none
    else
      -- rc stays 0 (line 620): if_add(&ifs, 0) or if_add(&ifs, !0)
      (add s c.neg).map (·, t)
  | .other =>
    if !isTrue s then some (s, t)
    else
      let r := h.exec t l
      if r.2 < 0 then none else some (s, r.1)

/-- The whole loop over the remaining logical lines, src/tup/parser.c:568-696. -/
def runLines (h : Handlers σ) : List Str → St → σ → Option (St × σ)
  | [], s, t => some (s, t)
  | l :: ls, s, t =>
    match stepLine h s t l with
    | none => none
    | some (s', t') => runLines h ls s' t'

/-- `parse_tupfile` on the logical lines, including the final `if_check`
(src/tup/parser.c:563, 697-702). `none` is "return -1". -/
def parseLines (h : Handlers σ) (ls : List Str) (t : σ) : Option σ :=
  match runLines h ls init t with
  | some (s, t') => if check s then some t' else none
  | none => none

/-- The three directive effects on `struct if_stmt`. -/
inductive Dir where
  | add (b : Bool)
  | els
  | endif
deriving DecidableEq, Repr

/-- A directive applied to `struct if_stmt` (dispatch to the functions above). -/
def step (s : St) : Dir → Option St
  | .add b => add s b
  | .els => els s
  | .endif => endif s

/-- A sequence of directives; stops at the first error as src/tup/parser.c:692-695 does. -/
def run : St → List Dir → Option St
  | s, [] => some s
  | s, d :: ds => (step s d).bind (run · ds)

end Tup.IfStmt
