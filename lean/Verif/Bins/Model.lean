import Verif.Execute.Model
import Verif.PathList.Model

/-!
Model of bins: the lists of files that a rule of a Tupfile fills with its outputs and that a later rule takes as
inputs (src/tup/bin.c, src/tup/parser.c:1487-1554, 2026-2096, 2276-2288, 2289-2335, 2427-2475, 2538-2553, 2637-2660,
2842-2877, 3475-3545).

It joins the models of a rule line (`Tup.Rules`), of a list of paths (`Tup.PathList`), of name lists (`Tup.Names`)
and of the execution of a rule (`Tup.Execute`) to what is done with a line of a Tupfile.  What looks at variables,
at the database or at other Tupfiles is a parameter (`Base`).  Memory allocation does not fail.
-/

namespace Tup.Bins

open Tup.Names Tup.Execute

/-- `struct bin_entry`, src/tup/bin.h:28-33. -/
structure BinEntry where
  path : Str
  tent : Option Nat
deriving DecidableEq, Repr

/-- `struct bin`, src/tup/bin.h:36-40. -/
structure Bin where
  name : Str
  entries : List BinEntry
deriving DecidableEq, Repr

/-- `bin_find`, src/tup/bin.c:73-83: the first bin of that name. -/
def find (name : Str) : List Bin → Option Bin
  | [] => none
  | b :: l => if b.name = name then some b else find name l

/-- `bin_add`, src/tup/bin.c:41-71: a bin that is there already is used, a new one comes to the front. -/
def add (name : Str) (l : List Bin) : List Bin :=
  match find name l with
  | some _ => l
  | none => ⟨name, []⟩ :: l

/-- `bin_add_entry`, src/tup/bin.c:85-107.  The C code has a pointer to the bin that `bin_add` gave for the name;
bins stay in the list until the Tupfile is finished, so this is the bin that `bin_find` finds. -/
def addEntry (name : Str) (e : BinEntry) : List Bin → List Bin
  | [] => []
  | b :: l => if b.name = name then { b with entries := b.entries ++ [e] } :: l else b :: addEntry name e l

/-- The loops over name lists in `do_rule`, src/tup/parser.c:3506-3509 and 3537-3540; `none` is `r->bin == NULL`. -/
def addNames (bin : Option Str) (l : List Entry) (bl : List Bin) : List Bin :=
  match bin with
  | none => bl
  | some b => l.foldl (fun bl e => addEntry b ⟨e.path, e.tent⟩ bl) bl

/-- `struct path_list`, `Tup.PathList.Pl`. -/
abbrev Pl := PathList.Pl

/-- What is not modelled here. -/
structure Base (σ : Type) where
  /-- whether PCRE2 compiles a regular expression -/
  reOk : Str → Bool
  /-- whether a regular expression matches a path -/
  reMatch : Str → Str → Bool
  /-- `tup_printf` if there is a list of inputs, then `eval`, src/tup/parser.c:2439-2450; what `eval` adds to
  the dependencies of the Tupfile is left out -/
  expand : σ → Option NameList → Str → Option Str
  /-- `parse_dependent_tupfiles`, src/tup/parser.c:2576-2635.  Another Tupfile that is parsed by it has a list of
  bins of its own (parser.c:229). -/
  depend : σ → List Pl → Option σ
  /-- `nl_add_path` and `nl_add_external_path`, src/tup/parser.c:2676-2840 -/
  lookup : σ → Pl → Option (σ × List Entry)
  /-- `split_command_string` and `do_rule_outputs`, src/tup/parser.c:3415-3473 and 3207-3413: the command, the outputs as they are written, and the outputs
  that `%o` may stand for -/
  outputs : σ → Job → List Str → List Entry → Option (σ × List Entry)
  /-- the rest of `do_rule`, src/tup/parser.c:3550-3726, with the outputs and the extra outputs -/
  finish : σ → Job → List Entry → List Entry → Option σ

/-- What the parser has done for a call of `do_rule`; only recorded, the program does not keep it.  `outputs` are the
outputs that are not extra outputs. -/
structure Made where
  bin : Option Str
  job : Job
  outputs : List Entry

/-- The state while a Tupfile is parsed: `tf->bin_list`, what `Base` works on, and the record. -/
structure State (σ : Type) where
  bins : List Bin
  base : σ
  made : List Made

variable {σ : Type}

/-- `strcspn(p, " \t")` in a loop, src/tup/parser.c:2454-2470: the pieces that are not empty. -/
def pieces : Str → Str → List Str
  | [], [] => []
  | cur, [] => [cur]
  | cur, c :: t =>
    if c = ' ' ∨ c = '\t' then
      if cur = [] then pieces [] t else cur :: pieces [] t
    else pieces (cur ++ [c]) t

/-- `new_pl` for each piece, without bins, src/tup/parser.c:2461. -/
def newPls (reOk : Str → Bool) (orderid : Nat) : List Str → Option (List Pl)
  | [] => some []
  | p :: l =>
    match PathList.newPl none reOk p with
    | none => none
    | some k =>
      match newPls reOk orderid l with
      | none => none
      | some r => some (⟨p, k, orderid⟩ :: r)

/-- `eval_path_list`, src/tup/parser.c:2427-2475. -/
def evalPaths (B : Base σ) (s : σ) (nl : Option NameList) : List Pl → Option (List Pl)
  | [] => some []
  | pl :: l =>
    match B.expand s nl pl.mem with
    | none => none
    | some t =>
      match if t ≠ pl.mem then newPls B.reOk pl.orderid (pieces [] t) else some [pl] with
      | none => none
      | some new =>
        match evalPaths B s nl l with
        | none => none
        | some r => some (new ++ r)

/-- `nl_add_bin`, src/tup/parser.c:2842-2877. -/
def addBin (b : Bin) (orderid : Nat) (nl : NameList) : NameList :=
  b.entries.foldl (fun nl e => nl.add (pathEntry e.path orderid e.tent)) nl

/-- `get_name_list`, src/tup/parser.c:2637-2660.  A path list with a bin holds a pointer to it; here it is found by
its name. -/
def getNames (B : Base σ) (bins : List Bin) : List Pl → σ → NameList → Option (σ × NameList)
  | [], s, nl => some (s, nl)
  | pl :: l, s, nl =>
    match pl.kind with
    | .bin n =>
      match find n bins with
      | none => none
      | some b => getNames B bins l s (addBin b pl.orderid nl)
    | .excl re => getNames B bins l s (exclude (B.reMatch re) nl)
    | _ =>
      match B.lookup s pl with
      | none => none
      | some (s, es) => getNames B bins l s (es.foldl NameList.add nl)

/-- `path_list_to_nl`, src/tup/parser.c:2276-2288, into an empty list. -/
def toNames (B : Base σ) (bins : List Bin) (s : σ) (pls : List Pl) (nl : Option NameList) :
    Option (σ × NameList) :=
  match evalPaths B s nl pls with
  | none => none
  | some pls =>
    match B.depend s pls with
    | none => none
    | some s => getNames B bins pls s .empty

/-- Whether there is a bin of that name, for `new_pl`. -/
def known (bins : List Bin) : Option (Str → Bool) := some fun n => (find n bins).isSome

/-- `copy_path_list`, src/tup/parser.c:2538-2553: texts are made to path lists again, with the positions they had
(from `orderid` on). -/
def copyPaths (reOk : Str → Bool) (bins : List Bin) (orderid : Nat) : List Str → Option (List Pl)
  | [] => some []
  | p :: l =>
    match PathList.newPl (known bins) reOk p with
    | none => none
    | some k =>
      match copyPaths reOk bins (orderid + 1) l with
      | none => none
      | some r => some (⟨p, k, orderid⟩ :: r)

/-- `do_rule` as far as bins are concerned, src/tup/parser.c:3475-3545. -/
def doRule (B : Base σ) (bin : Option Str) (s : State σ) (j : Job) : Option (State σ) :=
  if j.command = [] then
    some ⟨addNames bin j.inputs.entries s.bins, s.base, s.made ++ [⟨bin, j, []⟩]⟩
  else
    match B.outputs s.base j j.outputs [] with
    | none => none
    | some (s1, onl) =>
      let bins := addNames bin onl s.bins
      match B.outputs s1 j j.extraOutputs onl with
      | none => none
      | some (s2, extra) =>
        match B.outputs s2 j j.bangExtra onl with
        | none => none
        | some (s3, bang) =>
          match B.finish s3 j onl (extra ++ bang) with
          | none => none
          | some s4 => some ⟨bins, s4, s.made ++ [⟨bin, j, onl⟩]⟩

/-- The texts of a list of paths. -/
def texts (l : List Pl) : List Str := l.map (·.mem)

/-- What the execution of a rule with this bin works in.  The order-only inputs of a macro may not contain bins
(parser.c:1842); that a path in them may be too long for its buffer is counted as an error (`Tup.PathList` has it as
undefined behaviour).  For a rule without `foreach` the C code does not copy the list of order-only paths; a copy
finds the same bins. -/
def world (B : Base σ) (bin : Option Str) : World (State σ) where
  paths := fun i =>
    match PathList.getPathList none B.reOk i with
    | .ok l => some (texts l)
    | _ => none
  resolve := fun s ps nl =>
    match copyPaths B.reOk s.bins 1 ps with
    | none => none
    | some pls =>
      match toNames B s.bins s.base pls nl with
      | none => none
      | some (b, l) => some ({ s with base := b }, l.entries)
  run := doRule B bin

/-- `get_path_list` for a part of a rule that may be missing, src/tup/parser.c:2034-2066 and 2074-2096. -/
def optPaths (bins : Option (Str → Bool)) (reOk : Str → Bool) : Option Str → PathList.Res (List Pl)
  | none => .ok []
  | some i => PathList.getPathList bins reOk i

/-- `parse_rule`, src/tup/parser.c:1487-1554; `p` is the line behind the colon, `T` the macros.  A failure of
`execute_rule` is a failure of the whole. -/
def parseRule (B : Base σ) (T : Table) (s : State σ) (p : Str) : PathList.Res (State σ) :=
  match Rules.parseRule p with
  | .error _ => .err
  | .ok t =>
    let bins := match t.bin with
      | none => s.bins
      | some b => add b s.bins
    match optPaths (known bins) B.reOk t.orderOnly with
    | .err => .err
    | .ub => .ub
    | .ok oo =>
      match optPaths (known bins) B.reOk t.inputs with
      | .err => .err
      | .ub => .ub
      | .ok ins =>
        match toNames B bins s.base ins none with
        | none => .err
        | some (base, inputs) =>
          match optPaths none B.reOk t.extraOutputs with
          | .err => .err
          | .ub => .ub
          | .ok extra =>
            match optPaths none B.reOk (some t.outputs) with
            | .err => .err
            | .ub => .ub
            | .ok outs =>
              let r : Rule :=
                { foreach_ := t.foreach_, emptyInput := t.emptyInput, inputs := inputs, ooPaths := texts oo,
                  oo := .empty, bangOo := .empty, command := t.command, extraCommand := t.extraCommand,
                  outputs := texts outs, extraOutputs := texts extra, bangExtra := [] }
              match execute (world B t.bin) T ⟨bins, base, s.made⟩ r with
              | none => .err
              | some (s, _) => .ok s

/-- A line of a Tupfile: a rule, or anything else, which leaves the bins alone. -/
inductive Line (σ : Type) where
  | rule (p : Str)
  | other (base : σ) (T : Table)

/-- The lines of a Tupfile one after the other, `parse_tupfile`, src/tup/parser.c:505-704; the bins begin empty
(parser.c:229). -/
def parse (B : Base σ) : List (Line σ) → Table → State σ → PathList.Res (State σ)
  | [], _, s => .ok s
  | .rule p :: l, T, s =>
    match parseRule B T s p with
    | .ok s => parse B l T s
    | e => e
  | .other base T :: l, _, s => parse B l T { s with base := base }

/-- parser.c:229. -/
def init (base : σ) : State σ := ⟨[], base, []⟩

end Tup.Bins
