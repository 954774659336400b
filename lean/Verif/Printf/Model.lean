import Verif.Names.Model
import Verif.Eval.Model
import Verif.Strings.Model

/-!
Model of the expansion of %-flags in commands and outputs, `tup_printf` (src/tup/parser.c:3836-4162).

A text that does not reach to the end of its C string (the display text of a command, parser.c:3564) is followed
by a caret, which no flag contains, so that looking at the byte behind it has the effect of looking at the NUL byte.
-/

namespace Tup.Printf

open Tup.Names Tup.Eval

/-- A `struct name_list` as far as it is used here: `num_entries` is the length of the list
(`Tup.Names.c10_totals`). -/
structure List' where
  entries : List Entry
  globcnt : Nat

/-- The arguments of `tup_printf`. -/
structure Args where
  nl : List'
  /-- the outputs; `none`: `NULL` -/
  onl : Option List'
  /-- the order-only inputs -/
  oo : Option List'
  ext : Option Str
  /-- the name of the directory, parser.c:3997-4025 -/
  dir : Str
  /-- `EXPAND_PERCPERC` -/
  perc : Bool

abbrev R := Names.Res

/-- Names with spaces between them; one that cannot be had makes the whole undefined. -/
def join (f : Entry → Option Str) : List Entry → R Str
  | [] => .ok []
  | [e] =>
    match f e with
    | none => .ub
    | some s => .ok s
  | e :: l =>
    match f e, join f l with
    | some s, .ok t => .ok (s ++ ' ' :: t)
    | _, _ => .ub

/-- `estring_append(&e, nle->base, nle->extlessbaselen)`; undefined for a negative length. -/
def stem (e : Entry) : Option Str :=
  if 0 ≤ e.extlessbaselen then some (e.base.take e.extlessbaselen.toNat) else none

/-- `estring_append(&e, next, 1); estring_append_escape(...); estring_append(&e, next, 1);` -/
def quote (q : Char) (e : Entry) : Option Str :=
  some (q :: (Strings.escapePieces q (e.path.length + 1) e.path).flatten ++ [q])

/-- The entries that a numbered flag uses, parser.c:4102-4124: the loop ends behind the number. -/
def numbered (n : Nat) : List Entry → List Entry
  | [] => []
  | e :: l =>
    if e.orderid = n then e :: numbered n l
    else if e.orderid > n then []
    else numbered n l

/-- A numbered flag, parser.c:4051-4126: `n` is the value of the digits `ds`, `c` what is behind them.  `int num`
gets the low 32 bits. -/
def numberedFlag (a : Args) (ds : Str) (c : Char) : R Str :=
  let n := number ds
  let num := n % 2 ^ 32
  if n ≥ 2 ^ 63 then .error
  else if ¬ (1 ≤ num ∧ num ≤ 98) ∧ c ≠ 't' then .error
  else if c = 'f' then join (fun e => some e.path) (numbered num a.nl.entries)
  else if c = 'b' then join (fun e => some e.base) (numbered num a.nl.entries)
  else if c = 'B' then join stem (numbered num a.nl.entries)
  else if c = 'o' then
    match a.onl with
    | none => .ok []
    | some l => join (fun e => some e.path) (numbered num l.entries)
  else if c = 'i' then
    match a.oo with
    | none => .error
    | some l => join (fun e => some e.path) (numbered num l.entries)
  else if c = 't' then .ok ('%' :: ds ++ ['t'])
  else .error

/-- Flags of one character, parser.c:3878-3976, 3997-4050 and 4127-4146; `none`: not such a flag. -/
def oneFlag (a : Args) (c : Char) : Option (R Str) :=
  if c = 'f' then
    some (if a.nl.entries = [] then .error else join (fun e => some e.path) a.nl.entries)
  else if c = 'b' then
    some (if a.nl.entries = [] then .error else join (fun e => some e.base) a.nl.entries)
  else if c = 'B' then
    some (if a.nl.entries = [] then .error else join stem a.nl.entries)
  else if c = 'i' then
    some (match a.oo with
      | none => .error
      | some l => if l.entries = [] then .error else join (fun e => some e.path) l.entries)
  else if c = 'e' then
    some (match a.ext with
      | none => .error
      | some x => .ok x)
  else if c = 'o' then
    some (match a.onl with
      | none => .error
      | some l => if l.entries = [] then .error else join (fun e => some e.path) l.entries)
  else if c = 'O' then
    some (match a.onl with
      | some ⟨[e], _⟩ => if 0 ≤ e.extlesslen then .ok (e.path.take e.extlesslen.toNat) else .ub
      | _ => .error)
  else if c = 'd' then some (.ok a.dir)
  else if c = 'g' then
    some (match a.nl with
      | ⟨[e], globcnt⟩ =>
        if globcnt = 0 then .error
        else
          match e.globs with
          | (start, some n) :: _ =>
            if start + n ≤ e.base.length then .ok ((e.base.drop start).take n) else .ub
          | _ => .ub
      | _ => .error)
  else if c = '<' then some (.ok "%<".toList)
  else if c = '%' then some (.ok (if a.perc then "%".toList else "%%".toList))
  else none

/-- The flag at the beginning of a text (behind the percent sign): what it is replaced with, and what is behind
it. -/
def flag (a : Args) (s : Str) : R (Str × Str) :=
  match s with
  | [] => .error
  | c :: p =>
    match oneFlag a c with
    | some (.ok v) => .ok (v, p)
    | some .error => .error
    | some .ub => .ub
    | none =>
      if c = '\'' ∨ c = '"' then
        match p with
        | [] => .error
        | d :: p =>
          if d = 'f' then
            if a.nl.entries = [] then .error
            else
              match join (quote c) a.nl.entries with
              | .ok v => .ok (v, p)
              | .error => .error
              | .ub => .ub
          else if d = 'o' then
            match a.onl with
            | none => .error
            | some l =>
              if l.entries = [] then .error
              else
                match join (quote c) l.entries with
                | .ok v => .ok (v, p)
                | .error => .error
                | .ub => .ub
          else .error
      else if isDigit c then
        match (c :: p).dropWhile isDigit with
        | [] => .error
        | k :: t =>
          match numberedFlag a ((c :: p).takeWhile isDigit) k with
          | .ok v => .ok (v, t)
          | .error => .error
          | .ub => .ub
      else .error

theorem dropWhile_length (p : Char → Bool) (s : Str) : (s.dropWhile p).length ≤ s.length :=
  (List.dropWhile_suffix p).length_le

theorem flag_length {a : Args} {s v t : Str} (h : flag a s = .ok (v, t)) : t.length < s.length := by
  unfold flag at h
  split at h
  · cases h
  · next c p =>
    split at h
    · simp only [Res.ok.injEq, Prod.mk.injEq] at h
      rw [← h.2]; simp
    · cases h
    · cases h
    · split at h
      · split at h
        · cases h
        · next d p' =>
          repeat' split at h
          all_goals first
            | (cases h; done)
            | (simp only [Res.ok.injEq, Prod.mk.injEq] at h
               rw [← h.2]; simp only [List.length_cons]; omega)
      · split at h
        · split at h
          · cases h
          · next k t' hk =>
            have hl := dropWhile_length isDigit (c :: p)
            rw [hk] at hl
            split at h
            · simp only [Res.ok.injEq, Prod.mk.injEq] at h
              rw [← h.2]
              simp only [List.length_cons] at hl ⊢
              omega
            · cases h
            · cases h
        · cases h

/-- `tup_printf` without an extra command. -/
def printf (a : Args) (s : Str) : R Str :=
  match hs : strchr '%' s with
  | none => .ok s
  | some (pre, rest) =>
    match hf : flag a rest with
    | .error => .error
    | .ub => .ub
    | .ok (v, t) =>
      have : t.length < s.length := Nat.lt_trans (flag_length hf) (strchr_length hs)
      match printf a t with
      | .ok o => .ok (pre ++ v ++ o)
      | .error => .error
      | .ub => .ub
termination_by s.length

/-- `tup_printf`; the extra command is always expanded with `EXPAND_PERCPERC`, parser.c:4150-4160. -/
def command (a : Args) (s : Str) (extra : Option Str) : R Str :=
  match printf a s with
  | .ok o =>
    match extra with
    | none => .ok o
    | some x =>
      match printf { a with perc := true } x with
      | .ok y => .ok (o ++ ' ' :: y)
      | .error => .error
      | .ub => .ub
  | .error => .error
  | .ub => .ub

end Tup.Printf
