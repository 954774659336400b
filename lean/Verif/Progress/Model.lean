import Verif.Text

/-!
Model of the progress bar: src/tup/progress.c.

Whatever is undefined behaviour is the outcome `ub`.  The colour codes are left out; they take no room on the screen.  The
counters `sum` and `total` are natural numbers (`int` in the code).
-/

namespace Tup.Progress

/-- A `time_t` goes to an `int`. -/
def wrap (z : Int) : Int := (z + 2147483648) % 4294967296 - 2147483648

/-- The static variables, src/tup/progress.c:34-68, with `maxlen` of the three fields. -/
structure St where
  total : Nat
  sum : Nat
  jobTime : Int
  totalTime : Int
  eta : Nat
  rem : Nat
  act : Nat
deriving DecidableEq

/-- `%i`. -/
def num (z : Int) : Str := if z < 0 then '-' :: Nat.toDigits 10 z.natAbs else Nat.toDigits 10 z.natAbs

/-- `get_time_remaining`, src/tup/progress.c:249-291, where `none` is for `part == 0`, and else `time_left` is given.  The text
fits into the 32 characters of the field, since it has at most 8. -/
def timeText (approx : Bool) (left : Option Int) : Str :=
  "ETA".toList ++ (if approx then "~=".toList else "=".toList) ++
    match left with
    | none => "???".toList
    | some l =>
      if l < 1000 then "<1s".toList
      else if l < 60000 then num (l.tdiv 1000 + 1) ++ "s".toList
      else if l < 3600000 then num (l.tdiv 60000 + 1) ++ "m".toList
      else if l < 356400000 then num (l.tdiv 3600000 + 1) ++ "h".toList
      else "???".toList

/-- `start_progress`, src/tup/progress.c:139-171. -/
def start (total : Nat) (time : Int) (jobs : Int) : St where
  total := total
  sum := 0
  jobTime := 0
  totalTime := wrap time
  eta := (timeText (wrap time = -1) none).length
  rem := ("Remaining=".toList ++ num total).length
  act := ("Active=".toList ++ num jobs).length

/-- The time of all commands when the graph is built, src/tup/graph.c:306-311: -1 if one is not known. -/
def addTime (t m : Int) : Int := if t ≠ -1 then (if m = -1 then -1 else t + m) else t

/-- What happens in a phase: a job is done, is skipped, or is skipped with no entry. -/
inductive Ev where
  | done (m : Int)
  | skip (m : Int)
  | drop
deriving DecidableEq

/-- `show_result`, src/tup/progress.c:196-216, as far as the counters go, and `skip_result`, src/tup/progress.c:173-179. -/
def St.ev (s : St) : Ev → St
  | .done m => { s with jobTime := wrap (s.jobTime + m), sum := s.sum + 1 }
  | .skip m => { s with sum := s.sum + 1, totalTime := wrap (s.totalTime - m) }
  | .drop => { s with sum := s.sum + 1 }

/-- `int` times 100; `none`: undefined behaviour. -/
def mul100 (z : Int) : Option Int := if -2147483648 ≤ z * 100 ∧ z * 100 ≤ 2147483647 then some (z * 100) else none

/-- `percent_complete`, src/tup/progress.c:181-194. -/
def percent (s : St) : Option Int :=
  if s.total = 0 then some 0
  else if s.totalTime > 0 then (mul100 s.jobTime).map fun z => z.tdiv s.totalTime
  else (mul100 s.sum).map fun z => z.tdiv s.total

/-- The first loop over the fields, src/tup/progress.c:350-361: how many have room, and what is left. -/
def fit (spacing : Nat) : Nat → List Nat → Nat × Nat
  | m, [] => (0, m)
  | m, l :: ls =>
    if m ≥ l + spacing then
      let r := fit 1 (m - (l + spacing)) ls
      (r.1 + 1, r.2)
    else (0, m)

/-- `memcpy` into the buffer; `none`: undefined behaviour. -/
def place (buf : Str) (off : Nat) (t : Str) : Option Str :=
  if off + t.length ≤ buf.length then some (buf.take off ++ t ++ buf.drop (off + t.length)) else none

/-- The second loop, src/tup/progress.c:363-368. -/
def draw (spacing : Nat) : Nat → List (Str × Nat) → Str → Option Str
  | _, [], buf => some buf
  | off, (t, l) :: r, buf => (place buf (off + spacing) t).bind (draw 1 (off + spacing + l) r)

/-- A bar: what is between the brackets, how much of it is filled, the percentage. -/
structure Bar where
  cells : Str
  fill : Nat
  pct : Int
deriving DecidableEq

inductive Out where
  | ub
  | quiet
  | bar (b : Bar)
deriving DecidableEq

/-- The three fields: the texts and the room for each, src/tup/progress.c:326-348.  `active` is `none` for -1.  `runtime` is
the computation with floating point numbers in src/tup/progress.c:264, from the time since the start, the whole and the part. -/
def fields (runtime : Int → Int → Int → Int) (ms : Int) (s : St) (active : Option Nat) : List (Str × Nat) :=
  let whole := if s.totalTime ≠ -1 then s.totalTime else s.total
  let part := if s.totalTime ≠ -1 then s.jobTime else s.sum
  [(timeText (s.totalTime = -1) (if part ≠ 0 then some (runtime ms whole part - ms) else none), s.eta),
    ("Remaining=".toList ++ num ((s.total : Int) - s.sum), s.rem),
    match active with
    | some a => ("Active=".toList ++ num a, s.act)
    | none => ([], 0)]

/-- `show_progress`, src/tup/progress.c:297-375, with `display.progress` set, on a screen of `cw` columns, the colour codes having
`colors` characters.  With `fill` negative or greater than `max` the code gives `memset` or `printf` a size beyond the buffer, or a
negative precision, with which `printf` reads on behind the buffer, which has no terminator. -/
def showProgress (runtime : Int → Int → Int → Int) (ms : Int) (cw colors : Nat) (s : St) (active : Option Nat) : Out :=
  if s.total ≠ 0 ∧ 10 ≤ cw then
    let max := min (cw - 9) s.total
    match percent s with
    | none => .ub
    | some pct =>
      let fill : Int := if max = s.total then s.sum else ((max : Int) * pct).tdiv 100
      if fill < 0 ∨ (max : Int) < fill then .ub
      else
        let size := cw + colors + 1
        let buf := if colors ≠ 0 then List.replicate size ' '
          else List.replicate fill.toNat '.' ++ List.replicate (size - fill.toNat) ' '
        let fs := fields runtime ms s active
        let r := fit 0 max (fs.map (·.2))
        match draw 0 (r.2 / 2) (fs.take r.1) buf with
        | none => .ub
        | some buf => .bar ⟨buf.take max, fill.toNat, pct⟩
  else .quiet

/-- What is on the screen: the format string in src/tup/progress.c:371. -/
def Bar.line (b : Bar) : Str :=
  " [".toList ++ b.cells ++ "] ".toList ++ List.replicate (3 - (num b.pct).length) ' ' ++ num b.pct ++ "%".toList

/-- The columns that `clear_active` makes blank, src/tup/progress.c:100-115. -/
def cleared (cw : Nat) : Nat := cw - 1

end Tup.Progress
