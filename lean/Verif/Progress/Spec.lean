import Verif.Progress.Model

/-! What the progress bar shows, without the functions of the model. -/

namespace Tup.Progress

/-- The state of the bar after these events. -/
def run (s : St) : List Ev → St
  | [] => s
  | e :: l => run (s.ev e) l

/-- The time of the jobs that are done. -/
def doneTime : List Ev → Int
  | [] => 0
  | .done m :: l => m + doneTime l
  | _ :: l => doneTime l

/-- The time of the jobs that are skipped. -/
def skipTime : List Ev → Int
  | [] => 0
  | .skip m :: l => m + skipTime l
  | _ :: l => skipTime l

/-- The time of a job. -/
def Ev.time : Ev → Int
  | .done m => m
  | .skip m => m
  | .drop => 0

/-- The times together. -/
def sumTime : List Int → Int
  | [] => 0
  | m :: l => m + sumTime l

/-- The greatest number that can be multiplied by 100. -/
def most : Nat := 21474836

/-- Counters with which a bar can be drawn: no more jobs are done than there are, and not more time than there is. -/
structure Fair (s : St) : Prop where
  sum : s.sum ≤ s.total
  total : s.total ≤ most
  time : 0 < s.totalTime → 0 ≤ s.jobTime ∧ s.jobTime ≤ s.totalTime ∧ s.jobTime ≤ most

/-- The fields have room for the texts. -/
structure Roomy (s : St) (active : Option Nat) : Prop where
  eta : 7 ≤ s.eta ∧ (s.totalTime = -1 → 8 ≤ s.eta)
  rem : s.rem = ("Remaining=".toList ++ num s.total).length
  act : ∀ a, active = some a → ("Active=".toList ++ num a).length ≤ s.act

/-- Where the texts stand: one after the other, with a space between them, beginning at `off`. -/
def spots (off : Nat) : List Nat → List Nat
  | [] => []
  | l :: ls => off :: spots (off + l + 1) ls

end Tup.Progress
