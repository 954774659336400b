import Verif.Watch.Model

/-! What the table should be after a history of watches: at each time a watch is unknown, ended or the watch of a directory. -/

namespace Tup.Watch

/-- The directory for which the watch was set last, if it has not come to its end since. -/
def last : List Op → Nat → Option Nat → Option Nat
  | [], _, s => s
  | .watch v d :: l, w, s => last l w (if v = w then some d else s)
  | .gone _ :: l, w, s => last l w s
  | .queued v :: l, w, s => last l w (if v = w then none else s)
  | .handled v :: l, w, s => last l w (if v = w then none else s)

/-- The same, if the directory has not been removed since. -/
def sure : List Op → Nat → Option Nat → Option Nat
  | [], _, s => s
  | .watch v d :: l, w, s => sure l w (if v = w then some d else s)
  | .gone d :: l, w, s => sure l w (if s = some d then none else s)
  | .queued v :: l, w, s => sure l w (if v = w then none else s)
  | .handled v :: l, w, s => sure l w (if v = w then none else s)

/-- What should be known of a watch after one more of these, where `s` is what should be known before. -/
def want (w : Nat) (s : Target) : Op → Target
  | .watch v d => if v = w then .dir d else s
  | .gone d => if s = .dir d then .unknown else s
  | .queued v => if v = w ∧ s ≠ .unknown then .skipped else s
  | .handled v => if v = w then .unknown else s

def wanted (h : List Op) (w : Nat) : Target := h.foldl (want w) .unknown

/-- While the end of a watch in the table waits to be handled, no watch is set and no directory is removed; and no directory is given a
second watch. -/
def Tame (h : List Op) : Prop :=
  (∀ h1 w d h2, h = h1 ++ .watch w d :: h2 → ∀ v, wanted h1 v ≠ .skipped ∧ (v ≠ w → wanted h1 v ≠ .dir d)) ∧
  (∀ h1 d h2, h = h1 ++ .gone d :: h2 → ∀ v, wanted h1 v ≠ .skipped)

end Tup.Watch
