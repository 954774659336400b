import Verif.Locks.Model

/-! What the locks are for. -/

namespace Tup.Locks

/-- The process uses the database. -/
def Uses (s : State) (i : Nat) : Prop := s.pc i = .using ∨ s.pc i = .mSh ∨ s.pc i = .mPid ∨ s.pc i = .mOn

/-- The process is a monitor, or is about to be one again. -/
def IsMonitor (s : State) (i : Nat) : Prop := s.again i = true ∨ s.pc i ∈ [Pc.mSh, .mGet, .mPid, .mOn, .mTri, .mRel, .mOff, .mObj, .mUntri]

/-- The process is a monitor, or a monitor that has not exited yet. -/
def MonitorLeft (s : State) (i : Nat) : Prop :=
  IsMonitor s i ∨ s.pc i ∈ [Pc.xObj, .xClose, .xTri, .xUntri, .xSh, .yObj, .yClose, .yTri]

/-- All moves. -/
inductive Reach : State → Prop where
  | init : Reach {}
  | step {s s' : State} {i : Nat} (m : Move) : Reach s → act s i m = some s' → Reach s'

/-- The move does not start a monitor while there is another one; does not stop one, or make it start over, while its parent waits; and does not
kill. -/
def Calm (s : State) : Move → Prop
  | .monitor => ∀ j, ¬ MonitorLeft s j
  | .fork _ => ∀ j, ¬ MonitorLeft s j
  | .stop => ∀ j, s.pc j ≠ .mWait
  | .retry => ∀ j, s.pc j ≠ .mWait
  | .kill => False
  | _ => True

/-- The states that there are if all moves are like that. -/
inductive CalmReach : State → Prop where
  | init : CalmReach {}
  | step {s s' : State} {i : Nat} (m : Move) : CalmReach s → Calm s m → act s i m = some s' → CalmReach s'

/-- All is done: no process runs, other than a monitor that waits for something to happen. -/
def Quiet (s : State) : Prop := ∀ i, s.pc i = .idle ∨ s.pc i = .mOn ∧ s.queue i = []

/-- The processes do what they have to do; nobody starts or stops anything. -/
inductive Runs : Nat → State → State → Prop where
  | nil {s} : Runs 0 s s
  | cons {n s s' s''} (i : Nat) : go s i = some s' → Runs n s' s'' → Runs (n + 1) s s''

end Tup.Locks
