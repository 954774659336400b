import Verif.AutoUpdate.Model

/-! What is to hold of the things that can be seen of a run. -/

namespace Tup.AutoUpdate

/-- The events happened, in this order. -/
def InOrder (t : List Ev) (l : List Ev) : Prop := l.Sublist t

/-- An update that has ended got the object lock after the change was put into the database. -/
def Updated (t : List Ev) (c : Nat) : Prop := ∃ p, InOrder t [.changed c, .recorded c, .begun p, .ended p]

/-- No process runs, and the monitor has read and handled all events. -/
def Still (s : State) : Prop := (∀ p, s.stage p = .gone) ∧ s.kernel = [] ∧ s.queue = []

/-- All autoupdates could be started. -/
def NoFail (l : List Act) : Prop := ∀ p, Act.fail p ∉ l

/-- A change that needs an update has been put into the database after the last start of an update. -/
def Due (mod : Nat → Bool) (t : List Ev) : Prop :=
  ∃ c x y, t = x ++ Ev.recorded c :: y ∧ mod c = true ∧ ∀ q, Ev.started q ∉ y

/-- Nobody changes a file, calls tup or keeps an update from starting; only the monitor and the processes that are there go on. -/
def Quietly (l : List Act) : Prop := ∀ a ∈ l, a = .read ∨ a = .timeout ∨ ∃ p, a = .go p

end Tup.AutoUpdate
