import Verif.Monitor.Model

/-!
What is asked of the monitor: when no event is waiting any more, the database has a node for exactly the files that exist.
-/

namespace Tup.Monitor

/-- No event is waiting: every one has been read, and the queue has been flushed. -/
def Idle (s : State) : Prop := s.kernel = [] ∧ s.queue = []

/-- The record is right. -/
def InStep (s : State) : Prop := ∀ f, s.recorded f = s.disk f

/-- An event for a move to the file is waiting. -/
def Coming (s : State) (f : File) : Prop :=
  (∃ m ∈ s.queue, m.ev.mask = .movedTo ∧ m.ev.file = f) ∨ ∃ e ∈ s.kernel, e.mask = .movedTo ∧ e.file = f

/-- An event for a move away from the file is waiting. -/
def Going (s : State) (f : File) : Prop :=
  (∃ m ∈ s.queue, m.ev.mask = .movedFrom ∧ m.ev.file = f) ∨ ∃ e ∈ s.kernel, e.mask = .movedFrom ∧ e.file = f

/-- The file that an operation takes away. -/
def Op.takes : Op → Option File
  | .remove f => some f
  | .rename f _ => some f
  | .moveOut f => some f
  | _ => none

/-- The file that an operation puts in place. -/
def Op.puts : Op → Option File
  | .create f => some f
  | .rename _ f => some f
  | .moveIn f => some f
  | _ => none

/-- No file is removed or moved on while the event of the move that put it there is waiting. -/
def Gentle (s : State) (o : Op) : Prop := ∀ f, o.takes = some f → ¬ Coming s f

/-- No name is used again while the event of a move away from it is waiting. -/
def Patient (s : State) (o : Op) : Prop := ∀ f, o.puts = some f → ¬ Going s f

/-- Every operation among some steps is done in a state where it is allowed. -/
def Careful (ok : State → Op → Prop) : State → List Step → Prop
  | _, [] => True
  | s, a :: l => (∀ o, a = .op o → ok s o) ∧ ∀ s', s.step a = some s' → Careful ok s' l

end Tup.Monitor
