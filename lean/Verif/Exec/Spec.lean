import Verif.Exec.Model

/-!
What the executor needs to know about the graph it is given, and the vocabulary of the properties.
Everything here talks about the graph as it was before the first step (`g0`).
-/

namespace Tup.Exec

/-- The graph handed to the executor: `root` first on node_list, every other node has something pointing
at it, edges stay inside the graph, nothing points at the root, plist is empty and no node is marked as
processing.  A transient file is not used directly by another transient file (files point at commands and
groups only).  Acyclicity is *not* part of this. -/
structure WF (g0 : Graph) (root : Nat) (rest : List Nat) : Prop where
  nodes : g0.nodeList = root :: rest
  nodup : (root :: rest).Nodup
  plist : g0.plist = []
  noproc : ∀ n ∈ rest, g0.proc n = false
  src : ∀ a b, (a, b) ∈ g0.edges → a ∈ root :: rest
  dst : ∀ a b, (a, b) ∈ g0.edges → b ∈ rest
  reach : ∀ b ∈ rest, ∃ a, (a, b) ∈ g0.edges
  rootTrans : g0.trans root = .none
  notDelete : ∀ n, g0.trans n ≠ .delete
  transEdge : ∀ a b, (a, b) ∈ g0.edges → g0.trans a = .processing → g0.trans b = .none

/-- `b` directly depends on `a`. -/
def Dep (g0 : Graph) (a b : Nat) : Prop := (a, b) ∈ g0.edges

instance (g0 : Graph) (a b : Nat) : Decidable (Dep g0 a b) :=
  inferInstanceAs (Decidable ((a, b) ∈ g0.edges))

/-- `b` is reached from `a` along one or more dependencies. -/
inductive Downstream (g0 : Graph) : Nat → Nat → Prop where
  | one {a b} : Dep g0 a b → Downstream g0 a b
  | tail {a b c} : Downstream g0 a b → Dep g0 b c → Downstream g0 a c

/-- No node is downstream of itself. -/
def Acyclic (g0 : Graph) : Prop := ∀ n, ¬ Downstream g0 n n

/-- `s` is a state of some execution on `g0`. -/
def Running {D : Type} (c : Cfg) (w : Work D) (g0 : Graph) (db0 : D) (s : S D) : Prop :=
  ∃ s0, start g0 db0 = some s0 ∧ Reach c w s0 s

/-- `s'` is reached from `s` by exactly `k` steps. -/
inductive ReachN {D : Type} (c : Cfg) (w : Work D) (s : S D) : Nat → S D → Prop where
  | refl : ReachN c w s 0 s
  | tail {k s' s''} : ReachN c w s k s' → Step c w s' s'' → ReachN c w s (k + 1) s''

/-- In state `s`, the job of `a` has been run to completion, successfully, and its result collected. -/
def JobDone {D : Type} (s : S D) (a : Nat) : Prop :=
  a ∈ s.started ∧ a ∉ s.running ∧ (∀ ok, (a, ok) ∉ s.fin) ∧ a ∉ s.failedL

/-- `n` is a node the executor has a job for: it was put into the graph for work (and is not the root). -/
def HasJob (c : Cfg) (rest : List Nat) (n : Nat) : Prop := n ∈ rest ∧ c.expanded n = true

/-- Choices of the environment, for writing down concrete executions. -/
inductive Act where
  | main | finish (n : Nat) (ok : Bool) | die

def act (c : Cfg) (s : S Unit) : Act → Option (S Unit)
  | .main => mainStep c s
  | .finish n ok =>
    if n ∈ s.running then some { s with running := s.running.erase n, fin := (n, ok) :: s.fin, db := () }
    else none
  | .die => if s.dead then none else some { s with dead := true }

def runActs (c : Cfg) : List Act → S Unit → Option (S Unit)
  | [], s => some s
  | a :: as, s => (act c s a).bind (runActs c as)

/-- A work function that may succeed or fail. -/
def anyWork : Work Unit := fun _ _ _ _ _ => True

theorem runActs_reach (c : Cfg) (s0 : S Unit) : ∀ (as : List Act) (s s' : S Unit),
    Reach c anyWork s0 s → runActs c as s = some s' → Reach c anyWork s0 s' := by
  intro as
  induction as with
  | nil => intro s s' h e; injection e with e; subst e; exact h
  | cons a as ih =>
    intro s s' h e
    simp only [runActs] at e
    cases ha : act c s a with
    | none => rw [ha] at e; cases e
    | some s1 =>
      rw [ha] at e
      refine ih s1 s' (.tail h ?_) e
      cases a with
      | main => exact .main ha
      | finish n ok =>
        simp only [act] at ha
        split at ha
        · injection ha with ha; subst ha; exact .finish (by assumption) trivial
        · cases ha
      | die =>
        simp only [act] at ha
        split at ha
        · cases ha
        · injection ha with ha; subst ha; exact .die (by simp_all)

def runFrom (c : Cfg) (g0 : Graph) (as : List Act) : Option (S Unit) :=
  (start g0 ()).bind (runActs c as)

theorem runFrom_running {c : Cfg} {g0 : Graph} (as : List Act) (h : (runFrom c g0 as).isSome = true) :
    Running c anyWork g0 () ((runFrom c g0 as).get h) := by
  cases hs : start g0 () with
  | none => simp [runFrom, hs] at h
  | some s0 =>
    refine ⟨s0, hs, ?_⟩
    have e : runFrom c g0 as = runActs c as s0 := by simp [runFrom, hs]
    apply runActs_reach c s0 as s0 _ .refl
    rw [← e]
    exact (Option.some_get h).symm

end Tup.Exec
