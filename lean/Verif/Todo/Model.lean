import Verif.Exec.Spec
import Verif.Transient.Model

/-!
Model of `tup todo`: `todo` (src/tup/updater.c:535-580) with `check_config_todo`, `check_create_todo` and `check_update_todo` (1691-1791) and the work function `todo_work` (2260-2268).  The graph is
`Tup.Graph.buildGraph`, the executor is that of `Tup.Exec`, the partial update is `Tup.Graph.prune`.  The scan before it and the reading of the arguments are left out.
-/

namespace Tup.Todo

open Tup.Graph
open Tup.Exec (Trans)

/-- What the queries report, on top of what an update reads (`Tup.Transient.Db`): the tables config_list and create_list; the declared inputs of a command (`tup_db_get_inputs`); which nodes are
directories, normal files, groups, generated files and excluded outputs. -/
structure World extends Tup.Transient.Db where
  config : List Nat
  create : List Nat
  inputs : Nat → List Nat
  isDir : Nat → Bool
  isFile : Nat → Bool
  isGroup : Nat → Bool
  isGen : Nat → Bool
  excl : Nat → Bool

/-- `n->transient` of a new node, src/tup/graph.c:76-84. -/
def World.trans (w : World) (n : Nat) : Trans := if w.isGen n && w.temp n then .processing else .none

/-- What `prune_graph` reads of a node; `counted` is set by `make_edge` when it expands the node, src/tup/graph.c:300-304. -/
def World.info (w : World) (counts : Nat → Bool) (b : B) : Info where
  kind n := if w.isCmd n then .cmd else if w.isFile n then .file else if w.isGroup n then .group else .other
  excl := w.excl
  counted n := b.expanded n && counts n

/-- `todo_work`, src/tup/updater.c:2260-2268: what has been printed, latest first.  `counts` is the comparison with `count_flags`.  The work function always returns 0. -/
def work (counts : Nat → Bool) : Exec.Work (List Nat) := fun out _ n out' ok => out' = (if counts n then n :: out else out) ∧ ok = true

/-- The graph after `build_graph`, src/tup/graph.c:537-617, as the executor sees it. -/
def World.graph (w : World) (b : B) : Exec.Graph := toExec b (addStickies w.isCmd w.inputs b.nodeList) w.trans

/-- The graph that is gone through, and the commands that `prune_node` has put into the modify list: src/tup/updater.c:1770-1771 and src/tup/graph.c:817-908.  `targets = none`: no file was named. -/
def World.cut (w : World) (counts : Nat → Bool) (root : Nat) (b : B) : Option (List Nat) → Exec.Graph × List Nat
  | none => (w.graph b, [])
  | some ts =>
    let g := w.graph b
    let p := prune (w.info counts b) false root g.nodeList g.edges g.trans ts
    ({ g with nodeList := p.nodes, edges := p.edges, trans := p.trans }, p.scheduled)

/-- `g.num_nodes`: `make_edge` adds one for every node that it marks as counted (src/tup/graph.c:300-304), `prune_node` takes one off for every such node that it removes (787). -/
def World.num (w : World) (counts : Nat → Bool) (b : B) (pruned : List Nat) : Nat := (b.nodeList.filter (w.info counts b).counted).length - pruned.length

/-- What one of the three functions leaves: `num_nodes`, what was printed in this order, and the pruned commands. -/
structure Shown where
  num : Nat
  printed : List Nat
  pruned : List Nat

/-- `check_config_todo`, `check_create_todo`, `check_update_todo`, src/tup/updater.c:1691-1791, for the nodes of the list `sched`; `none` is a negative return value.  There is one worker, and nothing
is kept going. -/
inductive Phase (w : World) (root : Nat) (U sched : List Nat) (counts : Nat → Bool) (targets : Option (List Nat)) : Option Shown → Prop where
  | circular : (∀ b, buildGraph w.toLinks root U sched ≠ .ok b) → Phase w root U sched counts targets none
  | failed {b s} : buildGraph w.toLinks root U sched = .ok b → Exec.Running ⟨false, 1, b.expanded⟩ (work counts) (w.cut counts root b targets).1 [] s → s.pc = .done false →
      Phase w root U sched counts targets none
  | ran {b s} : buildGraph w.toLinks root U sched = .ok b → Exec.Running ⟨false, 1, b.expanded⟩ (work counts) (w.cut counts root b targets).1 [] s → s.pc = .done true →
      Phase w root U sched counts targets (some ⟨w.num counts b (w.cut counts root b targets).2, s.db.reverse, (w.cut counts root b targets).2⟩)

/-- The lines that are printed, src/tup/updater.c:535-580, 1704, 1739, 1774, 1786, 2264.  How a node is printed is left out. -/
inductive Line where
  | configs | dirs | commands (n : Nat) | node (n : Nat) | skipped (n : Nat) | runRead | runParse | runTup | upToDate
deriving DecidableEq

/-- The lines of one phase. -/
def Shown.lines (r : Shown) (head : Line) : List Line :=
  (if r.num ≠ 0 then [head] else []) ++ r.printed.map .node ++ (if r.pruned.length ≠ 0 then [.skipped r.pruned.length] else [])

/-- `todo`, src/tup/updater.c:535-580: what is printed, and the modify list that is committed; `none`: an error.  The pruned commands are added with `insert or ignore` (`tup_db_add_modify_list`). -/
inductive Todo (w : World) (root : Nat) (U : List Nat) (targets : Option (List Nat)) : Option (List Line × List Nat) → Prop where
  | error1 : Phase w root U w.config (fun _ => true) none none → Todo w root U targets none
  | config {r} : Phase w root U w.config (fun _ => true) none (some r) → r.num ≠ 0 → Todo w root U targets (some (r.lines .configs ++ [.runRead], w.modify))
  | error2 {r} : Phase w root U w.config (fun _ => true) none (some r) → r.num = 0 → Phase w root U w.create w.isDir none none → Todo w root U targets none
  | create {r r'} : Phase w root U w.config (fun _ => true) none (some r) → r.num = 0 → Phase w root U w.create w.isDir none (some r') → r'.num ≠ 0 →
      Todo w root U targets (some (r.lines .configs ++ r'.lines .dirs ++ [.runParse], w.modify))
  | error3 {r r'} : Phase w root U w.config (fun _ => true) none (some r) → r.num = 0 → Phase w root U w.create w.isDir none (some r') → r'.num = 0 →
      Phase w root U w.modify w.isCmd targets none → Todo w root U targets none
  | update {r r' r''} : Phase w root U w.config (fun _ => true) none (some r) → r.num = 0 → Phase w root U w.create w.isDir none (some r') → r'.num = 0 →
      Phase w root U w.modify w.isCmd targets (some r'') →
      Todo w root U targets (some (r.lines .configs ++ r'.lines .dirs ++ r''.lines (.commands r''.num) ++ [if r''.num ≠ 0 then .runTup else .upToDate],
        w.modify ++ r''.pruned.filter (· ∉ w.modify)))

end Tup.Todo
