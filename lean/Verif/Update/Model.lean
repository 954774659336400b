import Verif.Graph.Model
import Verif.Exec.Spec

/-!
Model of an update as a whole: what the scanner flags (src/tup/create_name_file.c), what `update_work`
does to a node (src/tup/updater.c:2114-2218, 2493-2708, 2925-3080), and how scanning, updating, user edits
and crashes follow each other.

Files and commands are natural numbers; file contents are natural numbers, `none` is a file that does not
exist.  Left out: groups, transient files, directories, variants, environment and configuration variables
(they behave like files that are never generated), Tupfile parsing (the commands are fixed).
-/

namespace Tup.Update

open Tup.Exec (upd Graph S Work Cfg Running)
open Tup.Graph (Links Res B buildGraph addStickies toExec)

/-- Contents of all files. -/
abbrev Content := Nat → Option Nat

/-- What running a command does: exit status 0 or not, the files it opens for reading (existing or not),
and what it writes to its declared outputs (`none`: not written). -/
structure Run where
  ok : Bool
  reads : List Nat
  out : Content

/-- A project after parsing: all node ids of the database, the id of the graph's root node, which ids are
commands, the outputs and the declared (sticky) inputs of each command, the ^o flag, and what the command
does when run on given file contents. -/
structure Proj where
  nodes : List Nat
  root : Nat
  isCmd : Nat → Bool
  outs : Nat → List Nat
  optO : Nat → Bool
  sticky : Nat → List Nat
  beh : Nat → Content → Run

/-- `p` is a generated file (TUP_NODE_GENERATED): an output of some command. -/
def Proj.gen (π : Proj) (p : Nat) : Bool := π.nodes.any fun d => π.isCmd d && (π.outs d).contains p

/-- The tables of .tup/db used here: node.mtime (`known`: what the file looked like when tup last recorded
its modification time; it is assumed that a file whose content changes gets a different modification
time), normal_link from files to commands, and modify_list.  The links from commands to their outputs
are `Proj.outs`, sticky_link is `Proj.sticky`. -/
structure DB where
  known : Content
  link : Nat → Nat → Bool
  modify : Nat → Bool

/-- What the work function acts on: the files, the database, the `skip` field of the graph nodes, and (a
history variable) the commands that were actually run. -/
structure D where
  content : Content
  db : DB
  skip : Nat → Bool
  ran : List Nat

variable (π : Proj)

/-- Whether the graph has an edge with style TUP_LINK_NORMAL, for the database at the time the graph was
built. -/
def normal (db : DB) (n x : Nat) : Bool :=
  if π.isCmd n then (π.outs n).contains x else db.link n x && π.isCmd x

/-- One iteration of `modify_outputs`, src/tup/updater.c:2119-2127. -/
def modifyOutput (nrm : Nat → Nat → Bool) (n : Nat) (d : D) (x : Nat) : D :=
  if nrm n x then
    { d with db := { d.db with modify := if π.isCmd x then upd d.db.modify x true else d.db.modify },
             skip := upd d.skip x false }
  else d

/-- `modify_outputs`, src/tup/updater.c:2114-2129 (database errors are not modelled). -/
def modifyOutputs (nrm : Nat → Nat → Bool) (g : Graph) (n : Nat) (d : D) : D :=
  (g.outs n).foldl (modifyOutput π nrm n) d

/-- `tup_db_unflag_modify`. -/
def unflag (n : Nat) (d : D) : D := { d with db := { d.db with modify := upd d.db.modify n false } }

/-- The part of `update_work` after a command has succeeded or was skipped,
src/tup/updater.c:2168-2183. -/
def finishCmd (nrm : Nat → Nat → Bool) (g : Graph) (n : Nat) (d : D) : D :=
  unflag n ((g.outs n).foldl (fun d p => if d.skip p then d else modifyOutputs π nrm g p d) d)

/-- `update_work` for a node that is not a command, src/tup/updater.c:2186-2196. -/
def fileWork (nrm : Nat → Nat → Bool) (g : Graph) (n : Nat) (d : D) : D :=
  unflag n (if d.skip n then d else modifyOutputs π nrm g n d)

/-- What a command sees of its own outputs: they were unlinked (`unlink_outputs`, 2538-2575) or moved away
(`move_outputs`, 2279-2328) before it is started. -/
def mask (c : Nat) (v : Content) : Content := fun p => if p ∈ π.outs c then none else v p

/-- What a command may see: the current content of every file that is not generated, and of the generated
files it declares.  Other generated files may be just being written by some other command, so nothing is
assumed about them. -/
def View (c : Nat) (d : D) (v : Content) : Prop :=
  ∀ p, π.gen p = false ∨ p ∈ π.sticky c → v p = d.content p

/-- `important_link_removed`: a generated file used at the last run is not used any more
(`del_normal_link`, src/tup/db.c:6126-6147). -/
def linkRemoved (c : Nat) (d : D) (r : Run) : Bool :=
  π.nodes.any fun p => π.gen p && d.db.link p c && !(r.reads.contains p)

/-- The checks after a command has run: exit status (process_output, src/tup/updater.c:2624-2633), all
outputs written (`tup_db_check_actual_outputs`, src/tup/db.c:5867-5897), all generated inputs declared
(`check_generated_inputs`, 6149-6196; being reachable from another declared input or in a declared group
does not count here). -/
def Passes (c : Nat) (r : Run) : Prop :=
  r.ok = true ∧ (∀ o ∈ π.outs c, (r.out o).isSome = true) ∧
    (∀ p ∈ r.reads, p ∉ π.outs c → π.gen p = true → p ∈ π.sticky c)

/-- A successful `update` of a command, src/tup/updater.c:2925-3080.  The links are replaced by the files
read (`tup_db_check_actual_inputs`, src/tup/db.c:6198-6240); the recorded modification times of the outputs
are updated (`file_set_mtime`); `skip` of an output is cleared when the outputs were unlinked beforehand
(no ^o, line 2547), when a link was removed (2493-2503), or when the output differs from the one that was
moved away, or there was none (`check_outputs`, 2505-2536). -/
def succeed (c : Nat) (d : D) (r : Run) : D :=
  { content := fun p => if p ∈ π.outs c then r.out p else d.content p
    db :=
      { known := fun p => if p ∈ π.outs c then r.out p else d.db.known p
        link := fun p x => if x = c then r.reads.contains p && !((π.outs c).contains p) else d.db.link p x
        modify := d.db.modify }
    skip := fun p =>
      if p ∈ π.outs c then
        d.skip p && π.optO c && !(linkRemoved π c d r) && (d.content p = r.out p)
      else d.skip p
    ran := c :: d.ran }

/-- A failed `update`.  Nothing outside the outputs, the links and the recorded modification times of the
command changes.  Without ^o the outputs may be anything.  With ^o the old outputs are put back
(`restore_outputs`, 2330-2372) or, after an internal error, are lost (`goto err_close_srcdfd`, 3030-3036,
after `move_outputs`); where there was no old output, a new one written by the command stays
(`update_write_info` moves it in place, src/tup/file.c:815-834, and there is no backup to put back) unless
`clean`, which is an assumption on the commands, not something the code ensures. -/
def Fails (clean : Bool) (c : Nat) (d d' : D) : Prop :=
  (∀ p, p ∉ π.outs c → d'.content p = d.content p ∧ d'.db.known p = d.db.known p ∧ d'.skip p = d.skip p) ∧
  (∀ p ∈ π.outs c, d'.db.known p = d.db.known p ∨ d'.db.known p = d'.content p) ∧
  (π.optO c = true → ∀ p ∈ π.outs c, d'.content p = d.content p ∨ d'.content p = none ∨
    (d.content p = none ∧ clean = false)) ∧
  (∀ p x, x ≠ c → d'.db.link p x = d.db.link p x) ∧
  (∀ x, d'.db.modify x = d.db.modify x) ∧ (∀ x, d'.skip x = true → d.skip x = true) ∧ d'.ran = c :: d.ran

/-- `update_work`, src/tup/updater.c:2131-2218. -/
def work (clean : Bool) (nrm : Nat → Nat → Bool) : Work D := fun d g n d' ok =>
  if π.isCmd n then
    if d.skip n then ok = true ∧ d' = finishCmd π nrm g n d
    else
      (ok = false ∧ Fails π clean n d d') ∨
      (ok = true ∧ ∃ v, View π n d v ∧ Passes π n (π.beh n (mask π n v)) ∧
        d' = finishCmd π nrm g n (succeed π n d (π.beh n (mask π n v))))
  else ok = true ∧ d' = fileWork π nrm g n d

/-- The rows `tup_db_select_node_by_link` returns. -/
def linksOf (db : DB) : Links where
  links n := π.nodes.filter fun x => normal π db n x
  groupLinks _ := []

/-- The scheduled nodes, `tup_db_select_node_by_flags(TUP_FLAGS_MODIFY)`. -/
def sched (db : DB) : List Nat := π.nodes.filter db.modify

/-- Files and database between two tup commands. -/
structure W where
  content : Content
  db : DB

/-- The graph of an update, src/tup/updater.c:1643-1657. -/
def graph (w : W) : Option Graph :=
  match buildGraph (linksOf π w.db) π.root π.nodes (sched π w.db) with
  | .ok b => some (toExec b (addStickies π.isCmd π.sticky b.nodeList) fun _ => .none)
  | _ => none

/-- State when the executor starts: `skip` is cleared for the nodes below the root (`make_edge`,
src/tup/graph.c:317-319). -/
def startD (w : W) : D :=
  { content := w.content, db := w.db, skip := fun n => !(sched π w.db).contains n, ran := [] }

/-- The scanner (`tup_scan`, `tup_file_mod_mtime` src/tup/create_name_file.c:118-212, `tup_file_missing`,
`tup_del_id_type` 319-500).  `T` are the files whose modification time differs from the recorded one,
including files that have disappeared.  A changed file is flagged, and so is the command producing it; if
it is gone, a generated file flags its command and is unflagged itself, any other file flags the commands
reading it and its node is deleted with its links. -/
def scan (T : Nat → Bool) (w : W) : W :=
  { w with db :=
    { known := fun p => if T p then w.content p else w.db.known p
      link := fun p x => w.db.link p x && !(T p && !(π.gen p) && (w.content p).isNone)
      modify := fun x =>
        if π.isCmd x then
          w.db.modify x || (π.outs x).any T ||
            π.nodes.any (fun p => T p && !(π.gen p) && (w.content p).isNone && w.db.link p x)
        else if T x then (w.content x).isSome else w.db.modify x } }

/-- `T` contains all files that differ from what tup has recorded. -/
def Sees (T : Nat → Bool) (w : W) : Prop := ∀ p, w.content p ≠ w.db.known p → T p = true

/-- `e` is a state of an update that starts with a scan of `w`.  All nodes of the graph have `expanded` set:
`buildGraph` expands every node it makes an edge to. -/
def Updating (clean : Bool) (c : Cfg) (T : Nat → Bool) (w : W) (e : S D) : Prop :=
  0 < c.jobs ∧ (∀ n, c.expanded n = true) ∧ Sees T w ∧ ∃ g0, graph π (scan π T w) = some g0 ∧
    Running c (work π clean (normal π (scan π T w).db)) g0 (startD π (scan π T w)) e

/-- What can happen to a project.  The scan and the update are separate database transactions
(src/tup/updater.c:1643, 1690); the update is committed when the executor returns, whatever its result. -/
inductive Step (clean : Bool) : W → W → Prop where
  /-- the user changes any files, also generated ones -/
  | edit {w} (content : Content) : Step clean w { w with content := content }
  /-- scan only (also: the update fails because of a circular dependency) -/
  | scan {w} (T) (h : Sees T w) : Step clean w (scan π T w)
  /-- an update that ran to its end, successful or not, and was committed -/
  | update {w} {c : Cfg} {T e} {ok : Bool} (h : Updating π clean c T w e) (hd : e.pc = .done ok) (hr : e.running = []) :
      Step clean w ⟨e.db.content, e.db.db⟩
  /-- an update that was killed: the transaction is rolled back, the files stay as they are, and the
  outputs of the commands that were just running can be anything -/
  | crash {w} {c : Cfg} {T e} {content : Content} (h : Updating π clean c T w e)
      (hc : ∀ p, (∀ d ∈ e.running, p ∉ π.outs d) → content p = e.db.content p) :
      Step clean w ⟨content, (scan π T w).db⟩

/-- A newly initialised project: every command is scheduled (it was put on the modify list when the parser
created it); nothing else is assumed about the database or the files. -/
def Init (w : W) : Prop := ∀ c ∈ π.nodes, π.isCmd c = true → w.db.modify c = true

/-- All states after any history of edits, scans, updates and crashes. -/
inductive History (clean : Bool) : W → Prop where
  | init {w} (h : Init π w) : History clean w
  | step {w w'} (h : History clean w) (hs : Step π clean w w') : History clean w'

end Tup.Update
