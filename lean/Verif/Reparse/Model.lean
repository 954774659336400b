import Verif.Basic

/-!
Which Tupfiles are parsed, in which order, and what they see of each other.  src/tup/parser.c:158-396, 2276-2288, 2576-2638, 2674-2960; src/tup/updater.c:1384-1400, 1862-2060, 2084-2112; src/tup/db.c:1380-1470,
6476-6498.

The directories are ordinary directories of one variant (no generated directories, ghosts or virtual directories), which are always there.  No two Tupfiles have a rule for the same file, so that the test for the owner
of a file (C27, C50) always passes.  One thread, src/tup/updater.c:1545.
-/

namespace Tup.Reparse

abbrev Dir := Nat

/-- A command that a Tupfile makes, with the files it writes: a directory and a name. -/
structure Rule where
  cmd : Str
  outs : List (Dir × Str)
  deriving DecidableEq, Repr

/-- A Tupfile, as what the parser does with it: it makes a command, or it looks up the inputs of a rule in a directory and goes on with what it finds there, or it stops with an error, or it is at the end.  What it goes
on with can be any function of the set of the names that are found. -/
inductive Prog where
  | done
  | fail
  | rule (r : Rule) (k : Prog)
  | look (b : Dir) (k : (Str → Bool) → Prog)

/-- The sources (the names of the ordinary files of each directory, and the Tupfiles), and the database: the commands of each Tupfile (`srcid` of their files), the links from directories to the directories whose
Tupfiles look there, and `create_list`. -/
structure St where
  src : Dir → Str → Bool
  prog : Dir → Prog
  rules : Dir → List Rule
  links : List (Dir × Dir)
  flags : List Dir

/-- The record of one directory is replaced: the rows of the database with that `srcid`, or the files of that directory; stands for the statements of src/tup/db.c:1380-1470 and 6476-6498. -/
def set {α : Type} (f : Dir → α) (d : Dir) (a : α) : Dir → α := fun x => if x = d then a else f x

/-- The state of `process_create_nodes`: the commands and the links in the database, the fields `already_used` and `parsing` of the nodes of the graph, and the nodes that have been removed from it. -/
structure Run where
  rules : Dir → List Rule
  links : List (Dir × Dir)
  used : List Dir
  parsing : List Dir
  gone : List Dir

/-- How an update stops: an error in a Tupfile (src/tup/parser.c:340-396), `CIRCULAR_DEPENDENCY_ERROR` (src/tup/parser.c:174-179), or, in the model only, the bound on the recursion. -/
inductive Err where
  | failed
  | circular
  | fuel
  deriving DecidableEq, Repr

/-- The result of a function that returns 0 or -1, such as `parse`, src/tup/parser.c:158. -/
inductive Res (α : Type) where
  | ok (a : α)
  | err (e : Err)

/-- Does one of the commands write that file? -/
def writes (l : List Rule) (b : Dir) (n : Str) : Bool := l.any (fun r => r.outs.any (fun o => o.1 == b && o.2 == n))

/-- What the Tupfile of `d` finds in `b`: `nl_add_path` and `build_name_list_cb`, src/tup/parser.c:2674-2960.  The ordinary files, the files that the Tupfile of `b` itself writes there, and those that `d` writes there;
files that other Tupfiles write are left out (2922-2938).  The files that the Tupfile of a directory had when its parsing began are in `gen_delete_root` until a rule makes them again, and are not found (2756-2781,
src/tup/db.c:1380-1470). -/
def view (src : Dir → Str → Bool) (t : Run) (d b : Dir) (n : Str) : Bool := src b n || writes (t.rules b) b n || writes (t.rules d) b n

/-- The parsing of the rest of the Tupfile of `d`; `ins` is `tf->input_root`.  `path_list_to_nl`, src/tup/parser.c:2276-2288, with `parse_dependent_tupfiles`, 2576-2638: a directory that is in the graph and was not used
yet is parsed first. -/
def exec (src : Dir → Str → Bool) (graph : List Dir) (parse : Run → Dir → Res Run) (d : Dir) : Prog → Run → List Dir → Res (Run × List Dir)
  | .done, t, ins => .ok (t, ins)
  | .fail, _, _ => .err .failed
  | .rule r k, t, ins => exec src graph parse d k { t with rules := set t.rules d (t.rules d ++ [r]) } ins
  | .look b k, t, ins =>
    if b = d then exec src graph parse d (k (view src t d b)) t ins
    else if b ∈ graph ∧ b ∉ t.gone ∧ b ∉ t.used then
      match parse { t with used := b :: t.used } b with
      | .ok t' => exec src graph parse d (k (view src t' d b)) t' (b :: ins)
      | .err e => .err e
    else exec src graph parse d (k (view src t d b)) t (b :: ins)

/-- `parse`, src/tup/parser.c:158-396, with `tup_db_write_dir_inputs`, src/tup/db.c:6476-6498.  The first number bounds the depth of the recursion; see `c74_accepts` for the claim that it is never reached. -/
def parse (s : St) (graph : List Dir) : Nat → Run → Dir → Res Run
  | 0, _, _ => .err .fuel
  | fuel + 1, t, d =>
    if d ∈ t.parsing then .err .circular
    else
      match exec s.src graph (parse s graph fuel) d (s.prog d) { t with parsing := d :: t.parsing, rules := set t.rules d [] } [] with
      | .ok (t', ins) => .ok { t' with links := ins.map (fun b => (b, d)) ++ t'.links.filter (fun l => l.2 ≠ d) }
      | .err e => .err e

/-- `create_work`, src/tup/updater.c:2084-2112, and the removal of the node from the graph when it succeeds, 2010-2013. -/
def work (s : St) (graph : List Dir) (t : Run) (d : Dir) : Res Run :=
  if d ∈ t.used then .ok { t with gone := d :: t.gone }
  else
    match parse s graph (graph.length + 1) t d with
    | .ok t' => .ok { t' with gone := d :: t'.gone }
    | .err e => .err e

/-- The loop of `execute_graph`, src/tup/updater.c:1862-2060, with one job and without `keep_going`. -/
def loop (s : St) (graph : List Dir) : List Dir → Run → Res Run
  | [], t => .ok t
  | d :: l, t =>
    match work s graph t d with
    | .ok t' => loop s graph l t'
    | .err e => .err e

/-- `process_create_nodes`, src/tup/updater.c:1384-1645, for a graph whose nodes come up in that order.  When it fails the database is rolled back (C43). -/
def update (s : St) (order : List Dir) : Res St :=
  match loop s order order ⟨s.rules, s.links, [], [], []⟩ with
  | .ok t => .ok { s with rules := t.rules, links := t.links, flags := s.flags.filter (· ∉ t.gone) }
  | .err e => .err e

/-- A file appears in a directory or goes, or the Tupfile (or what it depends on, C69) changes: the directory is flagged, src/tup/create_name_file.c:52, 354-420. -/
def edit (s : St) (d : Dir) (files : Str → Bool) (p : Prog) : St := { s with src := set s.src d files, prog := set s.prog d p, flags := d :: s.flags }

/-- A new project: `tup init` makes a database without flags or links, src/tup/db.c:307-420. -/
def init : St := ⟨fun _ _ => false, fun _ => .done, fun _ => [], [], []⟩

end Tup.Reparse
