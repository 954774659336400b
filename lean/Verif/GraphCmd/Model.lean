import Verif.Combine.Model

/-! `tup graph` up to the point where the graph is printed (C93) or pruned (C36): which nodes and edges it has.  `graph` and `graph_cb`,
src/tup/tup/main.c:503-665. -/

namespace Tup.GraphCmd

/-- The types of nodes as far as they matter: enum TUP_NODE_TYPE, src/tup/db_types.h. -/
inductive Kind where
  | file | generated | cmd | dir | generatedDir | ghost | group | other
deriving DecidableEq, Repr

/-- What the database says.  `links` is `get_outputs` (normal_link, src/tup/db.c:4361-4426), `groupLinks` the select of
src/tup/db.c:4548-4615, `inDir` that of src/tup/db.c:1320-1385, `sticky` the sticky inputs (`tup_db_get_inputs`), `env` the id of the directory of
the environment variables.  Ids are positive. -/
structure Db where
  kind : Nat → Kind
  name : Nat → Str
  display : Nat → Option Str
  dir : Nat → Nat
  env : Nat
  links : Nat → List Nat
  groupLinks : Nat → List Nat
  inDir : Nat → List Nat
  sticky : Nat → List Nat
  create : List Nat
  modify : List Nat

/-- The options, from the command line or from the option files, src/tup/tup/main.c:564-567, 579-601. -/
structure Opts where
  dirs : Bool
  ghosts : Bool
  env : Bool
  combine : Bool
  stickies : Bool
deriving DecidableEq

/-- `struct graph`: the nodes that are still to be looked at, the others, both with the last one first, and the edges (source, destination,
style).  Every node but the root, which has the id 0, is marked as expanded as soon as it is created. -/
structure St where
  plist : List Nat
  nodes : List Nat
  edges : List Combine.Edge
deriving DecidableEq

/-- `create_graph`, src/tup/graph.c:222-256. -/
def init : St := ⟨[], [0], []⟩

/-- `find_node`, else `create_node` and the move to `plist`: src/tup/tup/main.c:528-542, 610-620; src/tup/graph.c:278-286, 393-425. -/
def add (s : St) (x : Nat) : St := if x ∈ s.plist ∨ x ∈ s.nodes then s else { s with plist := x :: s.plist }

/-- `TUP_LINK_NORMAL`, src/tup/db_types.h. -/
def normal : Nat := 1

/-- `TUP_LINK_STICKY`, src/tup/db_types.h. -/
def stickyLink : Nat := 2

/-- `create_edge`, src/tup/graph.c:152-169.  The order of the edges is not modelled. -/
def edge (s : St) (a b style : Nat) : St := { s with edges := s.edges ++ [(a, b, style)] }

/-- The nodes that `graph_cb` skips, src/tup/tup/main.c:511-526. -/
def skipped (db : Db) (o : Opts) (cur : Option Nat) (x : Nat) : Bool :=
  (!o.ghosts && decide (db.kind x = .ghost)) || (!o.env && (decide (x = db.env) || decide (db.dir x = db.env))) ||
    (!o.dirs && cur.isSome && (decide (db.kind x = .dir) || decide (db.kind x = .generatedDir)))

/-- `graph_cb`, src/tup/tup/main.c:506-547. -/
def graphCb (db : Db) (o : Opts) (cur : Option Nat) (s : St) (x : Nat) : St :=
  if skipped db o cur x then s
  else
    match cur with
    | some c => edge (add s x) c x normal
    | none => add s x

/-- `build_graph_group_cb`, src/tup/graph.c:413-431. -/
def groupCb (c : Nat) (s : St) (x : Nat) : St := edge (add s x) c x normal

/-- `TUP_CONFIG`, src/tup/config.h. -/
def tupConfig : Str := "tup.config".toList

/-- One round of the loop, src/tup/tup/main.c:630-648. -/
def step (db : Db) (o : Opts) (s : St) (c : Nat) : St :=
  let s := (db.links c).foldl (graphCb db o (some c)) s
  let s := if db.kind c = .group then (db.groupLinks c).foldl (groupCb c) s else s
  let s := { s with plist := s.plist.erase c, nodes := c :: s.nodes }
  if db.name c ≠ tupConfig then (db.inDir c).foldl (graphCb db o none) s else s

/-- The loop, src/tup/tup/main.c:629-649, with a bound for the number of rounds. -/
def loop (db : Db) (o : Opts) : Nat → St → Option St
  | fuel, s =>
    match s.plist with
    | [] => some s
    | c :: _ =>
      match fuel with
      | 0 => none
      | fuel + 1 => loop db o fuel (step db o s c)

/-- The command line, src/tup/tup/main.c:576-623: the options, the nodes that are named and what is behind `--prune`.  `find` is `get_tent_dt` from
the current directory; a name that it does not find is an error. -/
def parseArgs (find : Str → Option Nat) : Opts → List Nat → List Str → Option (Opts × List Nat × Option (List Str))
  | o, l, [] => some (o, l, none)
  | o, l, a :: rest =>
    if a = "--dirs".toList then parseArgs find { o with dirs := true } l rest
    else if a = "--ghosts".toList then parseArgs find { o with ghosts := true } l rest
    else if a = "--env".toList then parseArgs find { o with env := true } l rest
    else if a = "--combine".toList then parseArgs find { o with combine := true } l rest
    else if a = "--stickies".toList then parseArgs find { o with stickies := true } l rest
    else if a = "--prune".toList then some (o, l, some rest)
    else
      match find a with
      | none => none
      | some x => parseArgs find o (l ++ [x]) rest

/-- The nodes to begin with, src/tup/tup/main.c:610-628. -/
def start (db : Db) (o : Opts) (args : List Nat) : St :=
  if args = [] then db.modify.foldl (graphCb db o (some 0)) (db.create.foldl (graphCb db o (some 0)) init)
  else args.foldl add init

/-- `add_graph_stickies`, src/tup/graph.c:619-642. -/
def addStickies (db : Db) (s : St) : St :=
  { s with edges := s.edges ++ ((s.nodes.filter fun c => db.kind c = .cmd).flatMap fun c =>
      ((db.sticky c).filter fun i => i ∈ s.nodes).map fun i => (i, c, stickyLink)) }

/-- `graph`, src/tup/tup/main.c:549-653, after the command line has been read. -/
def build (db : Db) (o : Opts) (args : List Nat) (fuel : Nat) : Option Combine.G :=
  (loop db o fuel (start db o args)).map fun s =>
    let s := if o.stickies then addStickies db s else s
    ⟨0, s.nodes, s.edges⟩

/-- What printing a graph looks at; the types that printing does not tell apart are put together. -/
def info (db : Db) : Combine.Info where
  kind x :=
    match db.kind x with
    | .file => .file
    | .generated => .generated
    | .cmd => .cmd
    | .dir => .dir
    | .generatedDir => .generatedDir
    | _ => .other
  name := db.name
  display := db.display
  dir := db.dir

/-- `tup graph` without `--prune`, src/tup/tup/main.c:549-665. -/
def graph (find : Str → Option Nat) (db : Db) (o : Opts) (argv : List Str) (fuel : Nat) (cmdHash fileHash : Combine.G → Nat → Int) :
    Option (List Combine.Line) :=
  match parseArgs find o [] argv with
  | some (o, l, none) => (build db o l fuel).map (Combine.dumpGraph (info db) cmdHash fileHash o.dirs o.combine)
  | _ => none

end Tup.GraphCmd
