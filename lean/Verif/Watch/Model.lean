/-!
Model of the table of watches of the file monitor: src/tup/dircache.c, with `wp_callback` (src/tup/monitor/inotify.c:711-731),
`monitor_rmdir_cb` (1094-1103), what `queue_event` (752-761) and `handle_event` (1105-1135) do with it, and how it is cleared when events
were lost (287-298).  Strings and the database play no part.  A watch is the number that inotify gave for it, a directory is its node.

The trees are those of `tupid_tree.c` (`RB_HEAD` of tree.h).  The tree by watches is never changed behind its back, so that it is a list
of pairs here.  The tree by directories is kept as a binary tree, since `queue_event` changes the key of a node in it; how it is balanced
is a parameter: `bal` takes a tree to one with the same nodes in the same order.  `tupid_tree_cmp` (tupid_tree.c:26-29) subtracts numbers
of 64 bits and returns an `int`; that is right for numbers below 2^31, which is assumed.
-/

namespace Tup.Watch

/-- `struct tupid_entries` with the nodes `dt_node`; a node is named by the watch of its `struct dircache` (dircache.h). -/
inductive Tree where
  | leaf
  | node (l : Tree) (w : Nat) (r : Tree)

def Tree.inorder : Tree → List Nat
  | .leaf => []
  | .node l w r => l.inorder ++ w :: r.inorder

/-- `struct dircache_root`, dircache.h: the watches with their directories (`none`: the number is -1, the entry is disabled), and the
tree by directories. -/
structure Cache where
  entries : List (Nat × Option Nat)
  tree : Tree

/-- `dircache_init`, dircache.c:26-30. -/
def empty : Cache := { entries := [], tree := .leaf }

/-- The search for a watch in a list of entries. -/
def find (w : Nat) : List (Nat × Option Nat) → Option (Option Nat)
  | [] => none
  | (v, d) :: l => if v = w then some d else find w l

/-- `dircache_lookup_wd`, dircache.c:61-69. -/
def Cache.lookupWd (c : Cache) (w : Nat) : Option (Option Nat) := find w c.entries

/-- `dt_node.tupid` of the entry of a watch. (Every node of the tree has an entry.) -/
def Cache.key (c : Cache) (w : Nat) : Int :=
  match c.lookupWd w with
  | some (some d) => d
  | _ => -1

/-- `RB_FIND` by `tupid_tree_cmp`, tupid_tree.c:26-39. -/
def search (key : Nat → Int) (d : Int) : Tree → Option Nat
  | .leaf => none
  | .node l w r => if d < key w then search key d l else if key w < d then search key d r else some w

/-- `dircache_lookup_dt`, dircache.c:71-79. -/
def Cache.lookupDt (c : Cache) (d : Nat) : Option Nat := search c.key d c.tree

/-- `RB_INSERT` before the tree is balanced: `none` if the key is there already. -/
def insert (key : Nat → Int) (w : Nat) : Tree → Option Tree
  | .leaf => some (.node .leaf w .leaf)
  | .node l v r =>
    if key w < key v then (insert key w l).map fun l => .node l v r
    else if key v < key w then (insert key w r).map fun r => .node l v r
    else none

def join : Tree → Tree → Tree
  | .leaf, t => t
  | .node l w r, t => .node l w (join r t)

/-- `RB_REMOVE` before the tree is balanced; the node is known, it is not looked for. -/
def remove (w : Nat) : Tree → Tree
  | .leaf => .leaf
  | .node l v r => if v = w then join (remove w l) (remove w r) else .node (remove w l) v (remove w r)

/-- `dircache_del`, dircache.c:54-59. `none`: the node is not in the tree by directories (see `add`), and `RB_REMOVE` uses its pointers,
which have not been set. -/
def del (bal : Tree → Tree) (c : Cache) (w : Nat) : Option Cache :=
  if w ∈ c.tree.inorder then some { entries := c.entries.filter fun e => e.1 ≠ w, tree := bal (remove w c.tree) } else none

/-- `dircache_add`, dircache.c:32-52. The results of the insertions are ignored: if the directory is in the tree already, the new entry
is only in the tree by watches. Running out of memory is not modelled. -/
def add (bal : Tree → Tree) (c : Cache) (w d : Nat) : Option Cache :=
  match (if (c.lookupWd w).isSome then del bal c w else some c) with
  | none => none
  | some c =>
    let c := { c with entries := (w, some d) :: c.entries }
    match insert c.key w c.tree with
    | some t => some { c with tree := bal t }
    | none => some c

/-- What happens to the table. -/
inductive Op where
  /-- `wp_callback`, inotify.c:711-731: inotify gives watch `w` for directory `d` -/
  | watch (w d : Nat)
  /-- `monitor_rmdir_cb`, inotify.c:1094-1103: directory `d` is taken out of the database -/
  | gone (d : Nat)
  /-- `queue_event`, inotify.c:752-761: inotify has told that watch `w` has come to its end -/
  | queued (w : Nat)
  /-- `handle_event`, inotify.c:1109-1120: this event is handled -/
  | handled (w : Nat)

/-- `dc->dt_node.tupid = -1`, inotify.c:754-760, if there is an entry. -/
def disable (c : Cache) (w : Nat) : Cache := { c with entries := c.entries.map fun e => if e.1 = w then (e.1, none) else e }

def step (bal : Tree → Tree) (c : Cache) : Op → Option Cache
  | .watch w d => add bal c w d
  | .gone d =>
    match c.lookupDt d with
    | some w => del bal c w
    | none => some c
  | .queued w => some (disable c w)
  | .handled w => if (c.lookupWd w).isSome then del bal c w else some c

def run (bal : Tree → Tree) : Cache → List Op → Option Cache
  | c, [] => some c
  | c, o :: l =>
    match step bal c o with
    | some c => run bal c l
    | none => none

/-- The loop that clears the table when events were lost, inotify.c:294-298, in the order of some list of the watches. -/
def clear (bal : Tree → Tree) : List Nat → Cache → Option Cache
  | [], c => some c
  | w :: l, c =>
    match del bal c w with
    | some c => clear bal l c
    | none => none

/-- What `handle_event` makes of the watch of another event, inotify.c:1122-1135. -/
inductive Target where
  /-- an error: the monitor stops -/
  | unknown
  /-- the event is skipped -/
  | skipped
  /-- the event is about something in that directory -/
  | dir (d : Nat)
  deriving DecidableEq

def target (c : Cache) (w : Nat) : Target :=
  match c.lookupWd w with
  | none => .unknown
  | some none => .skipped
  | some (some d) => .dir d

end Tup.Watch
