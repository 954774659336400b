import Verif.Basic

/-!
The reference counts of the entries (`struct tup_entry`): sets of entries (src/tup/tent_tree.c), lists of entries (src/tup/tent_list.c), and
how an entry is removed from memory, `rm_entry` and `tup_entry_clear` (src/tup/entry.c:125-168 and 594-629).

An entry is given by its id, which also stands for its address. That is unambiguous as long as no entry is made with the id of one that is
still in memory. `tent_tree_cmp` (tent_tree.c:27-30) compares the ids by a difference that is cut to an int; the model compares them as numbers,
which is the same while ids differ by less than 2^31. There is one thread; the entries that are made in another thread are not modelled, nor is
a lack of memory. `tent->incoming` and `tent->variant` are pointers that are not counted; they are not modelled.
-/

namespace Tup.Refs

/-- The sets and lists: those of the program, the two sets that each entry has, and `ghost_root` (src/tup/db.c:7075-7078). -/
inductive Key where
  | tree (n : Nat)
  | list (n : Nat)
  | sticky (i : Nat)
  | group (i : Nat)
  | ghost
  deriving DecidableEq

/-- `mem`: the entries in memory with their `refcount`; `root`: the ids in `tup_root`; `parent`: the entry in whose `entries` it is.
`held`: which entries the sets and lists point to; the order of a list is the one in `held`. -/
structure St where
  mem : Nat → Option Int
  parent : Nat → Option Nat
  root : List Nat
  held : List (Key × Nat)

/-- `ub`: memory is used that was freed. `hang`: a loop that does not end. -/
inductive Res where
  | ok (s : St)
  | err (s : St)
  | ub
  | hang

/-- `tup_entry_del_ref` and `tup_entry_add_ref`, entry.c:409-417. -/
def ref (s : St) (i : Nat) (d : Int) : Option St :=
  match s.mem i with
  | none => none
  | some r => some { s with mem := fun k => if k = i then some (r + d) else s.mem k }

/-- `tent_tree_add` and, with `dup`, `tent_tree_add_dup`, tent_tree.c:40-77. -/
def add (s : St) (k : Key) (i : Nat) (dup : Bool) : Res :=
  if (k, i) ∈ s.held then (if dup then .ok s else .err s)
  else match ref s i 1 with
    | none => .ub
    | some s => .ok { s with held := (k, i) :: s.held }

/-- `tent_tree_remove`, tent_tree.c:106-123. -/
def remove (s : St) (k : Key) (i : Nat) : Option St :=
  if (k, i) ∈ s.held then (ref s i (-1)).map fun s => { s with held := s.held.erase (k, i) } else some s

/-- The entries lose a reference each. -/
def release : List (Key × Nat) → St → Option St
  | [], s => some s
  | p :: l, s => (ref s p.2 (-1)).bind (release l)

/-- `free_tent_tree`, tent_tree.c:125-132, and `free_tent_list`, tent_list.c:63-70. -/
def freeAll (s : St) (k : Key) : Option St :=
  (release (s.held.filter fun p => decide (p.1 = k)) s).map fun s' => { s' with held := s.held.filter fun p => decide (p.1 ≠ k) }

/-- `tent_list_add_head` and `tent_list_add_tail`, tent_list.c:28-54. -/
def push (s : St) (k : Key) (i : Nat) (tail : Bool) : Res :=
  match ref s i 1 with
  | none => .ub
  | some s => .ok { s with held := if tail then s.held ++ [(k, i)] else (k, i) :: s.held }

/-- `rm_entry`, entry.c:125-168. -/
def rmEntry (s : St) (i : Nat) (safe : Bool) : Res :=
  if i ∉ s.root then .ok s
  else if s.root.any fun c => decide (s.parent c = some i) then (if safe then .ok s else .err s)
  else
    match remove s .ghost i with
    | none => .ub
    | some s =>
      match (freeAll { s with root := s.root.erase i } (.sticky i)).bind (freeAll · (.group i)) with
      | none => .ub
      | some s =>
        match s.mem i with
        | none => .ub
        | some r => if r ≠ 0 then .err s else .ok { s with mem := fun k => if k = i then none else s.mem k }

/-- One pass over all entries, entry.c:623-626; `RB_FOREACH_SAFE` goes over those that were there when it began, as a step removes the
entry that it is at and no other. -/
def pass : List Nat → St → Res
  | [], s => .ok s
  | i :: l, s =>
    match rmEntry s i true with
    | .ok s => pass l s
    | r => r

/-- The outer loop, entry.c:620-627; a pass is in the order of the ids. A pass that removes nothing is repeated for ever. -/
def clearLoop (s : St) : Res :=
  if s.root = [] then .ok s
  else
    match pass (s.root.mergeSort (· ≤ ·)) s with
    | .ok s' => if s'.root.length < s.root.length then clearLoop s' else .hang
    | r => r
termination_by s.root.length

/-- The sets of the entries, entry.c:604-608. -/
def dropSets : List Nat → St → Option St
  | [], s => some s
  | i :: l, s => ((freeAll s (.sticky i)).bind (freeAll · (.group i))).bind (dropSets l)

/-- `tup_entry_clear`, entry.c:594-629. -/
def clear (s : St) : Res :=
  match dropSets s.root s with
  | none => .ub
  | some s => clearLoop s

/-- `new_entry` and `resolve_parent`, entry.c:478-566: the entry is made even if there is an error with its parent. Not modelled: the error that
the parent has an entry with that name, and a regular expression that is wrong. An id that is still in memory is refused here. -/
def create (s : St) (i : Nat) (parent : Option Nat) : Res :=
  if i ∈ s.root ∨ s.mem i ≠ none then .err s
  else
    let s' : St := { s with mem := fun k => if k = i then some 0 else s.mem k, parent := fun k => if k = i then none else s.parent k, root := i :: s.root }
    match parent with
    | none => .ok s'
    | some p => if p ∈ s.root then .ok { s' with parent := fun k => if k = i then some p else s.parent k } else .err s'

/-- The set is still in memory: the sets of an entry are part of it, entry.h:47-48. -/
def there (s : St) : Key → Bool
  | .sticky i | .group i => (s.mem i).isSome
  | _ => true

/-- What the program can do, entry.c, tent_tree.c, tent_list.c. -/
inductive Op where
  | create (i : Nat) (parent : Option Nat)
  | add (k : Key) (i : Nat) (dup : Bool)
  | remove (k : Key) (i : Nat)
  | free (k : Key)
  | push (n i : Nat) (tail : Bool)
  | pop (n i : Nat)
  | rm (i : Nat)
  deriving DecidableEq

/-- One of them; to use a set or an entry that is no longer in memory is undefined. `pop` is `tent_list_delete`, tent_list.c:56-61, of the first element with that entry. -/
def step (s : St) : Op → Res
  | .create i p => create s i p
  | .add k i dup => if there s k = false ∨ s.mem i = none then .ub else add s k i dup
  | .remove k i => if there s k = false ∨ s.mem i = none then .ub else match remove s k i with | none => .ub | some s => .ok s
  | .free k => if there s k = false then .ub else match freeAll s k with | none => .ub | some s => .ok s
  | .push n i tail => push s (.list n) i tail
  | .pop n i => match remove s (.list n) i with | none => .ub | some s => .ok s
  | .rm i => rmEntry s i false

/-- No entry is in memory. -/
def empty : St where
  mem := fun _ => none
  parent := fun _ => none
  root := []
  held := []

end Tup.Refs
