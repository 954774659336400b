import Verif.Db.Model

/-!
The entries that are kept in memory, src/tup/entry.c, beside the table `node` that they are copies of, and the functions of src/tup/db.c that read and change both.

A pointer to an entry is given by the id of the entry; that is unambiguous as long as the entry is in `tup_root`.  `refcount` is not modelled: an entry that is deleted while somebody
holds it is an internal error that ends tup (entry.c:155-158).  The memory pool is C63, the trees are C47.  After an error the callers give up, so that nothing is said about the state
then.
-/

namespace Tup.Cache

open Tup.Db (Kind)

/-- A row of table `node`, src/tup/db.c:313, without the id; and the fields of `struct tup_entry` that are copies of it, src/tup/entry.h:37-61.  `none` is NULL. -/
structure Row where
  dir : Nat
  kind : Kind
  name : Str
  mtime : Int × Int := (-1, 0)
  src : Int := -1
  display : Option Str := none
  flags : Option Str := none
deriving DecidableEq, Repr

/-- The table.  All ids are below `top`. -/
structure Table where
  row : Nat → Option Row
  top : Nat

/-- `select … where dir=? and name=?`, src/tup/db.c:6633. -/
def Table.select (t : Table) (d : Nat) (n : Str) : Option Nat :=
  (List.range t.top).find? fun i =>
    match t.row i with
    | some r => decide (r.dir = d) && decide (r.name = n)
    | none => false

/-- The first of the numbers `n - 1`, `n - 2`, … that has a row, plus one; 1 if there is none: the id that SQLite gives to a new row. -/
def fresh (row : Nat → Option Row) : Nat → Nat
  | 0 => 1
  | n + 1 => if (row n).isSome then n + 1 else fresh row n

/-- `update node … where id=?`. -/
def Table.update (t : Table) (i : Nat) (f : Row → Row) : Table :=
  { t with row := fun j => if j = i then (t.row j).map f else t.row j }

/-- `delete from node where id=?`, src/tup/db.c:1586. -/
def Table.delete (t : Table) (i : Nat) : Table := { t with row := fun j => if j = i then none else t.row j }

/-- `insert into node …`, src/tup/db.c:6526; it fails because of `unique(dir, name)`. -/
def Table.insert (t : Table) (r : Row) : Option (Table × Nat) :=
  match t.select r.dir r.name with
  | some _ => none
  | none =>
    let i := fresh t.row t.top
    some ({ row := fun j => if j = i then some r else t.row j, top := max t.top (i + 1) }, i)

/-- `update node set name=?, dir=? where id=?`, src/tup/db.c:2049; it fails if another row has the name. -/
def Table.rename (t : Table) (i : Nat) (n : Str) (d : Nat) : Option Table :=
  match t.select d n with
  | some j => if j = i then some (t.update i fun r => { r with name := n, dir := d }) else none
  | none => some (t.update i fun r => { r with name := n, dir := d })

/-- An entry: `parent` and `entries` (in which the name is the key under which the entry was put there). -/
structure Ent where
  row : Row
  parent : Option Nat := none
  kids : List (Str × Nat) := []

/-- `tup_root`, src/tup/entry.c:41. -/
structure Cache where
  ent : Nat → Option Ent := fun _ => none

/-- A write to the fields of an entry. -/
def Cache.modify (c : Cache) (i : Nat) (f : Ent → Ent) : Cache := { ent := fun j => if j = i then (c.ent j).map f else c.ent j }

/-- `new_entry`, src/tup/entry.c:474-547.  The regular expression of an exclusion is left out. -/
def Cache.new (c : Cache) (i : Nat) (r : Row) : Option Cache :=
  match c.ent i with
  | some _ => none
  | none => some { ent := fun j => if j = i then some { row := r } else c.ent j }

/-- `resolve_parent`, src/tup/entry.c:549-565. -/
def Cache.resolve (c : Cache) (i : Nat) : Option Cache :=
  match c.ent i with
  | none => none
  | some e =>
    if e.row.dir = 0 then some (c.modify i fun e => { e with parent := none })
    else
      match c.ent e.row.dir with
      | none => none
      | some p =>
        if p.kids.any fun k => decide (k.1 = e.row.name) then none
        else some ((c.modify i fun e => { e with parent := some e.row.dir }).modify e.row.dir fun p => { p with kids := (e.row.name, i) :: p.kids })

/-- `sqlite3_column_int`: the lower 32 bits, src/tup/db.c:1191-1192, 6667-6668. -/
def int32 (x : Int) : Int := x.bmod 4294967296

/-- A row as `tup_db_fill_tup_entry` (src/tup/db.c:1189-1196) and `node_select` (6665-6671) read it. -/
def Row.read (r : Row) : Row := { r with mtime := (int32 r.mtime.1, int32 r.mtime.2) }

/-- The entry that is made up for id 0, src/tup/db.c:1155-1163. -/
def rootRow : Row := { dir := 0, kind := .root, name := "{root}".toList, display := some "{root}".toList, flags := some [] }

/-- `tup_entry_add`, src/tup/entry.c:55-83, with `tup_db_fill_tup_entry`, src/tup/db.c:1141-1212.  The number bounds the recursion. -/
def addN : Nat → Table → Cache → Nat → Option Cache
  | 0, _, _, _ => none
  | n + 1, t, c, i =>
    match c.ent i with
    | some _ => some c
    | none =>
      if i = 0 then
        match c.new 0 rootRow with
        | none => none
        | some c => c.resolve 0
      else
        match t.row i with
        | none => none
        | some r =>
          match c.new i r.read with
          | none => none
          | some c =>
            match (if 0 < r.dir then addN n t c r.dir else some c) with
            | none => none
            | some c => c.resolve i

/-- The number of rows that have no entry; each call of `tup_entry_add` makes it smaller. -/
def missing (t : Table) (c : Cache) : Nat := ((List.range t.top).filter fun i => (c.ent i).isNone).length

/-- `tup_entry_add`. -/
def add (t : Table) (c : Cache) (i : Nat) : Option Cache := addN (missing t c + 1) t c i

/-- `tup_entry_add_to_dir`, src/tup/entry.c:307-322. -/
def addToDir (c : Cache) (i : Nat) (r : Row) : Option Cache :=
  match c.new i r with
  | none => none
  | some c => c.resolve i

/-- `tup_entry_find_name_in_dir`, src/tup/entry.c:103-119. -/
def findName (c : Cache) (d : Nat) (n : Str) : Option Nat :=
  match c.ent d with
  | none => none
  | some e => (e.kids.find? fun k => decide (k.1 = n)).map Prod.snd

/-- `tup_entry_find_name_in_dir_dt`, src/tup/entry.c:85-101; the outer `none` is the error. -/
def findNameDt (c : Cache) (d : Nat) (n : Str) : Option (Option Nat) :=
  if d = 0 then
    if n = ['.'] ∨ n = [] then some (if (c.ent 1).isSome then some 1 else none) else none
  else some (findName c d n)

/-- `rm_entry` with `safe` 0, src/tup/entry.c:126-164. -/
def rm (c : Cache) (i : Nat) : Option Cache :=
  match c.ent i with
  | none => some c
  | some e =>
    if e.kids.isEmpty then
      let c : Cache := { ent := fun j => if j = i then none else c.ent j }
      match e.parent with
      | none => some c
      | some p => some (c.modify p fun p => { p with kids := p.kids.filter fun k => decide (k.2 ≠ i) })
    else none

/-- `tup_entry_change_name_dt` and `change_name`, src/tup/entry.c:567-576, 669-687. -/
def changeName (c : Cache) (i : Nat) (n : Str) (d : Nat) : Option Cache :=
  match c.ent i with
  | none => none
  | some e =>
    let c :=
      match e.parent with
      | none => c
      | some p => c.modify p fun p => { p with kids := p.kids.filter fun k => decide (k.2 ≠ i) }
    (c.modify i fun e => { e with row := { e.row with name := n, dir := d } }).resolve i

/-- The table and the entries. -/
structure St where
  tab : Table
  cache : Cache := {}

/-- What is done. -/
inductive Op where
  /-- the fields of an entry, `tup_entry_add` -/
  | get (i : Nat)
  /-- the entry with a name in a directory, `node_select`, src/tup/db.c:6620-6689 -/
  | select (d : Nat) (n : Str)
  /-- a new node, `tup_db_node_insert_tent_display`, src/tup/db.c:6520-6618; the directory is that of the row -/
  | insert (r : Row)
  /-- `tup_db_set_name`, src/tup/db.c:2044-2097 -/
  | setName (i : Nat) (n : Str) (d : Nat)
  /-- `tup_db_set_type`, src/tup/db.c:2187-2227 -/
  | setKind (i : Nat) (k : Kind)
  /-- `tup_db_set_mtime`, src/tup/db.c:2229-2279 -/
  | setMtime (i : Nat) (t : Int × Int)
  /-- `tup_db_set_srcid`, src/tup/db.c:2281-2321 -/
  | setSrc (i : Nat) (s : Int)
  /-- `tup_db_set_display`, src/tup/db.c:2099-2141 -/
  | setDisplay (i : Nat) (s : Option Str)
  /-- `tup_db_set_flags`, src/tup/db.c:2143-2185 -/
  | setFlags (i : Nat) (s : Option Str)
  /-- `delete_node`, src/tup/db.c:1582-1622 -/
  | delete (i : Nat)
  /-- `tup_db_select_node_dir_glob`, src/tup/db.c:1387-1501: the types, the pattern, and the nodes that are to be deleted -/
  | glob (d : Nat) (kinds : Kind → Bool) (p : Str → Bool) (skip : Nat → Bool)
  /-- `tup_db_get_vardb`, src/tup/db.c:7604-7666, with the ids in table `var` -/
  | vars (d : Nat) (isVar : Nat → Bool)
  /-- `load_existing_nodes`, src/tup/db.c:5380-5467 -/
  | load
  /-- another process goes on -/
  | restart

/-- An entry and its id; both of which must be there. -/
def show1 (c : Cache) (i : Nat) : Option (Nat × Row) := (c.ent i).map fun e => (i, e.row)

/-- The rows in a directory that satisfy a condition. -/
def Table.inDir (t : Table) (d : Nat) (p : Nat → Row → Bool) : List (Nat × Row) :=
  (List.range t.top).filterMap fun i =>
    match t.row i with
    | some r => if r.dir = d ∧ p i r = true then some (i, r) else none
    | none => none

/-- The entries of the rows that a statement gives, added if they are not there; `f` is what is put into a new entry. -/
def fetch (f : Row → Row) : Cache → List (Nat × Row) → Option (Cache × List (Nat × Row))
  | c, [] => some (c, [])
  | c, (i, r) :: l =>
    match (match c.ent i with | some _ => some c | none => addToDir c i (f r)) with
    | none => none
    | some c =>
      match c.ent i with
      | none => none
      | some e =>
        match fetch f c l with
        | none => none
        | some (c, out) => some (c, (i, e.row) :: out)

/-- The statement of a setter, and then the field of the entry. -/
def setField (s : St) (i : Nat) (f : Row → Row) : Option (St × List (Nat × Row)) :=
  match add s.tab s.cache i with
  | none => none
  | some c => some ({ tab := s.tab.update i f, cache := c.modify i fun e => { e with row := f e.row } }, [])

/-- The rows that `load_existing_nodes` reads, src/tup/db.c:5385. -/
def loaded (k : Kind) : Bool := k = .file || k = .dir || k = .generated || k = .generatedDir

/-- The loop over the rows, src/tup/db.c:5422-5455. -/
def newAll : Cache → List (Nat × Row) → Option Cache
  | c, [] => some c
  | c, (i, r) :: l =>
    match c.new i r with
    | none => none
    | some c => newAll c l

/-- `tup_entry_resolve_dirs`, src/tup/entry.c:338-352. -/
def resolveAll : Cache → List Nat → Option Cache
  | c, [] => some c
  | c, i :: l =>
    match c.resolve i with
    | none => none
    | some c => resolveAll c l

/-- One call.  The entries that a function gets as pointers have been got before with `tup_entry_add`. -/
def step (s : St) : Op → Option (St × List (Nat × Row))
  | .get i =>
    match add s.tab s.cache i with
    | none => none
    | some c => (show1 c i).map fun x => ({ s with cache := c }, [x])
  | .select d n =>
    match add s.tab s.cache d with
    | none => none
    | some c =>
      match findNameDt c d n with
      | none => none
      | some (some i) => (show1 c i).map fun x => ({ s with cache := c }, [x])
      | some none =>
        match s.tab.select d n with
        | none => some ({ s with cache := c }, [])
        | some i =>
          match s.tab.row i with
          | none => none
          | some r =>
            match addToDir c i { r.read with name := n, dir := d } with
            | none => none
            | some c => (show1 c i).map fun x => ({ s with cache := c }, [x])
  | .insert r =>
    match add s.tab s.cache r.dir with
    | none => none
    | some c =>
      match s.tab.insert r with
      | none => none
      | some (t, i) =>
        match addToDir c i r with
        | none => none
        | some c => (show1 c i).map fun x => ({ tab := t, cache := c }, [x])
  | .setName i n d =>
    match add s.tab s.cache d with
    | none => none
    | some c =>
      match add s.tab c i with
      | none => none
      | some c =>
        match c.ent i with
        | none => none
        | some e =>
          if e.row.name = n ∧ e.row.dir = d then some ({ s with cache := c }, [])
          else
            match s.tab.rename i n d with
            | none => none
            | some t =>
              match changeName c i n d with
              | none => none
              | some c => some ({ tab := t, cache := c }, [])
  | .setKind i k => setField s i fun r => { r with kind := k }
  | .setMtime i x => setField s i fun r => { r with mtime := x }
  | .setSrc i x => setField s i fun r => { r with src := x }
  | .setDisplay i x => setField s i fun r => { r with display := x }
  | .setFlags i x => setField s i fun r => { r with flags := x }
  | .delete i =>
    match rm s.cache i with
    | none => none
    | some c => some ({ tab := s.tab.delete i, cache := c }, [])
  | .glob d kinds p skip =>
    match add s.tab s.cache d with
    | none => none
    | some c =>
      match fetch id c (s.tab.inDir d fun i r => kinds r.kind && p r.name && !skip i) with
      | none => none
      | some (c, out) => some ({ s with cache := c }, out)
  | .vars d isVar =>
    match add s.tab s.cache d with
    | none => none
    | some c =>
      match fetch (fun r => { dir := d, kind := r.kind, name := r.name }) c (s.tab.inDir d fun i _ => isVar i) with
      | none => none
      | some (c, out) => some ({ s with cache := c }, out)
  | .load =>
    let rows := (List.range s.tab.top).filterMap fun i =>
      match s.tab.row i with
      | some r => if loaded r.kind then some (i, r) else none
      | none => none
    match newAll {} rows with
    | none => none
    | some c =>
      match resolveAll c (rows.map Prod.fst) with
      | none => none
      | some c => some ({ s with cache := c }, [])
  | .restart => some ({ s with cache := {} }, [])

/-- Any number of calls, and what each returns. -/
def run : St → List Op → Option (St × List (List (Nat × Row)))
  | s, [] => some (s, [])
  | s, o :: os =>
    match step s o with
    | none => none
    | some (s, x) =>
      match run s os with
      | none => none
      | some (s, xs) => some (s, x :: xs)

/-! The inputs of a command, which are kept with its entry, src/tup/db.c:5692-5744. -/

/-- The table `sticky_link`, which nodes are groups, `sticky_count`, and `retrieved_stickies`, `stickies`, `group_stickies` of each entry. -/
structure Sticky where
  link : Nat → List Nat
  group : Nat → Bool
  count : Nat := 1
  got : Nat → Nat := fun _ => 0
  kept : Nat → List Nat := fun _ => []
  keptGroups : Nat → List Nat := fun _ => []

/-- What is done. -/
inductive SOp where
  /-- `link_insert`, src/tup/db.c:6691-6776 -/
  | insert (a b : Nat)
  /-- `link_remove`, src/tup/db.c:6778-6854 -/
  | remove (a b : Nat)
  /-- `delete_sticky_links`, src/tup/db.c:3565-3604 -/
  | clear (x : Nat)
  /-- `tup_db_get_inputs`, src/tup/db.c:5715-5744, the ordinary inputs and those that are groups -/
  | get (b : Nat)
  /-- the entry is removed, src/tup/entry.c:152-153 -/
  | forget (b : Nat)

/-- `tent_tree_add`, src/tup/tent_tree.c:43-58: an error if it is there already. -/
def treeAdd (l : List Nat) (a : Nat) : Option (List Nat) := if a ∈ l then none else some (a :: l)

/-- A function that is changed at one place. -/
def put {α : Type} (f : Nat → α) (i : Nat) (x : α) : Nat → α := fun j => if j = i then x else f j

/-- One call. -/
def sstep (s : Sticky) : SOp → Option (Sticky × List (List Nat × List Nat))
  | .insert a b =>
    if a = b ∨ a = 0 ∨ b = 0 then none
    else if a ∈ s.link b then none
    else
      let s := { s with link := put s.link b (a :: s.link b) }
      if s.got b = 0 then some (s, [])
      else
        match treeAdd (s.kept b) a with
        | none => none
        | some l =>
          let s := { s with kept := put s.kept b l }
          if s.group a then
            match treeAdd (s.keptGroups b) a with
            | none => none
            | some l => some ({ s with keptGroups := put s.keptGroups b l }, [])
          else some (s, [])
  | .remove a b =>
    let s := { s with link := put s.link b ((s.link b).filter fun x => decide (x ≠ a)) }
    if s.got b = 0 then some (s, [])
    else
      let s := { s with kept := put s.kept b ((s.kept b).filter fun x => decide (x ≠ a)) }
      if s.group a then some ({ s with keptGroups := put s.keptGroups b ((s.keptGroups b).filter fun x => decide (x ≠ a)) }, [])
      else some (s, [])
  | .clear x =>
    some ({ s with count := s.count + 1, link := fun b => if b = x then [] else (s.link b).filter fun y => decide (y ≠ x) }, [])
  | .get b =>
    let s :=
      if s.got b = s.count then s
      else
        let s := { s with kept := put s.kept b [], keptGroups := put s.keptGroups b [], got := put s.got b 0 }
        { s with got := put s.got b s.count, kept := put s.kept b (s.link b), keptGroups := put s.keptGroups b ((s.link b).filter s.group) }
    some (s, [(s.kept b, s.keptGroups b)])
  | .forget b => some ({ s with got := put s.got b 0, kept := put s.kept b [], keptGroups := put s.keptGroups b [] }, [])

/-- Any number of calls, and what they return. -/
def srun : Sticky → List SOp → Option (Sticky × List (List Nat × List Nat))
  | s, [] => some (s, [])
  | s, o :: os =>
    match sstep s o with
    | none => none
    | some (s, x) =>
      match srun s os with
      | none => none
      | some (s, xs) => some (s, x ++ xs)

end Tup.Cache
