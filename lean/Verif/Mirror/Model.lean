import Verif.Strings.Model

/-!
The directories of the table of nodes when build directories ("variants") are in use: how the tree of the sources is repeated below every build directory.  src/tup/updater.c:841-859, 871-895,
1019-1037, 1156-1265, 1384-1488; src/tup/db.c:1622-1655, 1700-1766, 1858-1930; src/tup/create_name_file.c:300-420.

The table holds directories only (`TUP_NODE_DIR`).  A row holds the whole path of its directory where the table has the id of the parent and a name: two rows of the table never have the same
parent and name, so that this is a matter of writing.  A ghost, a file and a directory that tup made (`TUP_NODE_GENERATED_DIR`) are no rows; `get_rel_tent` turns each of them into a
directory with the fields a new one gets.  The system calls (`mkdirat`, `unlinkat`) succeed.
-/

namespace Tup.Mirror

abbrev Path := List Str

/-- The column `srcid`: -1, `VARIANT_SRCDIR_REMOVED` (-2, src/tup/variant.h), or the id of the directory of the sources that this one stands for. -/
inductive Src where
  | none
  | gone
  | of (id : Nat)
  deriving DecidableEq, Repr

structure Row where
  id : Nat
  path : Path
  src : Src
  deriving DecidableEq, Repr

/-- The rows; the ids in `create_list`; the links from the file of rules of a directory of the sources (or from the ghost where such a file was looked for) to a directory of a build directory
that was parsed with it, as pairs (source, build), see C69; and the build directories that are in use. -/
structure St where
  rows : List Row
  flags : List Nat
  links : List (Nat × Nat)
  tops : List Path
  deriving DecidableEq, Repr

/-- `DOT_DT`, src/tup/db_types.h. -/
def dot : Nat := 1

/-- A new database, `tup_db_create`, src/tup/db.c:306-378: the top directory only. -/
def init : St := ⟨[⟨dot, [], .none⟩], [], [], []⟩

/-- `node_select` by directory and name. -/
def rowAt (s : St) (p : Path) : Option Row := s.rows.find? (fun r => r.path == p)

/-- `tup_entry_add`: the row of an id. -/
def row? (s : St) (i : Nat) : Option Row := s.rows.find? (fun r => r.id == i)

/-- `tup_entry_variant`, src/tup/entry.c:424-447: the build directory that a directory is in; `none` for the root variant. -/
def variantOf (s : St) (p : Path) : Option Path := s.tops.find? (fun t => t.isPrefixOf p)

/-- The id that sqlite gives to a new row: one more than the largest.  Simplified: the ids of the other kinds of nodes are left out. -/
def fresh (s : St) : Nat := s.rows.foldr (fun r n => max r.id n) 0 + 1

/-- `tup_db_add_create_list`, src/tup/db.c:2728-2762. -/
def flag (s : St) (i : Nat) : St := { s with flags := i :: s.flags }

/-- `tup_db_set_srcid` for the directory with that path. -/
def setSrc (s : St) (p : Path) (x : Src) : St := { s with rows := s.rows.map (fun r => if r.path = p then { r with src := x } else r) }

/-- The ids of the directories that `P` holds of. -/
def idsOf (s : St) (P : Path → Bool) : List Nat := (s.rows.filter (fun r => P r.path)).map (·.id)

/-- `tup_db_create_node_srcid` for a directory, src/tup/db.c:1000-1139 with `node_insert` 6500-6512: a directory that is there gets the `srcid`, a new one is flagged too. -/
def ensure (s : St) (p : Path) (i : Nat) : St :=
  match rowAt s p with
  | some _ => setSrc s p (.of i)
  | none => flag { s with rows := s.rows ++ [⟨fresh s, p, .of i⟩] } (fresh s)

/-- `get_rel_tent`, src/tup/updater.c:1156-1220, for the directory with the path `done ++ rest`: the parents first.  The parents of an entry are in memory, so that the `none` does not come
up. -/
def getRel (s : St) (top done : Path) : Path → St
  | [] => s
  | n :: rest =>
    match rowAt s (done ++ [n]) with
    | none => s
    | some q => getRel (ensure s (top ++ (done ++ [n])) q.id) top (done ++ [n]) rest

/-- Rows that go, with their flags and links: `delete_name_file`, src/tup/delete_name_file.c:29-45.  Simplified: the links of a ghost Tupfile that stays are dropped too. -/
def remove (s : St) (P : Path → Bool) : St :=
  let dead := idsOf s P
  { s with rows := s.rows.filter (fun r => !P r.path), flags := s.flags.filter (· ∉ dead), links := s.links.filter (fun l => l.1 ∉ dead ∧ l.2 ∉ dead) }

/-- A directory that a scan or the monitor finds, `watch_path_internal`, src/tup/path.c:70-82.  The id may be that of a ghost, so it comes from outside.  `flagged`: a new row is flagged
(`node_insert`, src/tup/db.c:6507), a ghost that becomes a directory is not (src/tup/db.c:1038-1047), unless a file is found in it (`create_name_file`, src/tup/create_name_file.c:52). -/
def mkdir (s : St) (p : Path) (id : Nat) (flagged : Bool) : Option St :=
  match p with
  | [] => none
  | _ :: _ =>
    if (rowAt s p).isSome || (rowAt s p.dropLast).isNone || (row? s id).isSome then none
    else
      let s := { s with rows := s.rows ++ [⟨id, p, .none⟩] }
      some (if flagged then flag s id else s)

/-- A directory that a scan or the monitor misses, with everything below it: `tup_del_id_type`, src/tup/create_name_file.c:354-420, and `tup_db_delete_dir`, src/tup/db.c:1622-1655.
Not modelled: the removal of a build directory itself or of a directory with a build directory in it (see `dropVariant` for what the update makes of the first), and
`tup_db_set_srcid_dir_flags`, which adds flags. -/
def rmdir (s : St) (p : Path) : Option St :=
  if p = [] ∨ (rowAt s p).isNone ∨ s.tops.any (fun t => p.isPrefixOf t) then none
  else
    let del := s.rows.filter (fun r => p.isPrefixOf r.path)
    match variantOf s p with
    | some _ =>
      -- src/tup/create_name_file.c:372-388: the directory that it stands for is parsed again, if it is there
      let again := del.filterMap (fun r => match r.src with
        | .of i => if (row? s i).isSome then some i else none
        | _ => none)
      some (remove { s with flags := again ++ s.flags } (p.isPrefixOf ·))
    | none =>
      -- src/tup/create_name_file.c:396-411: what depends on its Tupfile is flagged, what stands for it has lost it; 416-419: the parent is flagged
      let deps := (s.links.filter (fun l => del.any (fun r => r.id == l.1))).map (·.2)
      let rows := s.rows.map (fun r => if s.tops.any (fun t => del.any (fun d => r.path == t ++ d.path)) then { r with src := .gone } else r)
      let up := match rowAt s p.dropLast with
        | some q => [q.id]
        | none => []
      some (remove { s with rows := rows, flags := up ++ deps ++ s.flags } (p.isPrefixOf ·))

/-- Other reasons for which a directory is parsed again: files that appear in it or go from it, changes of the files that it depends on. -/
def touch (s : St) (i : Nat) : Option St :=
  if (row? s i).isSome then some (flag s i) else none

/-- `tup_db_change_node`, src/tup/db.c:2017-2042, and `recurse_modify_dir` 1827-1856: the monitor saw that a directory was moved; the rows keep their ids.  Only for directories of the sources
that have no build directory in them. -/
def move (s : St) (p q : Path) : Option St :=
  if p = [] ∨ q = [] ∨ (rowAt s p).isNone ∨ (rowAt s q).isSome ∨ (rowAt s q.dropLast).isNone ∨ p.isPrefixOf q ∨ (variantOf s p).isSome ∨ (variantOf s q).isSome ∨
      s.tops.any (fun t => p.isPrefixOf t) then none
  else
    let mov := s.rows.filter (fun r => p.isPrefixOf r.path)
    let deps := (s.links.filter (fun l => mov.any (fun r => r.id == l.1))).map (·.2)
    some { s with rows := s.rows.map (fun r => if p.isPrefixOf r.path then { r with path := q ++ r.path.drop p.length } else r), flags := mov.map (·.id) ++ deps ++ s.flags }

/-- `duplicate_directory_structure`, src/tup/db.c:1858-1912, for the directories that are in no build directory (the new one `p` counts as one); what is made is flagged, 1895. -/
def duplicate (s : St) (p : Path) : St :=
  let srcs := s.rows.filter (fun r => r.path != [] && (variantOf s r.path).isNone)
  let s := srcs.foldl (fun s q => ensure s (p ++ q.path) q.id) s
  { s with flags := idsOf s (fun x => p.isPrefixOf x) ++ s.flags }

/-- A new `tup.config` makes `p` a build directory: `process_config_nodes`, src/tup/updater.c:1019-1033 and 1121-1126: `check_empty_variant` (797-839) wants nothing else in it;
`delete_variant_dirs` (841-859) deletes what stands for it in the other build directories, looked up *by its last name*; then the directories are duplicated.  The directory itself was flagged
when `tup.config` was found (`create_name_file`, src/tup/create_name_file.c:52). -/
def newVariant (s : St) (p : Path) : Option St :=
  match p.getLast? with
  | none => none
  | some n =>
    if (rowAt s p).isNone ∨ (variantOf s p).isSome ∨ s.rows.any (fun r => p.isPrefixOf r.path && r.path != p) then none
    else
      let s1 := remove (setSrc s p (.of dot)) (fun x => s.tops.any (fun t => (t ++ [n]).isPrefixOf x))
      some (duplicate { s1 with tops := p :: s1.tops } p)

/-- The `tup.config` of a build directory is gone: `recurse_delete_variant`, src/tup/updater.c:871-895, for a build directory right below the top; `kept`: the directory is still there. -/
def dropVariant (s : St) (t : Path) (kept : Bool) : Option St :=
  if t ∈ s.tops ∧ t.length = 1 then
    let s1 := remove s (fun x => t.isPrefixOf x && (x != t || !kept))
    some { s1 with tops := s1.tops.filter (· != t), flags := idsOf s1 (· == t) ++ s1.flags }
  else none

/-- The state in the loop of `process_create_nodes`: the table, the nodes that are marked for removal (`removing_list`), and the nodes that were added to the graph. -/
structure Loop where
  s : St
  marked : List Nat
  graph : List Nat

/-- One node of the loop, src/tup/updater.c:1407-1475.  A row that `srcid` names and that is not there is a ghost, 1457-1460 (or an error of the update). -/
def visit (l : Loop) (id : Nat) : Loop :=
  match row? l.s id with
  | none => l
  | some r =>
    match variantOf l.s r.path with
    | none => l.s.tops.foldl (fun l t => let s := getRel l.s t [] r.path; ⟨s, l.marked, idsOf s (· == t ++ r.path) ++ l.graph⟩) l
    | some _ =>
      match r.src with
      | .none => l
      | .gone => { l with marked := id :: l.marked }
      | .of i =>
        match row? l.s i with
        | none => { l with marked := id :: l.marked }
        | some q => if i ≠ dot ∧ q.path.getLast? ≠ r.path.getLast? then { l with marked := id :: l.marked } else l

/-- For `sorted`. -/
def insertSorted (i : Nat) : List Nat → List Nat
  | [] => [i]
  | j :: l => if i ≤ j then i :: j :: l else j :: insertSorted i l

/-- `select * from create_list`: by id. -/
def sorted : List Nat → List Nat
  | [] => []
  | i :: l => insertSorted i (sorted l)

/-- `process_create_nodes`, src/tup/updater.c:1384-1645, when it succeeds: the loop over the flagged nodes (the nodes that the loop itself adds would change nothing); the marked directories
are deleted with everything below them, 1478-1488; all the directories of the graph are parsed, which links them to the Tupfile of their source (C69), and their flags go (`create_work`,
2084-2112). -/
def update (s : St) : St :=
  let l := (sorted s.flags).foldl visit ⟨s, [], []⟩
  let bad := (l.s.rows.filter (fun r => r.id ∈ l.marked)).map (·.path)
  let s1 := remove l.s (fun x => bad.any (fun b => b.isPrefixOf x))
  let done := s.flags ++ l.graph
  let new := s1.rows.filterMap (fun r => match r.src with
    | .of i => if r.id ∈ done then some (i, r.id) else none
    | _ => none)
  { s1 with links := new ++ s1.links, flags := s1.flags.filter (· ∉ done) }

end Tup.Mirror
