import Verif.Basic

/-!
The part of SQL that the upgrades of the database are written in.

SQLite itself is not modelled; this is the meaning its manual gives to the statements of
src/tup/db.c:471-664.  Left out: the types of the columns (SQLite does not enforce them), the
internal number of a row in tables without an integer primary key, storage and concurrency, and the
default of a column in a later `insert` (no statement inserts into a table that has such a column
without naming it).  A
table is a list of rows in the order in which a scan finds them.  A condition is a formula without
negation, so a condition that is unknown because of a NULL never has to be told from a false one.
-/

namespace Tup.Upgrade

/-- A value in a row.  (SQLite's storage classes NULL, INTEGER and TEXT; the database has no others.) -/
inductive Val
  | null
  | int (n : Int)
  | text (s : Str)
  deriving DecidableEq, Repr

/-- The tables that occur in src/tup/db.c:312-330 and 471-664. -/
inductive Tab
  | node | nodeNew | link | linkNew | normalLink | stickyLink | groupLink
  | var | config | configList | createList | modifyList | deleteList | ghostList | variantList | transientList
  deriving DecidableEq, Repr

/-- The columns that occur in src/tup/db.c:312-330 and 471-664. -/
inductive Col
  | id | dir | type | sym | mtime | mtimeNs | srcid | name | display | flags
  | fromId | toId | style | cmdid | value | lval | rval
  deriving DecidableEq, Repr

/-- The indexes that occur in src/tup/db.c:312-330 and 471-664. -/
inductive Idx
  | nodeDir | nodeSym | link | link2 | normal2 | sticky2 | group2 | srcid
  deriving DecidableEq, Repr

/-- A row: the value of each column.  Columns that the table does not have are never looked at, because a statement that names one is an error. -/
abbrev Row := Col → Val

/-- What `create table` says about a table: src/tup/db.c:313-323. -/
structure Schema where
  cols : List Col
  /-- `integer primary key` -/
  key : Option Col
  notNull : List Col
  unique : List (List Col)
  deriving DecidableEq, Repr

/-- A table with its rows. -/
structure Table where
  schema : Schema
  rows : List Row

/-- A database: the tables by name, and for each index its table and columns. -/
structure Db where
  tables : Tab → Option Table
  indexes : Idx → Option (Tab × List Col)

/-- The conditions of the `where` clauses in src/tup/db.c:471-664. -/
inductive Cond
  | all
  | eq (c : Col) (v : Val)
  | ne (c : Col) (v : Val)
  | and (a b : Cond)
  | or (a b : Cond)
  /-- `c in (select id from t where k=v)` -/
  | inSel (c : Col) (t : Tab) (k : Col) (v : Val)
  /-- `exists (select id from t as o where o.c=c for all c in cs and o.k!=v)` -/
  | existsOther (t : Tab) (cs : List Col) (k : Col) (v : Val)
  deriving DecidableEq, Repr

/-- What to do with a row that breaks a constraint: `insert`, `insert or ignore`, `insert or replace`. -/
inductive Or
  | abort | ignore | replace
  deriving DecidableEq, Repr

/-- What `update … set` writes: a value, another column, or `(select id from t where a=x and b=y)`. -/
inductive Expr
  | val (v : Val)
  | col (c : Col)
  | find (t : Tab) (a : Col) (x : Val) (b : Col) (y : Val)
  deriving DecidableEq, Repr

/-- The statements of src/tup/db.c:471-664. -/
inductive Stmt
  | createTable (t : Tab) (s : Schema)
  | createIndex (i : Idx) (t : Tab) (cs : List Col)
  | dropIndex (i : Idx)
  | dropTable (t : Tab)
  | rename (a b : Tab)
  | addColumn (t : Tab) (c : Col) (default : Val)
  | insertSelect (o : Or) (into : Tab) (from_ : Tab) (cs : List Col) (w : Cond)
  | insertValues (o : Or) (into : Tab) (vs : List (Col × Val))
  | update (t : Tab) (c : Col) (e : Expr) (w : Cond)
  | delete (t : Tab) (w : Cond)
  deriving DecidableEq, Repr

/-- `a = b` in SQL: unknown when one of them is NULL. -/
def sqlEq (a b : Val) : Bool := a != .null && a == b

/-- `a != b` in SQL: unknown when one of them is NULL. -/
def sqlNe (a b : Val) : Bool := a != .null && b != .null && a != b

/-- The rows of a table; a table that is not there is found out by `Cond.ok` before. -/
def Db.rows (d : Db) (t : Tab) : List Row :=
  match d.tables t with
  | none => []
  | some x => x.rows

/-- The columns of a table. -/
def Db.cols (d : Db) (t : Tab) : List Col :=
  match d.tables t with
  | none => []
  | some x => x.schema.cols

/-- Every table and column named in a condition on a table with columns `cs` is there. -/
def Cond.ok (d : Db) (cs : List Col) : Cond → Bool
  | .all => true
  | .eq c _ => cs.contains c
  | .ne c _ => cs.contains c
  | .and a b => a.ok d cs && b.ok d cs
  | .or a b => a.ok d cs && b.ok d cs
  | .inSel c t k _ => cs.contains c && (d.cols t).contains .id && (d.cols t).contains k
  | .existsOther t es k _ => es.all (fun c => cs.contains c && (d.cols t).contains c) && (d.cols t).contains k

/-- Whether a condition is true for a row. -/
def Cond.holds (d : Db) (r : Row) : Cond → Bool
  | .all => true
  | .eq c v => sqlEq (r c) v
  | .ne c v => sqlNe (r c) v
  | .and a b => a.holds d r && b.holds d r
  | .or a b => a.holds d r || b.holds d r
  | .inSel c t k v => (d.rows t).any fun o => sqlEq (o k) v && sqlEq (r c) (o .id)
  | .existsOther t cs k v => (d.rows t).any fun o => cs.all (fun c => sqlEq (r c) (o c)) && sqlNe (o k) v

/-- Every table and column named in an expression is there. -/
def Expr.ok (d : Db) (cs : List Col) : Expr → Bool
  | .val _ => true
  | .col c => cs.contains c
  | .find t a _ b _ => (d.cols t).contains .id && (d.cols t).contains a && (d.cols t).contains b

/-- The value of an expression for a row; a `select` without a result is NULL, otherwise the first row counts. -/
def Expr.value (d : Db) (r : Row) : Expr → Val
  | .val v => v
  | .col c => r c
  | .find t a x b y =>
    match (d.rows t).find? (fun o => sqlEq (o a) x && sqlEq (o b) y) with
    | none => .null
    | some o => o .id

/-- Two rows have the same values in these columns; NULL is not the same as NULL. -/
def sameIn (cs : List Col) (a b : Row) : Bool := cs.all fun c => sqlEq (a c) (b c)

/-- Two rows may not be in the table together. -/
def Schema.clash (s : Schema) (a b : Row) : Bool := (s.key.toList.map ([·]) ++ s.unique).any fun cs => sameIn cs a b

/-- A column that must not be NULL is NULL. -/
def Schema.missing (s : Schema) (r : Row) : Bool := s.notNull.any fun c => r c == .null

/-- The larger of a number and the key of a row. -/
def maxKey (k : Col) (m : Int) (r : Row) : Int :=
  match r k with
  | .int n => max m n
  | _ => m

/-- The next value of an `integer primary key` that is not given. -/
def nextKey (rows : List Row) (k : Col) : Int := rows.foldl (maxKey k) 0 + 1

/-- A row with an `integer primary key` that is not given gets the next one. -/
def withKey (s : Schema) (rows : List Row) (r : Row) : Row :=
  match s.key with
  | none => r
  | some k => if r k = .null then fun c => if c = k then .int (nextKey rows k) else r c else r

/-- Insert one row. -/
def insertRow (o : Or) (s : Schema) (rows : List Row) (r0 : Row) : Option (List Row) :=
  let r := withKey s rows r0
  if s.missing r then (if o = .ignore then some rows else none)
  else if rows.any (s.clash r) then
    match o with
    | .abort => none
    | .ignore => some rows
    | .replace => some (rows.filter (fun x => !s.clash r x) ++ [r])
  else some (rows ++ [r])

/-- Insert rows one after another. -/
def insertRows (o : Or) (s : Schema) : List Row → List Row → Option (List Row)
  | rows, [] => some rows
  | rows, r :: rs =>
    match insertRow o s rows r with
    | none => none
    | some rows' => insertRows o s rows' rs

/-- Change one row after another; each changed row must fit with the changed rows before it and the rows after it. -/
def updateRows (s : Schema) (c : Col) (f : Row → Val) (w : Row → Bool) : List Row → List Row → Option (List Row)
  | done, [] => some done
  | done, r :: rs =>
    if w r then
      let r' : Row := fun k => if k = c then f r else r k
      if s.missing r' || (done ++ rs).any (s.clash r') then none
      else updateRows s c f w (done ++ [r']) rs
    else updateRows s c f w (done ++ [r]) rs

/-- Replace a table. -/
def Db.set (d : Db) (t : Tab) (x : Option Table) : Db := { d with tables := fun u => if u = t then x else d.tables u }

/-- The row with these values, NULL elsewhere. -/
def rowOf : List (Col × Val) → Row
  | [], _ => .null
  | (k, v) :: r, c => if c = k then v else rowOf r c

/-- Run a statement; `none` is an error of SQLite (`sqlite3_exec` does not return 0, src/tup/db.c:705). -/
def exec (d : Db) : Stmt → Option Db
  | .createTable t s =>
    match d.tables t with
    | some _ => none
    | none => some (d.set t (some ⟨s, []⟩))
  | .createIndex i t cs =>
    if (d.indexes i).isSome || (d.tables t).isNone || !cs.all (d.cols t).contains then none
    else some { d with indexes := fun j => if j = i then some (t, cs) else d.indexes j }
  | .dropIndex i =>
    match d.indexes i with
    | none => none
    | some _ => some { d with indexes := fun j => if j = i then none else d.indexes j }
  | .dropTable t =>
    match d.tables t with
    | none => none
    | some _ => some { d.set t none with indexes := fun j => (d.indexes j).filter fun x => x.1 ≠ t }
  | .rename a b =>
    match d.tables a, d.tables b with
    | some x, none => some { (d.set a none).set b (some x) with indexes := fun j => (d.indexes j).map fun x => if x.1 = a then (b, x.2) else x }
    | _, _ => none
  | .addColumn t c v =>
    match d.tables t with
    | none => none
    | some x =>
      if x.schema.cols.contains c then none
      else some (d.set t (some ⟨{ x.schema with cols := x.schema.cols ++ [c] }, x.rows.map fun r k => if k = c then v else r k⟩))
  | .insertSelect o into src cs w =>
    match d.tables into, d.tables src with
    | some x, some y =>
      if !(cs.all y.schema.cols.contains && w.ok d y.schema.cols) || cs.length ≠ x.schema.cols.length then none
      else
        (insertRows o x.schema x.rows ((y.rows.filter fun r => w.holds d r).map fun r => rowOf (x.schema.cols.zip (cs.map r)))).map
          fun rows => d.set into (some ⟨x.schema, rows⟩)
    | _, _ => none
  | .insertValues o into vs =>
    match d.tables into with
    | none => none
    | some x =>
      if !vs.all (fun v => x.schema.cols.contains v.1) then none
      else (insertRow o x.schema x.rows (rowOf vs)).map fun rows => d.set into (some ⟨x.schema, rows⟩)
  | .update t c e w =>
    match d.tables t with
    | none => none
    | some x =>
      if !(x.schema.cols.contains c && e.ok d x.schema.cols && w.ok d x.schema.cols) then none
      else (updateRows x.schema c (fun r => e.value d r) (fun r => w.holds d r) [] x.rows).map fun rows => d.set t (some ⟨x.schema, rows⟩)
  | .delete t w =>
    match d.tables t with
    | none => none
    | some x =>
      if !w.ok d x.schema.cols then none
      else some (d.set t (some ⟨x.schema, x.rows.filter fun r => !w.holds d r⟩))

/-- Run statements until one fails: src/tup/db.c:702-711. -/
def execAll (d : Db) : List Stmt → Option Db
  | [] => some d
  | s :: r =>
    match exec d s with
    | none => none
    | some d' => execAll d' r

end Tup.Upgrade
