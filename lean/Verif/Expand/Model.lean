import Verif.Relative.Model

/-!
Model of the expansion of `%<group>` and `%<group>.res` in a command before it is run (src/tup/updater.c:2711-2876).
-/

namespace Tup.Expand

open Tup.Relative (Table relative)

/-- What the expansion looks up.

* `T`: the entries (`tup_entry_get`); `fuel` bounds the depth of the tree;
* `dir`: `tent->parent`, the directory of the command; `cwd`: `variant_tent_to_srctent(tent->parent)`, the directory
  in which it runs (updater.c:2997, 3028), the same except in a variant;
* `groups`: `group_sticky_root`, the groups that are declared inputs of the command, ordered by id;
* `name`: `name.s` of a group; `inputs`: `tup_db_get_inputs`, the normal inputs of a group ordered by id;
* `generated`: the type is TUP_NODE_GENERATED. -/
structure Env where
  T : Table
  fuel : Nat
  dir : Nat
  cwd : Nat
  groups : List Nat
  name : Nat → Str
  inputs : Nat → List Nat
  generated : Nat → Bool

/-- Why an expansion fails: no `>`, no such group among the inputs, a path that cannot be made. -/
inductive Err where
  | noEnd | noGroup | noPath
deriving DecidableEq, Repr

/-- Lines 2743-2749: how one path is written, to a file (`f`) or into the command (`e`).  The state is `first` and
what is written. -/
def emit (toFile : Bool) (s : Bool × Str) (p : Str) : Bool × Str :=
  let t := if toFile = false ∧ s.1 = false then s.2 ++ [' '] else s.2
  let t := t ++ p
  (false, if toFile then t ++ ['\n'] else t)

/-- The inner loop of `expand_group`, updater.c:2740-2751. -/
def addInputs (v : Env) (toFile : Bool) : List Nat → Bool × Str → Option (Bool × Str)
  | [], s => some s
  | i :: is, s =>
    if v.generated i then
      match relative v.T v.fuel v.cwd i '/' with
      | none => none
      | some p => addInputs v toFile is (emit toFile s p)
    else addInputs v toFile is s

/-- The loop of `expand_group`, updater.c:2727-2755.  `memcmp` looks at the first `grouplen` bytes of the name, so
every group whose name begins with `nm` is taken.  (It may look beyond the end of a shorter name; the first
difference is at or before its end.)  The state is `first`, the text and the groups used. -/
def addGroups (v : Env) (toFile : Bool) (nm : Str) : List Nat → (Bool × Str) × List Nat → Option ((Bool × Str) × List Nat)
  | [], s => some s
  | g :: gs, (s, used) =>
    if nm.isPrefixOf (v.name g) then
      match addInputs v toFile (v.inputs g) s with
      | none => none
      | some s => addGroups v toFile nm gs (s, used ++ [g])
    else addGroups v toFile nm gs (s, used)

/-- `expand_group`, updater.c:2721-2763: the text, and what is added to `used_groups_root`. -/
def expandGroup (v : Env) (toFile : Bool) (nm : Str) : Except Err (Str × List Nat) :=
  match addGroups v toFile nm v.groups ((true, []), []) with
  | none => .error .noPath
  | some (s, used) => if used = [] then .error .noGroup else .ok (s.2, used)

/-- The number of directories above `id`, updater.c:2784-2788.  `none`: an entry is missing. -/
def ups (T : Table) : Nat → Nat → Option Nat
  | 0, _ => none
  | fuel + 1, id =>
    match T id with
    | none => none
    | some n =>
      match n.parent with
      | none => some 0
      | some p => (ups T fuel p).map (· + 1)

/-- The name of a resource file, updater.c:2790.  The buffer of 32 bytes is enough for any `int`. -/
def resName (k : Nat) : Str := ".tup/tmp/res-".toList ++ Nat.toDigits 10 k

/-- `strstr(tcmd, "%<")`: what is before it, and what follows the `%`. -/
def cut : Str → Option (Str × Str)
  | [] => none
  | c :: r =>
    if c = '%' ∧ r.head? = some '<' then some ([], r)
    else (cut r).map fun (a, b) => (c :: a, b)

/-- `strchr(percgroup, '>')`: up to and including it, and what follows. -/
def close : Str → Option (Str × Str)
  | [] => none
  | c :: r => if c = '>' then some ([c], r) else (close r).map fun (a, b) => (c :: a, b)

/-- The text so far, the resource files that are written with their contents, the static counter `resfile`, and
`used_groups_root` (a set in the code). -/
structure Acc where
  text : Str
  files : List (Nat × Str)
  next : Nat
  used : List Nat
deriving DecidableEq, Repr

/-- `expand_res_file`, updater.c:2774-2814.  A resource file that is left behind by an error is not modelled. -/
def resFile (v : Env) (nm : Str) (a : Acc) : Except Err Acc :=
  match ups v.T v.fuel v.dir with
  | none => .error .noPath
  | some n =>
    match expandGroup v true nm with
    | .error e => .error e
    | .ok (t, used) =>
      .ok { text := a.text ++ (List.replicate n "../".toList).flatten ++ resName a.next
            files := a.files ++ [(a.next, t)], next := a.next + 1, used := a.used ++ used }

/-- `expand_group_inline`, updater.c:2765-2771. -/
def inline (v : Env) (nm : Str) (a : Acc) : Except Err Acc :=
  match expandGroup v false nm with
  | .error e => .error e
  | .ok (t, used) => .ok { a with text := a.text ++ t, used := a.used ++ used }

/-- The loop of `expand_command`, updater.c:2842-2869.  Each round takes at least two characters; running out of
rounds counts as `noEnd` and does not happen (`c62_reading`, `c62_expanded`). -/
def loop (v : Env) : Nat → Str → Acc → Except Err Acc
  | 0, _, _ => .error .noEnd
  | n + 1, t, a =>
    match cut t with
    | none => .ok { a with text := a.text ++ t }
    | some (pre, r) =>
      match close r with
      | none => .error .noEnd
      | some (nm, rest) =>
        let a := { a with text := a.text ++ pre }
        if ".res".toList.isPrefixOf rest then
          match resFile v nm a with
          | .error e => .error e
          | .ok a => loop v n (rest.drop 4) a
        else
          match inline v nm a with
          | .error e => .error e
          | .ok a => loop v n rest a

/-- `expand_command`, updater.c:2816-2876, with the value of the counter before.  Without `%<` the result is NULL in
the code and the caller takes the command as it is (3019-3020). -/
def expand (v : Env) (next : Nat) (cmd : Str) : Except Err Acc := loop v (cmd.length + 1) cmd ⟨[], [], next, []⟩

end Tup.Expand
