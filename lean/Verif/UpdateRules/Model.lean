import Verif.Update.Spec

/-!
Model of what a change of the rules does to the database and the files: the parsing phase of an update that
leads from the rules `π` to the rules `π'` (src/tup/parser.c, src/tup/db.c, `delete_files` of
src/tup/updater.c).  It adds to the histories of `Verif/Update`, where the rules are fixed.

The parsing itself is modelled elsewhere (C27, C50, …); here its result `π'` is given, and only the changes
that `tup_db_write_outputs`, `tup_db_write_inputs`, `create_command_file`, the creation of output nodes and
`delete_files` make to the tables used by the update are modelled.  Left out, as in `Verif/Update`: groups,
transient files, directories, variants, environment variables.
-/

namespace Tup.Update

variable (π π' : Proj)

/-- `x` is a command of the old and of the new rules: the parser found its command string in the directory, or
a command that has the same outputs (src/tup/parser.c:3580-3616). -/
def kept (x : Nat) : Bool := π.nodes.contains x && π.isCmd x && (π'.nodes.contains x && π'.isCmd x)

/-- An output of the old rules that no rule writes any more and that is deleted: it is in `gen_delete_root`.
One that is on the modify list (the user has changed it) is in `save_root` instead and becomes a normal file
(`split_roots`, src/tup/parser.c:501-521). -/
def lost (db : DB) (p : Nat) : Bool := π.gen p && !(π'.gen p) && !(db.modify p)

/-- The outputs of `x` are not the same as before: `outputs_differ` of `tup_db_write_outputs`,
src/tup/db.c:6384-6396. -/
def outsDiffer (x : Nat) : Bool :=
  !((π.outs x).all (π'.outs x).contains && (π'.outs x).all (π.outs x).contains)

/-- Parsing makes a kept command run again because of its input `p`, and takes the link away: the command used
`p`, and either no longer lists it (`rm_sticky`, src/tup/db.c:5946-5974), or `p` became an output of a
command (`tup_db_modify_cmds_by_input` and `tup_db_delete_links` for a ghost that becomes a generated node,
1013-1033) or is no output any more (`delete_files`, src/tup/updater.c:690-693 with
src/tup/create_name_file.c:481-487, and 730-734). -/
def inputDropped (p x : Nat) : Bool :=
  ((π.sticky x).contains p && !((π'.sticky x).contains p)) || (π.gen p != π'.gen p)

/-- The parsing phase of an update, from the rules `π` to the rules `π'`.  `changed` are the commands whose
string or flags changed (`command_modified`, src/tup/parser.c:3605-3631); `ghost` are the nodes that exist as
ghosts.  `none`: an output exists as a normal file, an error (`validate_output`, src/tup/parser.c:3194-3203); then the database
transaction is rolled back.  New commands are put on the modify list (`create_command_file`,
src/tup/create_name_file.c:57-70, with `node_insert`, src/tup/db.c:6596-6602). -/
def parse (changed ghost : Nat → Bool) (w : W) : Option W :=
  if π'.nodes.any fun p => π'.gen p && !(π.gen p) && (w.db.known p).isSome then none
  else some
    { content := fun p => if lost π π' w.db p then none else w.content p
      db :=
        { known := fun p => if lost π π' w.db p then none else w.db.known p
          link := fun p x => kept π π' x && w.db.link p x && !(inputDropped π π' p x)
          modify := fun x =>
            if π'.isCmd x then
              !(kept π π' x) || w.db.modify x || changed x || outsDiffer π π' x ||
                π.nodes.any fun p => w.db.link p x && inputDropped π π' p x
            else w.db.modify x && !(lost π π' w.db x) || (ghost x && !(π.gen x) && π'.gen x) } }

/-- `changed` tells of every kept command that does something else than before, or has the ^o flag where it
had not or the other way round. -/
def TellsChanges (changed : Nat → Bool) : Prop :=
  ∀ x, kept π π' x = true → changed x = false → π'.beh x = π.beh x ∧ π'.optO x = π.optO x

/-- All rules and states after any history of edits, scans, updates and crashes, in which the rules may be
changed at any time.  `good` restricts the changes of the rules. -/
inductive Hist (clean : Bool) (good : Proj → Proj → W → Prop) : Proj → W → Prop where
  | init {π w} (ok : π.Ok) (h : Init π w) : Hist clean good π w
  | step {π w w'} (h : Hist clean good π w) (hs : Step π clean w w') : Hist clean good π w'
  | parse {π π' w w'} {changed ghost : Nat → Bool} (h : Hist clean good π w) (ok : π'.Ok)
      (hc : TellsChanges π π' changed) (hg : good π π' w) (hp : parse π π' changed ghost w = some w') :
      Hist clean good π' w'

end Tup.Update
