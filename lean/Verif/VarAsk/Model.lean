import Verif.Config.Model
import Verif.DirInputs.Model
import Verif.Pel.Model

/-!
Model of how tup comes to know which variables of tup.config a command looks at.  The client library opens a file in the
directory `@tup@`, which is not there (src/tup/vardict.c:109-121, src/tup/send_event.c), the file system of the server notes
the name (src/tup/server/fuse_fs.c:319-435), and when the command has ended its inputs are set (src/tup/file.c:842-876).

The names here are those after `peel`, src/tup/server/fuse_fs.c:142-163: the process asks under the directory of its own job
(C70), and `get_finfo` finds that job.  `context_check` lets it in and memory suffices.
-/

namespace Tup.VarAsk

open Tup.Db Tup.Links Tup.DirInputs

/-- `TUP_VAR_VIRTUAL_DIR`, src/tup/access_event.h:35. -/
def virtualDir : Str := "@tup@".toList

/-- `get_virtual_var`, src/tup/server/fuse_fs.c:319-340: what follows the first "@tup@" behind the top directory. -/
def virtualVar (top peeled : Str) : Option Str :=
  if top.isPrefixOf peeled then
    match peeled.drop top.length with
    | '/' :: rest => (strstr virtualDir rest).map (·.2)
    | _ => none
  else none

/-- What the lists of `struct file_info`, src/tup/file.h, have to do with this: the files that the command has made (name and name
of the file with the content), its temporary directories, the files read and the variables. -/
structure Info where
  maps : List (Str × Str)
  tmpdirs : List Str
  reads : List Str
  vars : List Str

/-- The top directory, and what `fstatat` finds: `some true` is a directory. -/
structure World where
  top : Str
  real : Str → Option Bool

/-- What the kernel is told: a directory, something else, or an error. -/
inductive Ans where
  | dir
  | file
  | error
deriving DecidableEq

/-- `is_ccache_path`, src/tup/ccache.c:24-37. -/
def ccache (f : Str) : Bool :=
  (strstr "/.ccache".toList f).isSome || (strstr "/.cache/ccache".toList f).isSome || (strstr "/ccache-tmp/".toList f).isSome

/-- `ignore_file`, src/tup/server/fuse_fs.c:283-294. -/
def ignoreFile (f : Str) : Bool :=
  "/dev".toList.isPrefixOf f || "/sys".toList.isPrefixOf f || "/proc".toList.isPrefixOf f || ccache f

/-- `find_mapping`, src/tup/server/fuse_fs.c:229-241. -/
def findMap (f : Str) : List (Str × Str) → Option Str
  | [] => none
  | (r, t) :: l => if r = f then some t else findMap f l

/-- `tup_fuse_handle_file` with `ACCESS_READ` and no second name, src/tup/server/fuse_fs.c:296-317, and `handle_open_file`,
src/tup/file.c:209-211. -/
def handleRead (f : Str) (s : Info) : Info := if ignoreFile f then s else { s with reads := s.reads ++ [f] }

/-- `fstatat`, src/tup/server/fuse_fs.c:426-431. -/
def answer : Option Bool → Ans
  | some true => .dir
  | some false => .file
  | none => .error

/-- `tup_fs_getattr`, src/tup/server/fuse_fs.c:344-435, with `handle_open_file` for variables, src/tup/file.c:219-221.  `fstat` of
the top directory does not fail. -/
def getattr (w : World) (s : Info) (f : Str) : Ans × Info :=
  if f = ".tup/mnt".toList ∨ (strstr "/.tup/mnt".toList f).isSome then (.error, s)
  else if f ∈ s.tmpdirs then (.dir, s)
  else
    let peeled := (findMap f s.maps).getD f
    match virtualVar w.top peeled with
    | some [] => (.dir, s)
    | some (_ :: v) => (.error, { s with vars := s.vars ++ [v] })
    | none => (answer (w.real peeled), handleRead f s)

/-- The text of a directory that is given by the names that lead to it from the root. -/
def pathText (l : List Str) : Str := if l = [] then "/".toList else l.flatMap fun n => '/' :: n

/-- The longest name that the kernel passes to a FUSE file system (`FUSE_NAME_MAX` of Linux). -/
def nameMax : Nat := 1024

/-- How the kernel goes along the names of a path that is opened: each name is looked up in the directory reached so far.
This is not tup's and is trusted.  Simplified: symbolic links on the way are not followed, and directories the kernel has
just looked up are looked up again. -/
def walk (w : World) : Info → List Str → List Str → Info
  | s, _, [] => s
  | s, at_, n :: l =>
    if n = ".".toList then walk w s at_ l
    else if n = "..".toList then walk w s at_.dropLast l
    else if n.length > nameMax then s
    else
      match getattr w s (pathText (at_ ++ [n])) with
      | (.dir, s) => walk w s (at_ ++ [n]) l
      | (_, s) => s

/-- The kernel takes a path apart at the slashes. -/
def splitSlash : Str → List Str
  | [] => [[]]
  | c :: s =>
    if c = '/' then [] :: splitSlash s
    else
      match splitSlash s with
      | [] => [[c]]
      | n :: l => (c :: n) :: l

/-- The names of a path. -/
def components (s : Str) : List Str := (splitSlash s).filter fun n => !n.isEmpty

/-- `tup_send_event`, src/tup/send_event.c:25-37, from the directory `cwd`; the path is relative.  `open` on a name that cannot
be looked up does nothing else. -/
def sendEvent (w : World) (cwd : List Str) (s : Info) (key : Str) : Info :=
  let path := virtualDir ++ '/' :: key.takeWhile (· ≠ Char.ofNat 0)
  if path.length ≥ 4096 then s else walk w s cwd (components path)

/-- A program that uses the client library: what it puts out, or a call of `tup_config_var` with what it does after that.
What the program reads besides is the same each time. -/
inductive Prog where
  | done (out : Str)
  | ask (key : Str) (next : Option Str → Prog)

/-- Run a program in `cwd`; `look` is what `tup_config_var` finds (C17).  The call is reported before the value is
searched, src/tup/vardict.c:121. -/
def Prog.run (w : World) (look : Str → Option Str) (cwd : List Str) : Prog → Info → Str × Info
  | .done out, s => (out, s)
  | .ask key next, s => Prog.run w look cwd (next (look key)) (sendEvent w cwd s key)

set_option linter.unusedVariables false in
/-- `var_replace`, src/tup/varsed.c:86-133, as such a program; `out` is what has been written.  It is the loop of
`Tup.Config.replace` (C18). -/
def sed (bin : Bool) (s out : Str) : Prog :=
  match h : s.dropWhile (· != '@') with
  | [] => .done (out ++ s.takeWhile (· != '@'))
  | _ :: r =>
    match h' : r.dropWhile Config.isWord with
    | [] => .done (out ++ s.takeWhile (· != '@') ++ '@' :: r.takeWhile Config.isWord)
    | d :: t =>
      if d = '@' then
        .ask (r.takeWhile Config.isWord) fun v =>
          sed bin t (out ++ s.takeWhile (· != '@') ++ Config.value (fun _ => v) bin (r.takeWhile Config.isWord))
      else sed bin (d :: t) (out ++ s.takeWhile (· != '@') ++ '@' :: r.takeWhile Config.isWord)
termination_by s.length
decreasing_by
  all_goals
    have h1 : (s.dropWhile (· != '@')).length ≤ s.length := (List.dropWhile_suffix _).length_le
    have h2 : (r.dropWhile Config.isWord).length ≤ r.length := (List.dropWhile_suffix _).length_le
    rw [h] at h1
    rw [h'] at h2
    simp only [List.length_cons] at h1 h2 ⊢
    omega

/-- The names that `add_node_to_tree`, src/tup/file.c:334-357, follows for a path; none if it is hidden or outside of the project
(src/tup/create_name_file.c:568-575; without `updater.full_deps`).  A path can always be taken apart (C11). -/
def elements (top f : Str) : List Str :=
  match Pel.getPathElements top f with
  | none => []
  | some r => if r.hidden || r.outside then [] else r.elems

/-- `update_read_info`, src/tup/file.c:842-876: the files read, the variables in the tup.config `vardt` of the variant, the groups
that were used; then the inputs are checked and recorded (C24).  `reads` are the files that no exclusion of the command
matches.  Simplified: a variable whose recorded name begins with a slash is looked for in the tup.config as well. -/
def updateReads (top : Str) (db : Db) (env cmd vardt : Nat) (variant : Nat → Option Nat) (outputs groups : List Nat)
    (reads vars : List Str) : Option (Db × Bool × Bool) :=
  let r := touched db vardt (reads.map (elements top)) (vars.map (elements top))
  checkInputs r.1 env cmd variant outputs (groups.foldl (fun l g => addId g l) r.2)

end Tup.VarAsk
