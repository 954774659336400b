import Verif.Relative.Model
import Verif.Printf.Model

/-!
Model of the commands `!tup_ln` and `!tup_preserve` (src/tup/updater.c:2882-2923 and 3025-3031, src/tup/server/symlink.c:31-53, src/tup/parser.c:521-541).
-/

namespace Tup.LnCmd

open Tup (Str isSpace skipSpaces)
open Tup.Relative (Table relative)

/-- The results of `input_and_output_from_cmd`: `ub` if it reads behind the end of the string, `tooLong` for `NULL`. -/
inductive Words where
  | ub
  | tooLong
  | ok (input output : Str)
deriving DecidableEq

/-- `input_and_output_from_cmd`, updater.c:2882-2900.  The NUL byte is no white space, so that the second loop passes it if there is no space behind the first word. -/
def words (cmd : Str) : Words :=
  let s := skipSpaces cmd
  let r := s.dropWhile fun c => !isSpace c
  if r = [] then .ub
  else if (s.takeWhile fun c => !isSpace c).length ≥ 4096 - 1 then .tooLong
  else .ok (s.takeWhile fun c => !isSpace c) (skipSpaces r)

/-- What comes of it: undefined behaviour, an error, or the call `symlinkat(target, dfd, path)` with the source directory of the command. -/
inductive Out where
  | ub
  | err
  | link (target path : Str)
deriving DecidableEq

/-- `server_symlink`, symlink.c:31-53, up to the call of `symlinkat`: `src` is the source directory of the command, `parent` the directory of the output. -/
def symlink (T : Table) (fuel : Nat) (src : Nat) (parent : Nat) (target path : Str) : Out :=
  match relative T fuel parent src '/' with
  | none => .err
  | some e => .link (e ++ ['/'] ++ target) path

/-- `do_ln`, updater.c:2902-2923: `outs` are the directories of the outputs of the command.  Without an output `output_tent` is `NULL`, and `server_symlink` reads its parent. -/
def doLn (T : Table) (fuel : Nat) (src : Nat) (outs : List Nat) (cmd : Str) : Out :=
  match words cmd with
  | .ub => .ub
  | w =>
    match outs with
    | _ :: _ :: _ => .err
    | outs =>
      match w with
      | .ok input output =>
        match outs with
        | [] => .ub
        | parent :: _ => symlink T fuel src parent input output
      | _ => .err

/-- What `update` does with a command, updater.c:3025-3031: the text for `do_ln`, or `none` if it is run in a shell. -/
def builtin (cmd : Str) : Option Str :=
  if "!tup_ln ".toList.isPrefixOf cmd then some (cmd.drop 8)
  else if "!tup_preserve ".toList.isPrefixOf cmd then some (cmd.drop 14)
  else none

/-- The commands of the macros, parser.c:521-522. -/
def lnText : Str := "!tup_ln %f %o".toList
def preserveText : Str := "!tup_preserve %f %o".toList

end Tup.LnCmd
