import Verif.Basic

/-!
How the process is started that runs the commands: `server_pre_init` (src/tup/server/master_fork.c:150-261), for Linux.
-/

namespace Tup.PreInit

/-- What the system does in one attempt: which calls succeed. `deny`: 89-114, `uid` and `gid`: 116-140, `told`: the byte could be written. -/
structure Attempt where
  pgid : Bool
  sockets : Bool
  fork : Bool
  unshare : Bool
  deny : Bool
  uid : Bool
  gid : Bool
  told : Bool
  close : Bool
  read : Bool
  wait : Bool
  thread : Bool

/-- `noNs`: TUP_NO_NAMESPACING is set; `privileged`: `tup_privileged()`, the effective user is root (fuse_server.c:879-884); `full`: updater.full_deps.
`attempt`: what the system does in the attempts. -/
structure World where
  noNs : Bool
  privileged : Bool
  full : Bool
  attempt : Nat → Attempt

/-- How the forked process goes on: it runs commands, with mount namespaces or not (`master_fork_loop`); it exits; or it returns from
`server_pre_init` with an error, like the process that forked it. -/
inductive Child where
  | loop (namespacing : Bool)
  | exits
  | returns
  deriving DecidableEq

/-- What the parent reads: nothing, as the other end was closed, or a byte. -/
inductive Token where
  | eof
  | one
  | two
  deriving DecidableEq

/-- The forked process, master_fork.c:175-226; `ns` is `use_namespacing`. The `privileged` of master_fork.c:79 stays 0 on Linux. -/
def child (w : World) (a : Attempt) (ns : Bool) : Child × Token :=
  let ns := ns && !w.noNs
  if !w.privileged && ns && a.unshare && !a.deny then (.exits, if a.told then .two else .eof)
  else if !w.privileged && ns && a.unshare && !(a.uid && a.gid) then (.returns, .eof)
  else
    let ns := if !w.privileged && ns && !a.unshare then false else ns
    if w.full && !ns then (.returns, .eof)
    else if !a.told then (.returns, .eof)
    else (.loop ns, .one)

/-- What comes of it: whether it succeeded, and all processes that were forked. -/
structure Result where
  ok : Bool
  children : List Child
  deriving DecidableEq

/-- `server_pre_init`, master_fork.c:150-261, from the `n`-th attempt on; `ns` is `use_namespacing` of the parent. -/
def preInit (w : World) (n : Nat) (ns : Bool) : Result :=
  let a := w.attempt n
  if !a.pgid || !a.sockets || !a.fork then ⟨false, []⟩
  else
    let (c, t) := child w a ns
    if !a.close || !a.read then ⟨false, [c]⟩
    else if h : t = .two ∧ ns = true then
      if !a.wait then ⟨false, [c]⟩
      else
        let r := preInit w (n + 1) false
        ⟨r.ok, c :: r.children⟩
    else if t ≠ .one then ⟨false, [c]⟩
    else if !a.thread then ⟨false, [c]⟩
    else ⟨true, [c]⟩
termination_by if ns then 1 else 0
decreasing_by simp [h.2]

/-- The descriptors of the socket pair, master_fork.c:160-169: first /dev/null is opened, which gets the lowest free number. -/
structure Numbers (used : Nat → Bool) where
  tmp : Nat
  tmpFree : used tmp = false
  tmpLowest : ∀ n, used n = false → tmp ≤ n
  a : Nat
  b : Nat
  aFree : used a = false ∧ a ≠ tmp
  bFree : used b = false ∧ b ≠ tmp ∧ b ≠ a

end Tup.PreInit
