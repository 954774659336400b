import Verif.RunScript.Model

/-!
What a script that a Tupfile runs sees of directories, and which rules its output stands for, without the functions of the
model.
-/

namespace Tup.RunScript

open Tup.Db

/-- A variant is built and `d` is the image of directory `s` of the source tree. -/
def Image (cx : Cx) (db : Db) (d s : Nat) : Prop := cx.root = false ∧ ∃ n, db.node d = some n ∧ n.src = some s

/-- One of the nodes of tup in the top directory that stand for no file. -/
def Virtual (n : Node) : Prop := n.dir = 1 ∧ (n.name = ['$'] ∨ n.name = ['/'] ∨ n.name = ['^'])

/-- The database knows a file or a directory with that name in the directory, or in the source directory of which it
is an image; and the file is not one that lost its rule. -/
def Visible (cx : Cx) (w : W) (d : Nat) (name : Str) : Prop :=
  ∃ i n, w.db.node i = some n ∧ n.name = name ∧ (n.dir = d ∨ Image cx w.db d n.dir) ∧
    (n.kind = .file ∨ n.kind = .generated ∨ n.kind = .dir) ∧ w.gone i = false ∧ ¬ Virtual n

/-- The directory from which directory `d` of a variant comes. -/
def ComesFrom (cx : Cx) (db : Db) (d s : Nat) : Prop :=
  cx.inRoot d = false ∧ (∃ n, db.node d = some n ∧ n.src = some s) ∧ ∃ m, db.node s = some m

/-- Scripts see a directory under the path of its source directory. -/
inductive SeenAt (cx : Cx) (db : Db) (d : Nat) : Str → Prop
  | source {s : Nat} : ComesFrom cx db d s → SeenAt cx db d (cx.path db s)
  | itself : (∀ s, ¬ ComesFrom cx db d s) → SeenAt cx db d (cx.path db d)

/-- The names are exactly the visible ones, each once. -/
def Lists (cx : Cx) (w : W) (d : Nat) (l : List Str) : Prop := l.Nodup ∧ ∀ x, x ∈ l ↔ Visible cx w d x

/-- A directory at a certain time. -/
abbrev Moment := W × Nat

/-- The last of the moments at which a directory that is seen at path `q` was looked at. -/
def Latest (cx : Cx) (h : List Moment) (q : Str) (w : W) (d : Nat) : Prop :=
  ∃ h1 h2, h = h1 ++ (w, d) :: h2 ∧ SeenAt cx w.db d q ∧ ∀ m ∈ h2, ¬ SeenAt cx m.1.db m.2 q

/-- The states while a Tupfile is read, with the moments at which directories were looked at: those that `preload` names
when it is done, and the own one when a script is started. -/
inductive Reach (cx : Cx) (w : W) (env : List Nat) : List Moment → St → Prop
  | start : Reach cx w env [] { w, dirs := [], ins := [], env, fail := false }
  | preload {h st words st' ds} : Reach cx w env h st → preload cx st words = .ok (st', ds) →
      Reach cx w env (h ++ ds.map fun d => (st'.w, d)) st'
  | run {h st sc st'} : Reach cx w env h st → (run cx st sc).2 = some st' → Reach cx w env (h ++ [(st.w, cx.me)]) st'
  | exports {h st v} : Reach cx w env h st → Reach cx w env h { st with env := st.env ++ [v] }
  | other {h st w' ins'} {f : W → List Nat → Option (W × List Nat)} : Reach cx w env h st → f st.w st.ins = some (w', ins') →
      Reach cx w env h { st with w := w', ins := ins' }

/-- The word of a `preload` names the directory. -/
def Names (cx : Cx) (db : Db) (s : Str) (i : Nat) : Prop :=
  ∃ d last n m, cx.fill db s = some (d, last) ∧ db.node d = some n ∧ db.node i = some m ∧ m.kind = .dir ∧
    (last = ['.', '.'] ∧ n.dir = i ∧ i ≠ 0 ∨ last ≠ ['.', '.'] ∧ m.dir = d ∧ m.name = last)

/-- Two lists of the same length whose elements correspond. -/
inductive Each {α β : Type} (r : α → β → Prop) : List α → List β → Prop
  | nil : Each r [] []
  | cons {a b l m} : r a b → Each r l m → Each r (a :: l) (b :: m)

/-- A way a script can go: what it is answered, and how it ends. -/
inductive Ends : Script → Log → Bool → Str → Prop
  | done {ok out} : Ends (.done ok out) [] ok out
  | list {path k a log ok out} : Ends (k a) log ok out → Ends (.list path k) ((path, a) :: log) ok out

/-- The lines of a text in which every line is ended. -/
def Lines (s : Str) (ls : List Str) : Prop := s = (ls.map (· ++ ['\n'])).flatten ∧ ∀ l ∈ ls, '\n' ∉ l

/-- The part of a text before the first byte 0. -/
def Before0 (out s : Str) : Prop := '\x00' ∉ s ∧ (out = s ∨ ∃ rest, out = s ++ '\x00' :: rest)

/-- The lines are taken one after the other: those that begin with a colon are rules, and the others empty or comments. -/
inductive Follows (rule : W → List Nat → Str → Option (W × List Nat)) : W → List Nat → List Str → W → List Nat → Prop
  | nil {w ins} : Follows rule w ins [] w ins
  | blank {w ins ls w' ins'} : Follows rule w ins ls w' ins' → Follows rule w ins ([] :: ls) w' ins'
  | comment {w ins l ls w' ins'} : Follows rule w ins ls w' ins' → Follows rule w ins (('#' :: l) :: ls) w' ins'
  | rule {w ins l ls w1 ins1 w' ins'} : rule w ins l = some (w1, ins1) → Follows rule w1 ins1 ls w' ins' →
      Follows rule w ins ((':' :: l) :: ls) w' ins'

/-- The own directory is in the database, its path is not too long, and the directory it comes from exists. -/
def Listable (cx : Cx) (w : W) (d : Nat) : Prop :=
  (∃ n, w.db.node d = some n) ∧ (∀ q, SeenAt cx w.db d q → q.length < 4096) ∧
    ∀ s, Image cx w.db d s → ∃ m, w.db.node s = some m

/-- Nothing that became an input of the Tupfile is forgotten. -/
def Keeps (f : W → List Nat → Option (W × List Nat)) : Prop :=
  ∀ w ins w' ins', f w ins = some (w', ins') → ∀ i ∈ ins, i ∈ ins'

/-- The rules and the other lines of the Tupfile are such. -/
def AllKeep (cx : Cx) (ops : List Op) : Prop :=
  (∀ s, Keeps fun w ins => cx.rule w ins s) ∧ ∀ f, Op.other f ∈ ops → Keeps f

end Tup.RunScript
