import Verif.ConfigVar.Model
import Verif.VarStore.Spec
import Verif.DirInputs.Spec

/-! What Tupfiles are to see of tup.config, without copies, and what else may happen meanwhile. -/

namespace Tup.ConfigVar

open Tup.Db Tup.Links Tup.DirInputs Tup.VarStore

/-- The variable is in tup.config. -/
def Defined (db : Db) (v : Nat) (n : Str) : Prop := ∃ x, Value db v n x

/-- The text that the variable stands for: what tup.config says, else the platform and the architecture for two names, else nothing. -/
def Shown (k : Consts) (db : Db) (v : Nat) (n x : Str) : Prop :=
  Value db v n x ∨ ¬ Defined db v n ∧
    (n = "TUP_PLATFORM".toList ∧ x = k.platform ∨ n = "TUP_ARCH".toList ∧ x = k.arch ∨
      n ≠ "TUP_PLATFORM".toList ∧ n ≠ "TUP_ARCH".toList ∧ x = [])

/-- What the name after ifdef means: CONFIG_ in front is left out. -/
inductive Means : Str → Str → Prop where
  | config (n : Str) : Means ("CONFIG_".toList ++ n) n
  | plain {n : Str} : (¬ ∃ m, n = "CONFIG_".toList ++ m) → Means n n

/-- The Tupfile, with that tup.config, leads to those rules, and asks for those variables. -/
inductive Gives {R : Type} (k : Consts) (db : Db) (v : Nat) : Tupfile R → R → List Str → Prop where
  | done {r : R} : Gives k db v (.done r) r []
  | value {n x : Str} {next : Str → Tupfile R} {r : R} {l : List Str} :
      Shown k db v n x → Gives k db v (next x) r l → Gives k db v (.value n next) r (n :: l)
  | yes {t n : Str} {next : Bool → Tupfile R} {r : R} {l : List Str} :
      Means t n → Defined db v n → Gives k db v (next true) r l → Gives k db v (.ifdef t next) r (n :: l)
  | no {t n : Str} {next : Bool → Tupfile R} {r : R} {l : List Str} :
      Means t n → ¬ Defined db v n → Gives k db v (next false) r l → Gives k db v (.ifdef t next) r (n :: l)

/-- The state of a database with the tup.config `v`, in the middle of an update. -/
structure Ready (db : Db) (v : Nat) : Prop where
  good : Good db
  proper : Proper db v
  tidy : ∀ i, db.node i = none → db.vars i = none

/-- Another change of the database during parsing leaves the variables as they are: rules, ghosts, links, other directories. -/
structure Keeps (v : Nat) (db db' : Db) : Prop where
  ready : Ready db' v
  rows : ∀ i n, n.dir = v → (db.node i = some n ↔ db'.node i = some n)
  vars : ∀ i n, db.node i = some n → n.dir = v → db'.vars i = db.vars i

/-- What happens between two questions of a Tupfile: other changes of the database, and questions of other Tupfiles (a Tupfile
that uses files of another directory has that directory parsed in between). -/
inductive Between (k : Consts) (v : Nat) : St → St → Prop where
  | refl (s : St) : Between k v s s
  | other {s s' : St} {db : Db} : Between k v s s' → Keeps v s'.db db → Between k v s ⟨db, s'.cache⟩
  | get {s s' t : St} {n x : Str} {i : Nat} : Between k v s s' → getVar k v s' n = some (t, x, i) → Between k v s t

/-- A Tupfile is parsed: the rules, and the entries that were put into the set of inputs. -/
inductive Parsed {R : Type} (k : Consts) (v : Nat) : St → Tupfile R → St → R → List Nat → Prop where
  | done {s s' : St} {r : R} : Between k v s s' → Parsed k v s (.done r) s' r []
  | ask {s s1 s2 s' : St} {p q : Tupfile R} {i : Nat} {r : R} {l : List Nat} :
      Between k v s s1 → ask k v s1 p = some (s2, q, i) → Parsed k v s2 q s' r l → Parsed k v s p s' r (i :: l)

end Tup.ConfigVar
