import Verif.Pel.Model

/-! What paths mean. -/

namespace Tup.Pel

/-- `Comps s l`: the path `s` consists of the components `l`, with slashes between them, in front of them and behind
them. -/
inductive Comps : Str → List Str → Prop
  | nil {w} : (∀ c ∈ w, c = '/') → Comps w []
  | cons {w e t l} : (∀ c ∈ w, c = '/') → e ≠ [] → '/' ∉ e → (∀ c, t.head? = some c → c = '/') → Comps t l →
      Comps (w ++ e ++ t) (e :: l)

/-- A name, as opposed to `.` and `..`. -/
def Name (s : Str) : Prop := s ≠ [] ∧ '/' ∉ s ∧ s ≠ ".".toList ∧ s ≠ "..".toList

/-- Walking along components in a tree without symbolic links.  A place is the list of names that leads to it from the
root; `D` are the places that exist.  The parent of the root is the root. -/
inductive Leads (D : List Str → Prop) : List Str → List Str → List Str → Prop
  | here {p} : Leads D p [] p
  | dot {p l q} : Leads D p l q → Leads D p (".".toList :: l) q
  | up {p l q} : Leads D p.dropLast l q → Leads D p ("..".toList :: l) q
  | down {p n l q} : Name n → D (p ++ [n]) → Leads D (p ++ [n]) l q → Leads D p (n :: l) q

/-- Normal form: `..` at the beginning, then names. -/
def Normal (l : List Str) : Prop := ∃ k ns, l = List.replicate k "..".toList ++ ns ∧ ∀ n ∈ ns, Name n

/-- A path made of components. -/
def text (l : List Str) : Str := List.intercalate "/".toList l

/-- An absolute path made of components. -/
def absText (l : List Str) : Str := "/".toList ++ text l

/-- The names that tup does not look at. -/
def hiddenNames : List Str :=
  [".tup".toList, ".git".toList, ".hg".toList, ".bzr".toList, ".svn".toList, ".ccache".toList]

/-- The text of an absolute directory, as `getcwd` gives it. -/
def dirText (rs : List Str) : Str := if rs = [] then "/".toList else rs.flatMap fun r => '/' :: r

/-- `Spells rs es rest`: the components `es` begin with pieces which, put together, are the names `rs`; `rest` is what
follows. -/
inductive Spells : List Str → List Str → List Str → Prop
  | nil {rest} : Spells [] rest rest
  | cons {r rs ps es rest} : ps.flatten = r → Spells rs es rest → Spells (r :: rs) (ps ++ es) rest

end Tup.Pel
