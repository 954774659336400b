import Verif.Again.Lemmas

/-! C105: a command whose inputs are as they were does what it did. -/

namespace Tup.Again

open Tup (Str)
open Tup.Fuse Tup.Readdir

variable {C : Type}

/-- C105: let a command run in two trees that have the same at every name that was reported as read in the first, and at every name that
the command removed or renamed there. Then it asks for the same in both, gets the same answers and ends in both or in none; the same is
reported as read and written; and it leaves the same files: every name where it left a file, or where the trees had the same, has the
same afterwards. -/
theorem c105_again (t t' : Tree C) (p : Prog C) (n : Nat)
    (h : ∀ f, f ∈ reportReads (exec t p n).1 ∨ Moved f (exec t p n).2 → t.real f = t'.real f ∧ t.ents f = t'.ents f) :
    (exec t' p n).2 = (exec t p n).2 ∧
    (p ((exec t' p n).2.map Prod.snd) = none ↔ p ((exec t p n).2.map Prod.snd) = none) ∧
    reportReads (exec t' p n).1 = reportReads (exec t p n).1 ∧
    reportWrites (exec t' p n).1 = reportWrites (exec t p n).1 ∧
    ∀ f, (∃ m ∈ (exec t p n).1.maps, m.1 = f) ∨ t.real f = t'.real f →
      settle (exec t' p n).1 (exec t' p n).1.maps t'.real f = settle (exec t p n).1 (exec t p n).1.maps t.real f := by
  rw [exec_congr p n h]
  exact ⟨rfl, Iff.rfl, rfl, rfl, fun f hf => (settle_congr _ f _ _ _ hf).symm⟩

/-- C105: so if a command removes and renames nothing, what it does depends on the files that are reported as read, and on nothing else. -/
theorem c105_reported (t t' : Tree C) (p : Prog C) (n : Nat) (hm : ∀ f, ¬ Moved f (exec t p n).2)
    (h : ∀ f, f ∈ reportReads (exec t p n).1 → t.real f = t'.real f ∧ t.ents f = t'.ents f) :
    (exec t' p n).2 = (exec t p n).2 ∧ reportReads (exec t' p n).1 = reportReads (exec t p n).1 ∧
    reportWrites (exec t' p n).1 = reportWrites (exec t p n).1 ∧
    ∀ f, (∃ m ∈ (exec t p n).1.maps, m.1 = f) ∨ t.real f = t'.real f →
      settle (exec t' p n).1 (exec t' p n).1.maps t'.real f = settle (exec t p n).1 (exec t p n).1.maps t.real f := by
  obtain ⟨h1, _, h3, h4, h5⟩ := c105_again t t' p n (fun f hf => hf.elim (h f) (fun hf => absurd hf (hm f)))
  exact ⟨h1, h3, h4, h5⟩

/-- C105: every name that was looked at, if the command had not made a directory there, is reported as read or was removed or renamed
by the command: nothing else is dropped from the record. -/
theorem c105_kept (t : Tree C) (p : Prog C) : ∀ n m a, m < n → p ((exec t p m).2.map Prod.snd) = some a → ∀ f ∈ a.names, f ∉ (exec t p m).1.dirs →
    f ∈ reportReads (exec t p n).1 ∨ Moved f (exec t p n).2 := by
  have grow : ∀ n x, x ∈ (exec t p n).1.reads ∨ Moved x (exec t p n).2 → x ∈ (exec t p (n + 1)).1.reads ∨ Moved x (exec t p (n + 1)).2 := by
    intro n x hx
    simp only [exec]
    split
    · exact hx
    · rw [moved_snoc]
      rcases hx with hx | hx
      · rcases ask_reads t _ _ x (.inl hx) with h1 | h1
        · exact .inl h1
        · exact .inr (.inr h1)
      · exact .inr (.inl hx)
  intro n m a hmn ha f hf hd
  have h : ∀ k, f ∈ (exec t p (m + 1 + k)).1.reads ∨ Moved f (exec t p (m + 1 + k)).2 := by
    intro k
    induction k with
    | zero =>
      simp only [Nat.add_zero, exec, ha]
      rw [moved_snoc]
      rcases ask_reads t _ a f (.inr ⟨hf, hd⟩) with h1 | h1
      · exact .inl h1
      · exact .inr (.inr h1)
    | succ k ih => exact grow _ _ ih
  have h1 := h (n - (m + 1))
  rw [show m + 1 + (n - (m + 1)) = n by omega] at h1
  rcases h1 with h1 | h1
  · exact reads_reported t p n f h1
  · exact .inr h1

/-! ### The names that were removed matter -/

def str (s : String) : Str := s.toList

/-- A tree with two files. -/
def two (a b : Nat) : Tree Nat where
  real f := if f = str "/s" then some (.file a) else if f = str "/h" then some (.file b) else if f = str "/" then some .dir else none
  ents f := if f = str "/" then some [str ".", str "..", str "s", str "h"] else none

/-- Read /s, put another file in its place, remove that, and write to /o what was read. -/
def hide : Prog Nat
  | [] => some (.op (.read (str "/s")))
  | [_] => some (.op (.put (str "/t") 0))
  | [_, _] => some (.op (.rename (str "/t") (str "/s")))
  | [_, _, _] => some (.op (.unlink (str "/s")))
  | .found (some (.file c)) :: [_, _, _] => some (.op (.put (str "/o") c))
  | _ => none

/-- C105: a name that is reported neither as read nor as written may matter: here /s is not reported although its content is what the
command writes. -/
theorem c105_dropped : reportReads (exec (two 1 0) hide 6).1 = [str "/o"] ∧
    reportWrites (exec (two 1 0) hide 6).1 = [str "/o", str "/o"] ∧
    reportReads (exec (two 2 0) hide 6).1 = [str "/o"] ∧
    settle (exec (two 1 0) hide 6).1 (exec (two 1 0) hide 6).1.maps (two 1 0).real (str "/o") = some (.file 1) ∧
    settle (exec (two 2 0) hide 6).1 (exec (two 2 0) hide 6).1.maps (two 2 0).real (str "/o") = some (.file 2) := by
  refine ⟨?_, ?_, ?_, ?_, ?_⟩ <;> decide +kernel

/-! ### A case that meets the hypotheses -/

/-- A compiler: read the source; if it includes the header (its content is not 0) read that; list the directory; write the object. -/
def compile : Prog Nat
  | [] => some (.op (.read (str "/s")))
  | [.found (some (.file 0))] => some (.op (.put (str "/o") 0))
  | [.found (some (.file _))] => some (.op (.read (str "/h")))
  | [.found (some (.file c)), .found (some (.file d))] => some (.op (.put (str "/o") (c + d)))
  | _ => none

/-- The header is not used: with another one the compiler does the same. -/
example : (exec (two 0 8) compile 5).2 = (exec (two 0 7) compile 5).2 := by
  refine (c105_reported (two 0 7) (two 0 8) compile 5 (fun f => ?_) (fun f hf => ?_)).1
  · rintro ⟨e, he, hg⟩
    simp only [exec, compile, List.map, two, ask, lookup, str] at he
    rcases List.mem_append.1 he with he | he
    · rcases List.mem_append.1 he with he | he
      · cases he
      · cases List.mem_singleton.1 he; exact hg
    · cases List.mem_singleton.1 he; exact hg
  · have : reportReads (exec (two 0 7) compile 5).1 = [str "/s", str "/o"] := by decide +kernel
    rw [this] at hf
    rcases List.mem_cons.1 hf with rfl | hf
    · exact ⟨by decide +kernel, by decide +kernel⟩
    · cases List.mem_singleton.1 hf
      exact ⟨by decide +kernel, by decide +kernel⟩

/-- It is used: then it is reported, and the output is another one. -/
example : str "/h" ∈ reportReads (exec (two 1 7) compile 5).1 ∧
    settle (exec (two 1 7) compile 5).1 (exec (two 1 7) compile 5).1.maps (two 1 7).real (str "/o") = some (.file 8) ∧
    settle (exec (two 1 8) compile 5).1 (exec (two 1 8) compile 5).1.maps (two 1 8).real (str "/o") = some (.file 9) := by
  refine ⟨?_, ?_, ?_⟩ <;> decide +kernel

/-- `c105_kept`: the fourth request of `hide` is about /s, which was looked at by the first. -/
example : str "/s" ∈ reportReads (exec (two 1 0) hide 6).1 ∨ Moved (str "/s") (exec (two 1 0) hide 6).2 :=
  c105_kept (two 1 0) hide 6 0 _ (by decide) rfl (str "/s") List.mem_cons_self (by intro h; cases h)

end Tup.Again
