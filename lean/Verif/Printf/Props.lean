import Verif.Printf.Lemmas

/-! C06: the expansion of %-flags. -/

namespace Tup.Printf

open Tup.Names Tup.Eval

/-- **C06.** The expansion succeeds with a result exactly if the result is the text, read once from left to right,
with every flag replaced by what it stands for; nothing else is changed. -/
theorem c06_expansion (a : Args) (s o : Str) : printf a s = .ok o ↔ Prints a s o := printf_ok a s o

/-- **C06.** Exactly the texts that get to a flag whose names have a negative length or whose wildcard match was never
recorded make the expansion undefined. -/
theorem c06_undefined (a : Args) (s : Str) : printf a s = .ub ↔ Breaks a s := printf_ub a s

/-- **C06.** All other texts are refused: unknown flags, a percent sign at the end, flags for lists that are empty. -/
theorem c06_errors (a : Args) (s : Str) : printf a s = .error ↔ (¬ ∃ o, Prints a s o) ∧ ¬ Breaks a s := by
  constructor
  · intro h
    constructor
    · rintro ⟨o, ho⟩
      rw [(printf_ok a s o).2 ho] at h; cases h
    · intro hb
      rw [(printf_ub a s).2 hb] at h; cases h
  · rintro ⟨h1, h2⟩
    cases h : printf a s with
    | ok o => exact absurd ⟨o, (printf_ok a s o).1 h⟩ h1
    | ub => exact absurd ((printf_ub a s).1 h) h2
    | error => rfl

/-- The expansion of a text is unique. -/
theorem c06_unique {a : Args} {s o o' : Str} (h : Prints a s o) (h' : Prints a s o') : o = o' := by
  have := (printf_ok a s o).2 h
  rw [(printf_ok a s o').2 h'] at this
  cases this; rfl

/-- **C06.** A text without percent sign is not changed, in front of any text it stays where it is. -/
theorem c06_plain (a : Args) {x s o : Str} (hx : '%' ∉ x) (h : Prints a s o) : Prints a (x ++ s) (x ++ o) := by
  induction x with
  | nil => exact h
  | cons c x ih =>
    simp only [List.mem_cons, not_or] at hx
    exact .other (Ne.symm hx.1) (ih hx.2)

/-- Texts with percent signs written twice. -/
def doubled : Str → Str
  | [] => []
  | c :: s => if c = '%' then '%' :: '%' :: doubled s else c :: doubled s

/-- **C06.** Every text can be written: with each percent sign doubled, it is its own expansion. -/
theorem c06_percent (a : Args) (hp : a.perc = true) (s : Str) : printf a (doubled s) = .ok s := by
  rw [printf_ok]
  induction s with
  | nil => exact .nil
  | cons c s ih =>
    unfold doubled
    split
    · next hc =>
      subst hc
      exact .flag (f := ['%']) (.percent hp) ih
    · next hc => exact .other hc ih

/-- **C06.** Where percent signs are left for a later expansion, that one makes them single. -/
theorem c06_percent_later (a b : Args) (ha : a.perc = false) (hb : b.perc = true) (s : Str) :
    ∃ t, printf a (doubled s) = .ok t ∧ printf b t = .ok s := by
  refine ⟨doubled s, ?_, c06_percent b hb s⟩
  rw [printf_ok]
  induction s with
  | nil => exact .nil
  | cons c s ih =>
    unfold doubled
    split
    · next hc => exact .flag (f := ['%']) (v := "%%".toList) (.percents ha) ih
    · next hc => exact .other hc ih

/-- **C06.** Of a list in the order in which the inputs are written a numbered flag uses exactly the entries with that
number. -/
theorem c06_number (n : Nat) {l : List Entry} (h : l.Pairwise fun e f => e.orderid ≤ f.orderid) :
    withNumber n l = l.filter fun e => e.orderid = n := by
  unfold withNumber
  induction l with
  | nil => rfl
  | cons e l ih =>
    obtain ⟨h1, h2⟩ := List.pairwise_cons.1 h
    rw [List.takeWhile_cons]
    by_cases he : e.orderid ≤ n
    · simp only [he, decide_true, if_true, List.filter_cons, ih h2]
    · simp only [he, decide_false]
      rw [if_neg (by decide)]
      symm
      rw [List.filter_nil, List.filter_eq_nil_iff]
      intro x hx
      simp only [List.mem_cons] at hx
      simp only [decide_eq_true_eq]
      rcases hx with rfl | hx
      · omega
      · have := h1 x hx; omega

/-- **C06.** The command of a rule followed by the extra command of its macro. -/
theorem c06_extra (a : Args) (s x o : Str) :
    command a s (some x) = .ok o ↔
      ∃ u v, Prints a s u ∧ Prints { a with perc := true } x v ∧ o = u ++ " ".toList ++ v := by
  unfold command
  constructor
  · intro h
    cases h1 : printf a s with
    | error => rw [h1] at h; cases h
    | ub => rw [h1] at h; cases h
    | ok u =>
      rw [h1] at h
      simp only at h
      cases h2 : printf { a with perc := true } x with
      | error => rw [h2] at h; cases h
      | ub => rw [h2] at h; cases h
      | ok v =>
        rw [h2] at h
        cases h
        exact ⟨u, v, (printf_ok ..).1 h1, (printf_ok ..).1 h2, by simp⟩
  · rintro ⟨u, v, h1, h2, rfl⟩
    rw [(printf_ok ..).2 h1]
    simp only [(printf_ok ..).2 h2]
    simp

/-! ### Examples -/

def inA : Entry := ⟨"src/foo.c".toList, 7, [(0, some 3)], 1, some 5⟩
def inB : Entry := ⟨"bar.c".toList, 3, [], 2, some 6⟩
def outO : Entry := ⟨"foo.o".toList, 3, [], 1, none⟩
def exArgs : Args := ⟨⟨[inA], 1⟩, some ⟨[outO], 0⟩, none, some "c".toList, "lib".toList, true⟩
def exTwo : Args := ⟨⟨[inA, inB], 1⟩, some ⟨[outO], 0⟩, none, none, "lib".toList, true⟩

example : printf exArgs "gcc -c %f -o %o # 100%% %B %e %O %d %g".toList =
    .ok "gcc -c src/foo.c -o foo.o # 100% foo c foo lib foo".toList := by decide +kernel
example : printf exTwo "cat %f %2b %1B > %o; echo %12t %'f".toList =
    .ok "cat src/foo.c bar.c bar.c foo > foo.o; echo %12t 'src/foo.c' 'bar.c'".toList := by decide +kernel
/-- An unknown flag, a percent sign at the end, an empty list. -/
example : printf exArgs "%z".toList = .error ∧ printf exArgs "a%".toList = .error ∧
    printf exArgs "%i".toList = .error ∧ printf exTwo "%g".toList = .error := by decide +kernel
/-- The number is cut to 32 bits, then %99f is refused. -/
example : printf exTwo "%4294967297f".toList = .ok "src/foo.c".toList ∧ printf exTwo "%99f".toList = .error := by
  decide +kernel
/-- The wildcard of an input that has been removed is still counted: `%g` reads memory that was never written. -/
example : printf ⟨⟨[inB], 1⟩, none, none, none, [], true⟩ "%g".toList = .ub := by decide +kernel
example : ¬ ∃ o, Prints exArgs "%z".toList o := fun h =>
  ((c06_errors exArgs "%z".toList).1 (by decide +kernel)).1 h
example : [inA, inB].Pairwise fun e f => e.orderid ≤ f.orderid := by decide

end Tup.Printf
