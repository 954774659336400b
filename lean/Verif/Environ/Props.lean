import Verif.Environ.Lemmas

/-!
C66: a command runs with exactly the environment variables that were exported for it.  `getenv` is the environment in which tup
runs, `is` are the inputs of the command.
-/

namespace Tup.Environ

/-- The environment of a command, and that of a script of a Tupfile, are put together without an access outside of the memory, and
they are the exported variables that are set, the variable for ccache, and, for a command, the one for the file of variables. -/
theorem c66_environment (getenv : Bytes → Option Bytes) (is : Inputs) (file : Bytes) (h : Strings getenv is) :
    ∃ te, getEnviron (entries getenv is) = some te ∧
      commandEnv te (text "tup_vardict" ++ eq :: file) =
        some (exported getenv is ++ [text "CCACHE_NODIRECT=1", text "tup_vardict" ++ eq :: file]) ∧
      scriptEnv te = some (exported getenv is ++ [text "CCACHE_NODIRECT=1"]) := by
  refine ⟨_, getEnviron_eq _, ?_, ?_⟩
  · unfold commandEnv
    simp only [values_entries]
    rw [block_eq h _ 2 (block_len getenv is)]
    simp only [finish, List.length_cons, List.length_nil]
    rw [if_pos (by decide)]
    simp only [List.append_assoc, List.cons_append, List.nil_append]
    rfl
  · unfold scriptEnv
    simp only [values_entries]
    rw [block_eq h _ 2 (Nat.le_refl _)]
    simp only [finish]
    rw [if_pos (by decide), List.append_nil]
    rfl

/-- The same with the preload server, for a file descriptor of at most 32 characters. -/
theorem c66_preload (getenv : Bytes → Option Bytes) (is : Inputs) (depfile fd lib : Bytes) (h : Strings getenv is)
    (h1 : 0 ∉ depfile) (h2 : 0 ∉ fd) (h3 : 0 ∉ lib) (hl : fd.length < 32) :
    ∃ te, getEnviron (entries getenv is) = some te ∧
      preloadEnv te (preloadBlock (text "tup_depfile") depfile (text "tup_vardict") fd (text "LD_PRELOAD") lib) =
        some (exported getenv is ++ [text "CCACHE_NODIRECT=1", text "tup_depfile" ++ eq :: depfile,
          text "tup_vardict" ++ eq :: fd, text "LD_PRELOAD" ++ eq :: lib]) := by
  refine ⟨_, getEnviron_eq _, ?_⟩
  unfold preloadEnv
  simp only [values_entries]
  rw [block_eq h _ 4 (block_len getenv is)]
  simp only
  have hb : ∃ t : Mem, preloadBlock (text "tup_depfile") depfile (text "tup_vardict") fd (text "LD_PRELOAD") lib =
      enc [text "tup_depfile" ++ eq :: depfile, text "tup_vardict" ++ eq :: fd, text "LD_PRELOAD" ++ eq :: lib] ++ some 0 :: t := by
    unfold preloadBlock
    simp only
    rw [List.take_of_length_le (by simp; omega)]
    simp only [List.map_append, List.map_cons, List.map_nil, enc, List.append_assoc, List.cons_append, List.nil_append]
    exact ⟨_, rfl⟩
  obtain ⟨t, ht⟩ := hb
  rw [ht, pointers_eq _ _ _ _ _ (by simp only [List.length_cons, List.length_nil]; decide)]
  · simp only [finish, List.length_cons, List.length_nil]
    rw [if_pos (by decide)]
    simp only [List.append_assoc, List.append_nil, List.cons_append, List.nil_append]
    rfl
  · intro s hs
    have hok : ∀ (n v : Bytes), 0 ∉ n → 0 ∉ v → n ++ eq :: v ≠ [] ∧ 0 ∉ n ++ eq :: v := by
      intro n v hn hv
      refine ⟨by simp, fun hm => ?_⟩
      rcases List.mem_append.1 hm with hm | hm
      · exact hn hm
      · rcases List.mem_cons.1 hm with hm | hm
        · cases hm
        · exact hv hm
    simp only [List.mem_cons, List.not_mem_nil, or_false] at hs
    rcases hs with rfl | rfl | rfl
    · exact hok _ _ (by decide) h1
    · exact hok _ _ (by decide) h2
    · exact hok _ _ (by decide) h3
  · have := enc_len_ge (l := [text "tup_depfile" ++ eq :: depfile, text "tup_vardict" ++ eq :: fd, text "LD_PRELOAD" ++ eq :: lib])
    rw [List.length_append]
    omega

/-- What the command finds for a name: the value in the environment of tup if the variable was exported and is set, and nothing
otherwise, except for the two names that tup sets itself.  A value that was exported for CCACHE_NODIRECT comes first. -/
theorem c66_sees (getenv : Bytes → Option Bytes) (is : Inputs) (file n : Bytes) (h : Strings getenv is)
    (hnames : ∀ m, some m ∈ is → eq ∉ m) (hn : eq ∉ n) :
    ∃ te env, getEnviron (entries getenv is) = some te ∧ commandEnv te (text "tup_vardict" ++ eq :: file) = some env ∧
      lookup env n =
        if some n ∈ is ∧ getenv n ≠ none then getenv n
        else if n = text "CCACHE_NODIRECT" then some (text "1")
        else if n = text "tup_vardict" then some file
        else none := by
  obtain ⟨te, h1, h2, _⟩ := c66_environment getenv is file h
  refine ⟨te, _, h1, h2, ?_⟩
  rw [lookup_exported getenv is _ hnames hn]
  have e : text "CCACHE_NODIRECT=1" = text "CCACHE_NODIRECT" ++ eq :: text "1" := by decide
  rw [e, lookup_var hn (by decide), lookup_var hn (by decide)]
  rfl

/-- `import NAME` and `import NAME=default` give the value of the variable, and the default if it is not set. -/
theorem c66_import (getenv : Bytes → Option Bytes) (n d : Bytes) (hn : eq ∉ n) (h0 : getenv [] = none) :
    importVar getenv n = (n, getenv n) ∧
      importVar getenv (n ++ eq :: d) = (n, some (match getenv n with | some v => v | none => d)) := by
  have key : ∀ v, getenv n = some v → skipName (n ++ eq :: v) = v := by
    intro v hv
    refine skipName_eq hn ?_ v
    rintro rfl
    rw [h0] at hv
    cases hv
  unfold importVar
  rw [splitImport_name hn, splitImport_default hn]
  simp only [full]
  cases hg : getenv n with
  | none => exact ⟨rfl, rfl⟩
  | some v =>
    simp only [Option.map_some]
    rw [key v hg]
    exact ⟨rfl, rfl⟩

/-- If the name in an `export` contains a `=`, the command gets another variable: with `A` set to `x=y`, `export A=x` exports `A`. -/
theorem c66_export_equals (getenv : Bytes → Option Bytes) (file : Bytes)
    (hg : getenv (text "A=x") = some (text "y")) (h : ∀ n v, getenv n = some v → 0 ∉ v) :
    ∃ te env, getEnviron (entries getenv [some (text "A=x")]) = some te ∧
      commandEnv te (text "tup_vardict" ++ eq :: file) = some env ∧ lookup env (text "A") = some (text "x=y") := by
  obtain ⟨te, h1, h2, _⟩ := c66_environment getenv [some (text "A=x")] file ⟨by
    intro n hn
    rw [List.mem_singleton] at hn
    rw [Option.some.inj hn]
    decide, h⟩
  refine ⟨te, _, h1, h2, ?_⟩
  have : exported getenv [some (text "A=x")] = [text "A" ++ eq :: text "x=y"] := by
    simp only [exported, List.filterMap_cons, Option.bind_some, hg, Option.map_some, List.filterMap_nil]
    decide
  rw [this, List.cons_append, lookup_var (by decide) (by decide), if_pos rfl]

/-! ### A case -/

def sampleEnv : Bytes → Option Bytes := fun n =>
  if n = text "PATH" then some (text "/bin") else if n = text "EMPTY" then some [] else if n = text "X" then some (text "a=b") else none

example : Strings sampleEnv [some (text "PATH"), none, some (text "EMPTY"), some (text "UNSET"), some (text "X")] := by
  refine ⟨?_, ?_⟩
  · intro n hn
    simp only [List.mem_cons, Option.some.injEq, List.not_mem_nil, or_false, reduceCtorEq, false_or] at hn
    rcases hn with rfl | rfl | rfl | rfl <;> decide
  · intro n v hv
    unfold sampleEnv at hv
    split at hv
    · cases hv; decide
    · split at hv
      · cases hv; decide
      · split at hv
        · cases hv; decide
        · cases hv

example : (getEnviron (entries sampleEnv [some (text "PATH"), none, some (text "EMPTY"), some (text "UNSET"), some (text "X")])).bind
    (fun te => commandEnv te (text "tup_vardict=/p/.tup/vardict")) =
    some [text "PATH=/bin", text "EMPTY=", text "X=a=b", text "CCACHE_NODIRECT=1", text "tup_vardict=/p/.tup/vardict"] := by
  decide +kernel

end Tup.Environ
