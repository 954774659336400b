import Verif.CompileDb.Lemmas

/-!
C89: compile_commands.json is a JSON array with one object for each file a marked command of the variant reads — for the first variant that has any.
-/

namespace Tup.CompileDb

open Tup (Str)

def gcc : Cmd := ⟨"j".toList, "gcc -DX=\"a\\b\" -c m.c".toList, "/p/src".toList, 1, [⟨true, "m.c".toList, "m.c".toList⟩, ⟨false, "grp".toList, "grp".toList⟩, ⟨true, "g.h".toList, "../g.h".toList⟩]⟩
def other : Cmd := ⟨"".toList, "ld".toList, "/p/src".toList, 1, [⟨true, "m.o".toList, "m.o".toList⟩]⟩
def debug : Cmd := ⟨"^j".toList, "gcc -g m.c".toList, "/p/src".toList, 7, [⟨true, "m.c".toList, "m.c".toList⟩]⟩

theorem text_dec {s : Str} (h : ((s.all fun c => !Strings.control c) && s.any fun c => decide (c ≠ '\\') && decide (c ≠ '"')) = true) : TextOk s := by
  rw [Bool.and_eq_true, List.all_eq_true, List.any_eq_true] at h
  refine ⟨fun c hc => by simpa using h.1 c hc, ?_⟩
  obtain ⟨c, hc, h2⟩ := h.2
  rw [Bool.and_eq_true, decide_eq_true_eq, decide_eq_true_eq] at h2
  exact ⟨c, hc, h2⟩

/-- The commands of the examples can be written. -/
theorem sample_ok : CmdsOk [gcc, other, debug] := by
  intro c hc
  simp only [List.mem_cons, List.not_mem_nil, or_false] at hc
  rcases hc with rfl | rfl | rfl <;> refine ⟨text_dec (by decide), text_dec (by decide), fun i hi => ?_⟩
  · simp only [gcc, List.mem_cons, List.not_mem_nil, or_false] at hi
    rcases hi with rfl | rfl | rfl <;> exact path_dec (by decide)
  · simp only [other, List.mem_cons, List.not_mem_nil, or_false] at hi
    rcases hi with rfl; exact path_dec (by decide)
  · simp only [debug, List.mem_cons, List.not_mem_nil, or_false] at hi
    rcases hi with rfl; exact path_dec (by decide)

/-- C89: `tup compiledb` writes one file per variant.  A file reads as exactly the objects of its variant, in the order of the commands and their inputs, if it has none or no variant before it has any. -/
theorem c89_file {cmds : List Cmd} (h : CmdsOk cmds) (vs : List Nat) :
    ∃ ts, compiledb cmds vs = some ts ∧ ts.length = vs.length ∧
      ∀ (i v : Nat) (t : Str), vs[i]? = some v → ts[i]? = some t → (records cmds v = [] ∨ ∀ j w, j < i → vs[j]? = some w → records cmds w = []) → read t = some (records cmds v) := by
  obtain ⟨ts, h1, h2, h3⟩ := files_ok h vs true
  exact ⟨ts, h1, h2, fun i v t hv ht hc => (h3 i v t hv ht).1 (hc.elim Or.inl fun hc => Or.inr ⟨rfl, hc⟩)⟩

/-- Case: the project without variants. -/
example : ∃ t, compiledb [gcc, other, debug] [1] = some [t] ∧ read t = some [object ("/p/src".toList, "gcc -DX=\"a\\b\" -c m.c".toList, "m.c".toList), object ("/p/src".toList, "gcc -DX=\"a\\b\" -c m.c".toList, "../g.h".toList)] := by
  obtain ⟨ts, h1, h2, h3⟩ := c89_file sample_ok [1]
  match ts, h2 with
  | [t], _ => exact ⟨t, h1, h3 0 1 t rfl rfl (Or.inr fun j w hj => absurd hj (Nat.not_lt_zero _))⟩

/-- C89: the comma before an object is left out once for the whole run, not once for each file, so that a file with objects after another file with objects is no JSON. -/
theorem c89_later {cmds : List Cmd} (h : CmdsOk cmds) (vs : List Nat) {ts : List Str} (hr : compiledb cmds vs = some ts)
    {i j v w : Nat} {t : Str} (hv : vs[i]? = some v) (ht : ts[i]? = some t) (hj : j < i) (hw : vs[j]? = some w) (h1 : records cmds w ≠ []) (h2 : records cmds v ≠ []) :
    read t = none := by
  obtain ⟨ts', h3, _, h4⟩ := files_ok h vs true
  rw [show compiledb cmds vs = files cmds true vs from rfl, h3] at hr
  injection hr with hr
  subst hr
  refine (h4 i v t hv ht).2 fun hc => ?_
  rcases hc with hc | hc
  · exact h2 hc
  · exact h1 (hc.2 j w hj hw)

/-- Case: two variants with a command each. -/
example : ∃ t u, compiledb [gcc, other, debug] [1, 7] = some [t, u] ∧ read u = none := by
  obtain ⟨ts, h1, h2, _⟩ := c89_file sample_ok [1, 7]
  match ts, h2 with
  | [t, u], _ => exact ⟨t, u, h1, c89_later sample_ok [1, 7] h1 (i := 1) (j := 0) rfl rfl (by decide) rfl (by decide) (by decide)⟩

/-- C89: which objects these are: one of each file that a command with flag `j` of the variant has as a sticky input. -/
theorem c89_objects {cmds : List Cmd} {v : Nat} {o : List (Str × Str)} :
    o ∈ records cmds v ↔ ∃ c, c ∈ cmds ∧ 'j' ∈ c.flags ∧ c.variant = v ∧ ∃ i, i ∈ c.inputs ∧ i.file = true ∧ o = [("directory".toList, c.dir), ("command".toList, c.name), ("file".toList, i.path)] := by
  unfold records
  rw [List.mem_flatMap]
  constructor
  · rintro ⟨c, hc, ho⟩
    split at ho
    · rename_i h
      obtain ⟨i, hi, e⟩ := List.mem_filterMap.mp ho
      split at e
      · rename_i hf
        injection e with e
        exact ⟨c, hc, h.1, h.2, i, hi, hf, e.symm⟩
      · cases e
    · cases ho
  · rintro ⟨c, hc, h1, h2, i, hi, hf, rfl⟩
    refine ⟨c, hc, ?_⟩
    rw [if_pos ⟨h1, h2⟩]
    exact List.mem_filterMap.mpr ⟨i, hi, by rw [if_pos hf]; rfl⟩

example : [("directory".toList, "/p/src".toList), ("command".toList, "gcc -g m.c".toList), ("file".toList, "m.c".toList)] ∈ records [gcc, other, debug] 7 :=
  c89_objects.mpr ⟨debug, by simp, by decide, rfl, _, List.mem_cons_self, rfl, rfl⟩

/-- A command whose input has a quote in its name, and one whose input looks like more fields. -/
def quoted : Cmd := ⟨"j".toList, "cc".toList, "/p".toList, 1, [⟨true, "a\"b".toList, "a\"b".toList⟩]⟩
def forged : Cmd := ⟨"j".toList, "cc".toList, "/p".toList, 1, [⟨true, "a\",\"output\":\"b".toList, "a\",\"output\":\"b".toList⟩]⟩

/-- C89: the path of the file is written without escapes: with a quote in it the file is no JSON, or other JSON than meant. -/
theorem c89_unescaped : (∃ t, compiledb [quoted] [1] = some [t] ∧ read t = none)
    ∧ ∃ t, compiledb [forged] [1] = some [t] ∧ read t = some [[("directory".toList, "/p".toList), ("command".toList, "cc".toList), ("file".toList, "a".toList), ("output".toList, "b".toList)]] := by
  refine ⟨⟨_, rfl, ?_⟩, ⟨_, rfl, ?_⟩⟩ <;> decide +kernel

/-- C89: `tup commandline` takes a command that has the file as an input, one that has the file's name in it if there is any, and no command only if there is none. -/
theorem c89_choose {users : List Cmd} {name : Str} :
    (choose users name = none ↔ users = [])
    ∧ ∀ c, choose users name = some c → c ∈ users ∧ ((∃ d, d ∈ users ∧ name <:+: d.name) → name <:+: c.name) := by
  unfold choose
  cases hf : users.find? fun c => contains c.name name with
  | some d =>
    have h1 := List.find?_some (p := fun c : Cmd => contains c.name name) hf
    have h2 := List.mem_of_find?_eq_some hf
    refine ⟨⟨fun h => (by cases h), fun h => (by rw [h] at h2; cases h2)⟩, fun c hc => ?_⟩
    injection hc with hc
    subst hc
    exact ⟨h2, fun _ => contains_iff.mp h1⟩
  | none =>
    refine ⟨List.head?_eq_none_iff, fun c hc => ⟨List.mem_of_mem_head? hc, ?_⟩⟩
    rintro ⟨d, hd, hn⟩
    exact absurd (contains_iff.mpr hn) (List.find?_eq_none.mp hf d hd)

example : choose [other, gcc, debug] "m.c".toList = some gcc := by decide +kernel

/-- C89: what `tup commandline` prints reads as one object for each argument that has a command, in the order of the arguments. -/
theorem c89_commandline {l : List (List Cmd × Str × (Cmd → Str))}
    (h : ∀ x, x ∈ l → ∀ c, c ∈ x.1 → TextOk c.dir ∧ TextOk c.name ∧ PathOk (x.2.2 c)) :
    ∃ t, commandline l = some t ∧ read t = some (l.filterMap fun x => (choose x.1 x.2.1).map fun c => object (c.dir, c.name, x.2.2 c)) := by
  have hk : ∀ y, y ∈ (l.filterMap fun x => (choose x.1 x.2.1).map fun c => (c.dir, c.name, x.2.2 c)) → CallOk y := by
    intro y hy
    obtain ⟨x, hx, e⟩ := List.mem_filterMap.mp hy
    obtain ⟨c, hc, rfl⟩ := Option.map_eq_some_iff.mp e
    exact h x hx c (c89_choose.2 c hc).1
  obtain ⟨t, ht⟩ := entries_ok (b := true) hk
  refine ⟨_, by unfold commandline; rw [ht], ?_⟩
  rw [read_first hk ht, List.map_filterMap]
  congr 2
  funext x
  rw [Option.map_map]
  rfl

example : ∃ t, commandline [([other, gcc], "m.c".toList, fun _ => "m.c".toList), ([], "x".toList, fun _ => [])] = some t
    ∧ read t = some [object ("/p/src".toList, "gcc -DX=\"a\\b\" -c m.c".toList, "m.c".toList)] := by
  refine c89_commandline (l := [([other, gcc], "m.c".toList, fun _ => "m.c".toList), ([], "x".toList, fun _ => [])]) ?_
  intro x hx c hc
  simp only [List.mem_cons, List.not_mem_nil, or_false] at hx
  rcases hx with rfl | rfl
  · simp only [List.mem_cons, List.not_mem_nil, or_false] at hc
    rcases hc with rfl | rfl <;> exact ⟨text_dec (by decide), text_dec (by decide), path_dec (by decide)⟩
  · cases hc

end Tup.CompileDb
