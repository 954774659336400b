import Verif.Expand.Lemmas
import Verif.Relative.Props

/-! Property C62 (see /verif/properties.jsonl). -/

namespace Tup.Expand

open Tup.Relative (Table relative Place Proper)
open Tup.Pel (Comps Leads)

variable {v : Env} {rel : Nat → Str} {n : Nat}

/-- Every command can be read: as references and text, possibly ending in `%<` without a `>` after it. -/
theorem c62_reading (cmd : Str) : ∃ ss last, cmd = write ss last ∧ Reading ss last ∧
    (NoRef last ∨ ∃ pre body, last = pre ++ '%' :: '<' :: body ∧ NoRef pre ∧ '>' ∉ body) := by
  generalize hk : cmd.length = k
  induction k using Nat.strongRecOn generalizing cmd with
  | ind k ih =>
    cases hc : cut cmd with
    | none => exact ⟨[], cmd, rfl, trivial, Or.inl (cut_none.1 hc)⟩
    | some q =>
      obtain ⟨pre, r⟩ := q
      obtain ⟨h1, r', h2, h3⟩ := cut_some hc
      cases hcl : close r with
      | none =>
        refine ⟨[], cmd, rfl, trivial, Or.inr ⟨pre, r', by rw [h3, h2], h1, ?_⟩⟩
        have := close_none.1 hcl
        rw [h2] at this
        exact fun q => this (List.mem_cons_of_mem _ q)
      | some q =>
        obtain ⟨nm, rest⟩ := q
        obtain ⟨b, h4, h5, h6⟩ := close_some hcl
        cases b with
        | nil =>
          rw [h2] at h6
          simp only [List.nil_append, List.cons.injEq] at h6
          exact absurd h6.1 (by decide)
        | cons c b =>
          rw [h2] at h6
          simp only [List.cons_append, List.cons.injEq] at h6
          obtain ⟨rfl, h6⟩ := h6
          have hb : '>' ∉ b := fun q => h5 (List.mem_cons_of_mem _ q)
          have hlen : rest.length < k := by
            rw [← hk, h3, h2, h6]
            simp only [List.length_append, List.length_cons]
            omega
          by_cases hres : ".res".toList <+: rest
          · obtain ⟨u, hu⟩ := hres
            obtain ⟨ss, last, e1, e2, e3⟩ := ih u.length (by
              rw [← hu, List.length_append] at hlen; omega) u rfl
            refine ⟨⟨pre, b, true⟩ :: ss, last, ?_, ⟨h1, hb, by simp, e2⟩, e3⟩
            rw [h3, h2, h6, ← hu, write, ← e1]
            simp [Seg.src, Seg.nm]
          · obtain ⟨ss, last, e1, e2, e3⟩ := ih rest.length hlen rest rfl
            refine ⟨⟨pre, b, false⟩ :: ss, last, ?_, ⟨h1, hb, ?_, e2⟩, e3⟩
            · rw [h3, h2, h6, write, ← e1]
              simp [Seg.src, Seg.nm]
            · intro _; rw [← e1]; exact hres

/-- If each reference names a group that is an input of the command, then the command that is run is the command with
each `%<group>` replaced by the paths of the generated files in the group, separated by blanks, and each
`%<group>.res` by the path of a new file that has these paths as its lines; nothing else is changed, and the text put
in is not looked at again. -/
theorem c62_expanded (hp : Paths v rel) (hn : ups v.T v.fuel v.dir = some n) {ss : List Seg} {last : Str}
    (hr : Reading ss last) (hl : NoRef last) (hg : ∀ s ∈ ss, ∃ g ∈ v.groups, s.nm <+: v.name g) (k : Nat) :
    expand v k (write ss last) = .ok ⟨expanded v rel n k ss last, resources v rel k ss, k + (ss.filter (·.res)).length,
      ss.flatMap (meant v)⟩ := by
  have hm : ∀ s ∈ ss, meant v s ≠ [] := by
    intro s hs he
    obtain ⟨g, h1, h2⟩ := hg s hs
    have : g ∈ meant v s := List.mem_filter.2 ⟨h1, by simpa using h2⟩
    rw [he] at this; cases this
  have hlen := write_length ss last
  obtain ⟨j, hj⟩ : ∃ j, (write ss last).length + 1 = (j + 1) + ss.length := ⟨(write ss last).length - ss.length, by omega⟩
  obtain ⟨⟨t, f, x, u⟩, e1, e2, e3, e4, e5⟩ := mean_ok (rel := rel) n last ss ⟨[], [], k, []⟩ hm
  rw [expand, hj, loop_seg hp hn ss (j + 1) last _ hr, e1]
  simp only [loop, cut_none.2 hl]
  simp only [List.nil_append] at e2 e3 e4 e5
  rw [e2, e3, e4, e5]

/-- A command with a reference to a group that is not an input of it is not run. -/
theorem c62_unknown (hp : Paths v rel) (hn : ups v.T v.fuel v.dir = some n) {ss : List Seg} {last : Str}
    (hr : Reading ss last) {s : Seg} (hs : s ∈ ss) (hg : ∀ g ∈ v.groups, ¬ s.nm <+: v.name g) (k : Nat) :
    expand v k (write ss last) = .error .noGroup := by
  have hm : meant v s = [] := by
    rw [meant, List.filter_eq_nil_iff]
    intro g hg'; simpa using hg g hg'
  have hlen := write_length ss last
  obtain ⟨j, hj⟩ : ∃ j, (write ss last).length + 1 = (j + 1) + ss.length := ⟨(write ss last).length - ss.length, by omega⟩
  rw [expand, hj, loop_seg hp hn ss (j + 1) last _ hr, mean_error n ss _ ⟨s, hs, hm⟩]

/-- Nor is one that has `%<` without a `>` after it. -/
theorem c62_unterminated (hp : Paths v rel) (hn : ups v.T v.fuel v.dir = some n) {ss : List Seg} {pre body : Str}
    (hr : Reading ss (pre ++ '%' :: '<' :: body)) (hl : NoRef pre) (hb : '>' ∉ body) (k : Nat) :
    ∃ e, expand v k (write ss (pre ++ '%' :: '<' :: body)) = .error e ∧
      ((∀ s ∈ ss, ∃ g ∈ v.groups, s.nm <+: v.name g) → e = .noEnd) := by
  generalize hlast : pre ++ '%' :: '<' :: body = last at *
  have hlen := write_length ss last
  obtain ⟨j, hj⟩ : ∃ j, (write ss last).length + 1 = (j + 1) + ss.length := ⟨(write ss last).length - ss.length, by omega⟩
  by_cases hm : ∀ s ∈ ss, meant v s ≠ []
  · refine ⟨.noEnd, ?_, fun _ => rfl⟩
    obtain ⟨a, e1, _⟩ := mean_ok (rel := rel) n last ss ⟨[], [], k, []⟩ hm
    rw [expand, hj, loop_seg hp hn ss (j + 1) last _ hr, e1]
    have hc : close ('<' :: body) = none := close_none.2 (by
      simp only [List.mem_cons, not_or]; exact ⟨by decide, hb⟩)
    simp only [loop, ← hlast, cut_append hl, hc]
  · have hm' : ∃ s ∈ ss, meant v s = [] := Classical.byContradiction fun q => hm fun s hs he => q ⟨s, hs, he⟩
    refine ⟨.noGroup, ?_, ?_⟩
    · rw [expand, hj, loop_seg hp hn ss (j + 1) last _ hr, mean_error n ss _ hm']
    · intro hg
      exfalso
      obtain ⟨s, hs, he⟩ := hm'
      obtain ⟨g, h1, h2⟩ := hg s hs
      have : g ∈ meant v s := List.mem_filter.2 ⟨h1, by simpa using h2⟩
      rw [he] at this; cases this

/-- If there is no `>` in the middle of the name of a group, a reference means exactly the groups of that name. -/
theorem c62_names (hv : ∀ g ∈ v.groups, ∃ b, v.name g = '<' :: b ++ ['>'] ∧ '>' ∉ b) {s : Seg} {g : Nat} :
    g ∈ meant v s ↔ g ∈ v.groups ∧ v.name g = s.nm := by
  rw [meant, List.mem_filter, decide_eq_true_eq]
  constructor
  · rintro ⟨h1, h2⟩
    refine ⟨h1, ?_⟩
    obtain ⟨b, e, hb⟩ := hv g h1
    obtain ⟨t, ht⟩ := h2
    have h3 : s.nm ++ t = ('<' :: b) ++ ['>'] := ht.trans e
    have ht0 : t = [] := by
      rcases List.eq_nil_or_concat t with q | ⟨l, x, q⟩
      · exact q
      · exfalso
        rw [List.concat_eq_append] at q
        rw [q, ← List.append_assoc] at h3
        have h4 := (List.append_inj' h3 rfl).1
        have : '>' ∈ '<' :: b := by rw [← h4]; simp [Seg.nm]
        rcases List.mem_cons.1 this with r | r
        · exact absurd r (by decide)
        · exact hb r
    rw [← ht, ht0, List.append_nil]
  · rintro ⟨h1, h2⟩
    exact ⟨h1, h2 ▸ List.prefix_refl _⟩

/-- The paths lead from the directory in which the command runs to the files. -/
theorem c62_paths (hT : Proper v.T) (hp : Paths v rel) {s : Seg} {i : Nat} (hi : i ∈ files v s) {p q : List Str}
    (h1 : Place v.T v.cwd p) (h2 : Place v.T i q) : ∃ l, Comps (rel i) l ∧ Leads (Tup.Relative.Exists v.T) p l q := by
  obtain ⟨g, h3, h4⟩ := List.mem_flatMap.1 hi
  have h5 := List.mem_filter.1 h4
  exact Tup.Relative.c14_arrives hT h1 h2 (hp g (List.mem_filter.1 h3).1 i h5.1 h5.2)

/-- Each resource file has its own name, and the name fits into its buffer of 32 bytes. -/
theorem c62_resource_names : (∀ j k, resName j = resName k → j = k) ∧ ∀ k, k < 2 ^ 31 → (resName k).length < 32 := by
  constructor
  · intro j k h
    unfold resName at h
    generalize ".tup/tmp/res-".toList = t at h
    have h1 := List.append_cancel_left h
    rw [← Nat.ofDigitChars_ten_toDigits (n := j), h1, Nat.ofDigitChars_ten_toDigits]
  · intro k hk
    have hk' : k < 10 ^ 10 := Nat.lt_of_lt_of_le hk (by decide)
    have h1 : (Nat.toDigits 10 k).length ≤ 10 := (Nat.length_toDigits_le_iff (by decide) (by decide)).2 hk'
    unfold resName
    generalize Nat.toDigits 10 k = ds at h1
    rw [List.length_append]
    have h2 : ".tup/tmp/res-".toList.length = 13 := by decide
    rw [h2]
    exact Nat.lt_of_le_of_lt (Nat.add_le_add_left h1 13) (by decide)

theorem ups_place {T : Table} {id : Nat} {p : List Str} (hp : Place T id p) : ∀ {fuel m : Nat},
    ups T fuel id = some m → m = p.length := by
  induction hp with
  | top h =>
    intro fuel m e
    cases fuel with
    | zero => cases e
    | succ fuel => simp only [ups, h, Option.some.injEq] at e; simp [← e]
  | child h _ ih =>
    intro fuel m e
    cases fuel with
    | zero => cases e
    | succ fuel =>
      simp only [ups, h] at e
      cases hq : ups T fuel _ with
      | none => rw [hq] at e; cases e
      | some x =>
        rw [hq] at e
        simp only [Option.map_some, Option.some.injEq] at e
        have := ih hq
        simp; omega

/-- Outside of variants the path put in for `%<group>.res` leads to the resource file in .tup/tmp at the top. -/
theorem c62_resource_path (hd : v.dir = v.cwd) (hn : ups v.T v.fuel v.dir = some n) {p : List Str}
    (hp : Place v.T v.cwd p) (k : Nat) {D : List Str → Prop} (h1 : D [".tup".toList])
    (h2 : D [".tup".toList, "tmp".toList])
    (h3 : D [".tup".toList, "tmp".toList, "res-".toList ++ Nat.toDigits 10 k]) :
    ∃ l, Comps ((List.replicate n "../".toList).flatten ++ resName k) l ∧
      Leads D p l [".tup".toList, "tmp".toList, "res-".toList ++ Nat.toDigits 10 k] := by
  have hnl : n = p.length := ups_place (hd ▸ hp) hn
  have hdig : ∀ c ∈ Nat.toDigits 10 k, c ≠ '/' := by
    intro c hc e
    have := Nat.isDigit_of_mem_toDigits (by decide) (by decide) hc
    rw [e] at this; exact absurd this (by decide)
  unfold resName
  generalize Nat.toDigits 10 k = ds at *
  have hnm : ∀ e ∈ [".tup".toList, "tmp".toList, "res-".toList ++ ds], Tup.Pel.Name e := by
    intro e he
    simp only [List.mem_cons, List.not_mem_nil, or_false] at he
    rcases he with rfl | rfl | rfl
    · exact ⟨by decide, by decide, by decide, by decide⟩
    · exact ⟨by decide, by decide, by decide, by decide⟩
    · refine ⟨by simp, ?_, ?_, ?_⟩
      · simp only [List.mem_append, not_or]
        exact ⟨by decide, fun q => hdig _ q rfl⟩
      · intro h; simp at h
      · intro h; simp at h
  refine ⟨List.replicate n "..".toList ++ [".tup".toList, "tmp".toList, "res-".toList ++ ds], ?_, ?_⟩
  · have ht : ∀ m, (List.replicate m "../".toList).flatten ++ (".tup/tmp/res-".toList ++ ds) =
        Tup.Pel.text (List.replicate m "..".toList ++ [".tup".toList, "tmp".toList, "res-".toList ++ ds]) := by
      intro m
      induction m with
      | zero => simp [Tup.Pel.text, List.intercalate, List.intersperse]
      | succ m ih =>
        rw [List.replicate_succ, List.flatten_cons, List.append_assoc, ih, List.replicate_succ, List.cons_append]
        cases m <;> simp [Tup.Pel.text, List.intercalate, List.intersperse, List.replicate_succ]
    have := Tup.Pel.comps_text (Tup.Pel.normal_good ⟨n, [".tup".toList, "tmp".toList, "res-".toList ++ ds], rfl, hnm⟩)
      (w := []) (by simp)
    rw [List.nil_append, ← ht] at this
    exact this
  · refine (Tup.Pel.leads_append _ _).2 ⟨[], ?_, ?_⟩
    · rw [hnl]; exact Tup.Relative.leads_ups [] p
    · refine Tup.Relative.leads_downs _ [] hnm ?_
      intro c d hc hne
      match c, hc with
      | [], _ => exact absurd rfl hne
      | [x], hc =>
        simp only [List.cons_append, List.nil_append, List.cons.injEq] at hc
        rw [← hc.1]; exact h1
      | [x, y], hc =>
        simp only [List.cons_append, List.nil_append, List.cons.injEq] at hc
        rw [← hc.1, ← hc.2.1]; exact h2
      | [x, y, z], hc =>
        simp only [List.cons_append, List.nil_append, List.cons.injEq] at hc
        rw [← hc.1, ← hc.2.1, ← hc.2.2.1]; exact h3
      | x :: y :: z :: w :: c, hc =>
        simp at hc

/-! ## Examples -/

instance : DecidableEq (Except Err Acc)
  | .ok a, .ok b => if h : a = b then isTrue (h ▸ rfl) else isFalse (fun e => h (Except.ok.inj e))
  | .error a, .error b => if h : a = b then isTrue (h ▸ rfl) else isFalse (fun e => h (Except.error.inj e))
  | .ok _, .error _ => isFalse (fun e => nomatch e)
  | .error _, .ok _ => isFalse (fun e => nomatch e)

/-- The files `src/a.o` (generated), `src/lib/b.o` (generated) and `src/c.txt`, all in the group `<objs>`, and a
command in `src` that has this group and another one as inputs. -/
def exV : Env where
  T
    | 1 => some ⟨".".toList, none⟩
    | 2 => some ⟨"src".toList, some 1⟩
    | 3 => some ⟨"a.o".toList, some 2⟩
    | 4 => some ⟨"lib".toList, some 2⟩
    | 5 => some ⟨"b.o".toList, some 4⟩
    | 6 => some ⟨"c.txt".toList, some 2⟩
    | _ => none
  fuel := 10
  dir := 2
  cwd := 2
  groups := [7, 8]
  name | 7 => "<objs>".toList | _ => "<o>".toList
  inputs | 7 => [3, 5, 6] | _ => []
  generated i := decide (i = 3 ∨ i = 5)

def exRel : Nat → Str | 3 => "a.o".toList | 5 => "lib/b.o".toList | _ => []

def exSegs : List Seg := [⟨"ld ".toList, "objs".toList, false⟩, ⟨" %% ".toList, "o".toList, false⟩,
  ⟨" @".toList, "objs".toList, true⟩]

/-- The hypotheses of `c62_expanded` hold for `ld %<objs> %% %<o> @%<objs>.res %`. -/
example : Paths exV exRel ∧ ups exV.T exV.fuel exV.dir = some 1 ∧ Reading exSegs " %".toList ∧
    (∀ s ∈ exSegs, ∃ g ∈ exV.groups, s.nm <+: exV.name g) ∧
    write exSegs " %".toList = "ld %<objs> %% %<o> @%<objs>.res %".toList := by
  refine ⟨?_, by decide, ?_, by decide, by decide⟩
  · intro g hg i hi hgen
    simp only [exV, List.mem_cons, List.not_mem_nil, or_false, decide_eq_true_eq] at hg hi hgen
    rcases hgen with rfl | rfl <;> decide
  · refine ⟨cut_none.1 (by decide), by decide, ?_, cut_none.1 (by decide), by decide, ?_, cut_none.1 (by decide),
      by decide, by decide, trivial⟩ <;> decide

example : expand exV 4 "ld %<objs> %% %<o> @%<objs>.res %".toList =
    .ok ⟨"ld a.o lib/b.o %%  @../.tup/tmp/res-4 %".toList, [(4, "a.o\nlib/b.o\n".toList)], 5, [7, 8, 7]⟩ := by
  decide

example : expand exV 0 "ld %<obj>".toList = .error .noGroup := by decide
example : expand exV 0 "ld %<o> %<objs".toList = .error .noEnd := by decide

/-! ## What goes wrong -/

/-- If a group is named `<o>s>`, then `%<o>` stands for its files too. -/
theorem c62_longer_name :
    expand { exV with name := fun | 7 => "<o>s>".toList | _ => "<o>".toList } 0 "ld %<o>".toList =
      .ok ⟨"ld a.o lib/b.o".toList, [], 0, [7, 8]⟩ := by decide

/-- In a variant the path of a resource file has the steps up from the variant's directory, though the command runs
in the source directory: here the command is that of `build` and runs at the top, so that the path leads out of the
project. -/
theorem c62_variant :
    expand { exV with dir := 2, cwd := 1 } 0 "cat %<objs>.res".toList =
      .ok ⟨"cat ../.tup/tmp/res-0".toList, [(0, "src/a.o\nsrc/lib/b.o\n".toList)], 1, [7]⟩ := by decide

end Tup.Expand
