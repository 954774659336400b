import Verif.Readdir.Lemmas

/-!
C80: a command that lists a directory finds the names of exactly what it sees there.
-/

namespace Tup.Readdir

open Tup (Str)
open Tup.Fuse

variable {C : Type}

/-- After any (usual) operations, the list of a directory succeeds, and contains the names of exactly what the command sees in it: what
it has made and what was there before. -/
theorem c80_exact {real : Str → Option (Node C)} {ents : Str → Option (List Str)} (ht : Tree real ents) {os : List (Op C)} {bs : List Bool}
    {r : Own C} (hr : Runs real {} os bs r) {d : Str} (hd : Sees real r d (some .dir)) :
    ∃ l, (list real ents (run real {} os).1 d).2 = some l ∧
      ∀ n, Plain n → (n ∈ l ↔ ∃ x, Sees real r (inDir d n) (some x)) := by
  have ha := (sims hr Agree.init).2
  generalize (run real {} os).1 = s at ha
  have hl := ha.sees.1 hd
  have ha' := ha.attr d
  refine ⟨_, by unfold list; rw [hl]; simp only; rw [readdir_eq ha' d], fun n hn => ?_⟩
  rw [attr_maps, attr_dirs, List.mem_append, List.mem_append, mem_children, mem_children]
  have hmap : inDir d n ∈ s.maps.map Prod.fst ↔ r.files (inDir d n) ≠ none := by
    rw [Ne, ha.files_none, findMap_none, Classical.not_not]
  rw [hmap, ← ha.dirs]
  by_cases hdd : d ∈ s.dirs
  · have hrd : real d = none := dirs_new hr (fun _ h => h.elim) d ((ha.dirs d).2 hdd)
    have hrn := ht.closed d n hrd
    rw [if_pos hdd]
    constructor
    · rintro ((⟨h, _⟩ | ⟨h, _⟩) | h)
      · by_cases hx : r.dirs (inDir d n)
        · exact ⟨_, .dir hx⟩
        · obtain ⟨c, hc⟩ := Option.ne_none_iff_exists'.1 h
          exact ⟨_, .file c hx hc⟩
      · exact ⟨_, .dir h⟩
      · cases h
    · rintro ⟨x, hx⟩
      generalize hy : some x = y at hx
      cases hx with
      | dir h => exact .inl (.inr ⟨h, hn.noSlash⟩)
      | file c _ h => exact .inl (.inl ⟨by rw [h]; simp, hn.noSlash⟩)
      | other _ _ => rw [hrn] at hy; cases hy
  · rw [if_neg hdd]
    have hrd : real d = some .dir := by
      generalize hy : some Node.dir = y at hd
      cases hd with
      | dir h => exact absurd ((ha.dirs d).1 h) hdd
      | file c _ h => cases hy
      | other _ _ => rfl
    rw [mem_actual ht hrd hn]
    constructor
    · rintro ((⟨h, _⟩ | ⟨h, _⟩) | h)
      · by_cases hx : r.dirs (inDir d n)
        · exact ⟨_, .dir hx⟩
        · obtain ⟨c, hc⟩ := Option.ne_none_iff_exists'.1 h
          exact ⟨_, .file c hx hc⟩
      · exact ⟨_, .dir h⟩
      · by_cases hx : r.dirs (inDir d n)
        · exact ⟨_, .dir hx⟩
        · cases hc : r.files (inDir d n) with
          | some c => exact ⟨_, .file c hx hc⟩
          | none =>
            obtain ⟨x, hxx⟩ := Option.ne_none_iff_exists'.1 h
            exact ⟨x, hxx ▸ .other hx hc⟩
    · rintro ⟨x, hx⟩
      generalize hy : some x = y at hx
      cases hx with
      | dir h => exact .inl (.inr ⟨h, hn.noSlash⟩)
      | file c _ h => exact .inl (.inl ⟨by rw [h]; simp, hn.noSlash⟩)
      | other _ _ => exact .inr (by rw [← hy]; simp)

/-- Each name is there once if the command has replaced nothing that was there before. -/
theorem c80_once {real : Str → Option (Node C)} {ents : Str → Option (List Str)} (ht : Tree real ents) {os : List (Op C)} {bs : List Bool}
    {r : Own C} (hr : Runs real {} os bs r) {d : Str} {l : List Str} (hp : Proper d r)
    (hn : ∀ f, r.files f ≠ none → real f = none)
    (h : (list real ents (run real {} os).1 d).2 = some l) : l.Nodup := by
  have ha := (sims hr Agree.init).2
  generalize (run real {} os).1 = s at ha h
  have ha' := ha.attr d
  unfold list at h
  cases hl : lookup real s d with
  | none => rw [hl] at h; cases h
  | some x =>
    cases x with
    | file c => rw [hl] at h; cases h
    | dir =>
      rw [hl] at h
      simp only at h
      rw [readdir_eq ha' d, attr_maps, attr_dirs] at h
      cases h
      have hmap : ∀ n, inDir d n ∈ s.maps.map Prod.fst → r.files (inDir d n) ≠ none := by
        intro n hx
        rw [Ne, ha.files_none, findMap_none, Classical.not_not]; exact hx
      have hdir : ∀ n, r.dirs n → real n = none := dirs_new hr (fun _ h => h.elim)
      rw [List.nodup_append, List.nodup_append]
      refine ⟨⟨children_nodup ha.inv.names, children_nodup ha.once, ?_⟩, ?_, ?_⟩
      · intro a h1 b h2 hab
        subst hab
        rw [mem_children] at h1 h2
        exact findMap_none.1 (ha.apart _ h2.1) h1.1
      · by_cases hdd : d ∈ s.dirs
        · rw [if_pos hdd]; exact List.nodup_nil
        · rw [if_neg hdd]
          unfold actual
          cases he : ents d with
          | none => exact List.nodup_nil
          | some l =>
            have hrd : real d = some .dir := by
              unfold lookup at hl
              rw [if_neg hdd] at hl
              cases hf : findMap d s.maps with
              | none => rw [hf] at hl; exact hl
              | some t =>
                rw [hf] at hl
                obtain ⟨c, hc⟩ := ha.present hf
                simp only [hc] at hl
                cases hl
            obtain ⟨l', h1, h2, _⟩ := ht.lists d hrd
            rw [he] at h1; cases h1
            exact List.Pairwise.filter _ h2
      · intro a h1 b h2 hab
        subst hab
        by_cases hdd : d ∈ s.dirs
        · rw [if_pos hdd] at h2; cases h2
        · rw [if_neg hdd] at h2
          have hrd : real d = some .dir := by
            unfold lookup at hl
            rw [if_neg hdd] at hl
            cases hf : findMap d s.maps with
            | none => rw [hf] at hl; exact hl
            | some t =>
              rw [hf] at hl
              obtain ⟨c, hc⟩ := ha.present hf
              simp only [hc] at hl
              cases hl
          rcases List.mem_append.1 h1 with h1 | h1
          · rw [mem_children] at h1
            have hm := hmap a h1.1
            have hpl := hp a (.inr hm) h1.2
            exact (mem_actual ht hrd hpl).1 h2 (hn _ hm)
          · rw [mem_children] at h1
            have hm := (ha.dirs _).2 h1.1
            have hpl := hp a (.inl hm) h1.2
            exact (mem_actual ht hrd hpl).1 h2 (hdir _ hm)

/-- A list changes nothing of what the command sees, and is recorded as a read access to the directory, unless the command has made it. -/
theorem c80_record {real : Str → Option (Node C)} {ents : Str → Option (List Str)} {os : List (Op C)} {bs : List Bool}
    {r : Own C} (hr : Runs real {} os bs r) {d : Str} (hd : Sees real r d (some .dir)) :
    let s := (run real {} os).1
    let s' := (list real ents s d).1
    (∀ f n, Sees real r f n ↔ lookup real s' f = n) ∧
    (∀ f, f ∈ s'.reads ↔ f ∈ s.reads ∨ (f = d ∧ ¬ r.dirs d)) ∧ s'.writes = s.writes ∧ s'.unlinks = s.unlinks := by
  have ha := (sims hr Agree.init).2
  intro s s'
  have hs' : s' = if d ∈ s.dirs then attr s d else recRead d (attr s d) := by
    show (list real ents s d).1 = _
    unfold list
    rw [ha.sees.1 hd]
    simp only
    rw [readdir_eq (ha.attr d) d, attr_dirs]
  have ha' : Agree s' r := by
    rw [hs']
    by_cases hdd : d ∈ s.dirs
    · rw [if_pos hdd]; exact ha.attr d
    · rw [if_neg hdd]; exact agree_read (ha.attr d) d
  refine ⟨fun f n => ha'.sees, ?_, ?_, ?_⟩
  · intro f
    rw [hs', ha.dirs]
    unfold attr
    by_cases hdd : d ∈ s.dirs
    · rw [if_pos hdd, if_pos hdd]
      constructor
      · exact .inl
      · rintro (h | ⟨_, h⟩)
        · exact h
        · exact absurd hdd h
    · rw [if_neg hdd, if_neg hdd]
      simp only [recRead, List.mem_append, List.mem_singleton]
      constructor
      · rintro ((h | h) | h)
        · exact .inl h
        · exact .inr ⟨h, hdd⟩
        · exact .inr ⟨h, hdd⟩
      · rintro (h | ⟨h, _⟩)
        · exact .inl (.inl h)
        · exact .inr h
  · rw [hs']; split
    · exact attr_writes s d
    · exact attr_writes s d
  · rw [hs']; split
    · exact attr_unlinks s d
    · exact attr_unlinks s d

/-- The same for the list alone (the kernel may remember that the name is that of a directory). -/
theorem c80_record_alone {real : Str → Option (Node C)} {ents : Str → Option (List Str)} {os : List (Op C)} {bs : List Bool}
    {r : Own C} (hr : Runs real {} os bs r) (d : Str) :
    let s := (run real {} os).1
    let s' := (readdir ents s d).1
    (∀ f, f ∈ s'.reads ↔ f ∈ s.reads ∨ (f = d ∧ ¬ r.dirs d)) ∧ s'.writes = s.writes ∧ s'.unlinks = s.unlinks := by
  have ha := (sims hr Agree.init).2
  intro s s'
  have hs' : s' = if d ∈ s.dirs then s else recRead d s := by
    show (readdir ents s d).1 = _
    rw [readdir_eq ha d]
  rw [hs', ha.dirs]
  by_cases hdd : d ∈ s.dirs
  · rw [if_pos hdd]
    refine ⟨fun f => ⟨.inl, ?_⟩, rfl, rfl⟩
    rintro (h | ⟨_, h⟩)
    · exact h
    · exact absurd hdd h
  · rw [if_neg hdd]
    refine ⟨fun f => ?_, rfl, rfl⟩
    simp only [recRead, List.mem_append, List.mem_singleton]
    constructor
    · rintro (h | h)
      · exact .inl h
      · exact .inr ⟨h, hdd⟩
    · rintro (h | ⟨h, _⟩)
      · exact .inl h
      · exact .inr h

/-! ### A project -/

def p (s : String) : Str := s.toList

/-- A file and a directory with a file. -/
def exTree : Str → Option (Node Nat) := fun f =>
  if f = p "" ∨ f = p "/p" ∨ f = p "/p/sub" then some .dir
  else if f = p "/p/a.c" then some (.file 1)
  else if f = p "/p/sub/s" then some (.file 2)
  else none

def exEnts : Str → Option (List Str) := fun d =>
  if d = p "/p" then some [p ".", p "..", p ".tup", p "a.c", p "sub"]
  else if d = p "/p/sub" then some [p ".", p "..", p "s"]
  else if d = p "" then some [p ".", p "..", p "p"]
  else none

/-- The command makes a file and a directory with a file. -/
def exOps : List (Op Nat) := [.put (p "/p/o") 5, .mkdir (p "/p/t"), .put (p "/p/t/x") 6]

example : (list exTree exEnts (run exTree {} exOps).1 (p "/p")).2 = some [p "o", p "t", p ".", p "..", p "a.c", p "sub"] ∧
    (list exTree exEnts (run exTree {} exOps).1 (p "/p/t")).2 = some [p "x"] ∧
    (list exTree exEnts (run exTree {} exOps).1 (p "/p/sub")).2 = some [p ".", p "..", p "s"] := by decide +kernel

def exNames : List Str := [p "", p "/p", p "/p/sub", p "/p/a.c", p "/p/sub/s"]

theorem ex_mem {f : Str} : exTree f ≠ none ↔ f ∈ exNames := by
  unfold exTree exNames
  simp only [List.mem_cons, List.not_mem_nil, or_false]
  by_cases h1 : f = p "" ∨ f = p "/p" ∨ f = p "/p/sub"
  · rw [if_pos h1]
    simp only [ne_eq, reduceCtorEq, not_false_eq_true, true_iff]
    rcases h1 with h | h | h
    · exact .inl h
    · exact .inr (.inl h)
    · exact .inr (.inr (.inl h))
  · rw [if_neg h1]
    by_cases h2 : f = p "/p/a.c"
    · rw [if_pos h2]
      simp only [ne_eq, reduceCtorEq, not_false_eq_true, true_iff]
      exact .inr (.inr (.inr (.inl h2)))
    · rw [if_neg h2]
      by_cases h3 : f = p "/p/sub/s"
      · rw [if_pos h3]
        simp only [ne_eq, reduceCtorEq, not_false_eq_true, true_iff]
        exact .inr (.inr (.inr (.inr h3)))
      · rw [if_neg h3]
        simp only [ne_eq, not_true_eq_false, false_iff]
        rintro (h | h | h | h | h)
        · exact h1 (.inl h)
        · exact h1 (.inr (.inl h))
        · exact h1 (.inr (.inr h))
        · exact h2 h
        · exact h3 h

/-- It is a tree as it is assumed. -/
theorem ex_tree : Tree exTree exEnts := by
  refine ⟨?_, ?_⟩
  · intro d n h
    refine Classical.byContradiction fun hne => ?_
    have hm := ex_mem.1 hne
    have key : ∀ x ∈ exNames, ∀ k < x.length, x[k]? = some '/' → x.take k ∈ exNames := by decide +kernel
    have hk := key _ hm d.length (by simp [inDir]) (by simp [inDir])
    rw [show (inDir d n).take d.length = d by simp [inDir]] at hk
    exact ex_mem.2 hk h
  · intro d hd
    have hm : d = p "" ∨ d = p "/p" ∨ d = p "/p/sub" := by
      unfold exTree at hd
      by_cases h1 : d = p "" ∨ d = p "/p" ∨ d = p "/p/sub"
      · exact h1
      · rw [if_neg h1] at hd
        split at hd
        · cases hd
        · split at hd <;> cases hd
    have hsl : ∀ {n : Str}, Plain n → ∀ m : Str, '/' ∈ m → n ≠ m := fun hn m hm e => hn.noSlash (e ▸ hm)
    rcases hm with rfl | rfl | rfl
    · refine ⟨[p ".", p "..", p "p"], by decide +kernel, by decide +kernel, fun n hn => ?_⟩
      rw [ex_mem]
      have h1 := hn.noDot
      have h2 := hn.noDots
      have h3 := hsl hn (p "p/sub") (by decide)
      have h4 := hsl hn (p "p/a.c") (by decide)
      have h5 := hsl hn (p "p/sub/s") (by decide)
      simp [exNames, inDir, p] at h1 h2 h3 h4 h5 ⊢
      simp [h1, h2, h3, h4, h5]
    · refine ⟨[p ".", p "..", p ".tup", p "a.c", p "sub"], by decide +kernel, by decide +kernel, fun n hn => ?_⟩
      rw [ex_mem]
      have h1 := hn.noDot
      have h2 := hn.noDots
      have h3 := hn.noTup
      have h5 := hsl hn (p "sub/s") (by decide)
      simp [exNames, inDir, p] at h1 h2 h3 h5 ⊢
      simp [h1, h2, h3, h5, or_comm]
    · refine ⟨[p ".", p "..", p "s"], by decide +kernel, by decide +kernel, fun n hn => ?_⟩
      rw [ex_mem]
      have h1 := hn.noDot
      have h2 := hn.noDots
      simp [exNames, inDir, p] at h1 h2 ⊢
      simp [h1, h2]

/-- The operations are usual ones, so the theorems apply. -/
theorem ex_runs : ∃ r, Runs exTree {} exOps [true, true, true] r := by
  refine ⟨_, .cons _ _ _ _ _ _ _ ?_ (.create _ _ ?_) (.cons _ _ _ _ _ _ _ trivial (.mkdir _ ?_) (.cons _ _ _ _ _ _ _ ?_ (.create _ _ ?_) (.nil _)))⟩
  · rintro ⟨c, h⟩
    have h2 : Sees exTree {} (p "/p/o") (exTree (p "/p/o")) := .other (fun h => h) rfl
    generalize hy : some (Node.file c) = y at h
    cases h with
    | dir h => cases h
    | file _ _ h => cases h
    | other _ _ => exact absurd hy (by rw [show exTree (p "/p/o") = none by decide +kernel]; simp)
  · exact .other (fun h => h) rfl
  · refine .other (fun h => h) ?_
    show (if p "/p/t" = p "/p/o" then some 5 else none) = none
    decide +kernel
  · rintro ⟨c, h⟩
    generalize hy : some (Node.file c) = y at h
    cases h with
    | dir h => cases hy
    | file _ _ h =>
      exfalso
      have : (if p "/p/t/x" = p "/p/o" then some 5 else (none : Option Nat)) = none := by decide +kernel
      rw [show (((({} : Own Nat).set (p "/p/o") (some 5)).setDir (p "/p/t") True).files (p "/p/t/x")) = _ from this] at h
      cases h
    | other _ _ => exact absurd hy (by rw [show exTree (p "/p/t/x") = none by decide +kernel]; simp)
  · refine .other ?_ ?_
    · show ¬ (if p "/p/t/x" = p "/p/t" then True else False)
      rw [if_neg (by decide +kernel)]; exact fun h => h
    · show (if p "/p/t/x" = p "/p/o" then some 5 else none) = none
      decide +kernel

/-- A file that the command has put in the place of another one by renaming is listed twice. -/
theorem c80_twice : (list exTree exEnts (run exTree {} [.put (p "/p/o") 5, .rename (p "/p/o") (p "/p/a.c")]).1 (p "/p")).2 =
    some [p "a.c", p ".", p "..", p "a.c", p "sub"] := by decide +kernel

/-- After an attempt to write a file that the command has not made, which fails, its directory cannot be listed any more. -/
theorem c80_fails : (run exTree {} [.put (p "/p/a.c") 5]).2 = [false] ∧
    (list exTree exEnts (run exTree {} [.put (p "/p/a.c") 5]).1 (p "/p")).2 = none := by decide +kernel

/-- If a directory that the command has made gets the name of another directory, what is in the other one is found by name but not listed. -/
theorem c80_hides : (run exTree {} [.mkdir (p "/p/t"), .rename (p "/p/t") (p "/p/sub")]).2 = [true, true] ∧
    (list exTree exEnts (run exTree {} [.mkdir (p "/p/t"), .rename (p "/p/t") (p "/p/sub")]).1 (p "/p/sub")).2 = some [] ∧
    lookup exTree (run exTree {} [.mkdir (p "/p/t"), .rename (p "/p/t") (p "/p/sub")]).1 (p "/p/sub/s") = some (.file 2) := by decide +kernel

end Tup.Readdir
