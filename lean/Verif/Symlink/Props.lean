import Verif.Symlink.Lemmas
import Verif.Pel.Props

/-!
C92: when a file is read through a symbolic link, tup notes both the link and a path that opens the same file.
-/

namespace Tup.Symlink

open Tup.Pel (Comps Name)

variable {fs : Fs} {top : Nat} {rl : Str → Option Str} {list : List Str}

theorem last_unique {s u u' n n' : Str} {D D' : Nat} (h : Last fs top s u n D) (h' : Last fs top s u' n' D') :
    u = u' ∧ n = n' ∧ D = D' := by
  have h1 := dirPart_last h.name.2.1 h.dir
  have h2 := dirPart_last h'.name.2.1 h'.dir
  rw [← h.eq] at h1
  rw [← h'.eq] at h2
  have hu : u = u' := h1.symm.trans h2
  subst hu
  have hn : n = n' := List.append_cancel_left (h.eq.symm.trans h'.eq)
  subst hn
  obtain ⟨l, a, b⟩ := h.opens
  obtain ⟨l', a', b'⟩ := h'.opens
  rw [← comps_unique a a'] at b'
  exact ⟨rfl, rfl, walk_unique b _ b'⟩

/-- There is such a kernel function. -/
theorem reads_exists (fs : Fs) (top : Nat) : ∃ rl, Reads fs top rl := by
  classical
  refine ⟨fun s => if h : ∃ t, ∃ u n D i, Last fs top s u n D ∧ fs.entry D n = some i ∧ fs.link i = some t ∧ t ≠ [] then
    some h.choose else none, fun s t => ?_⟩
  dsimp only
  split
  · rename_i h
    constructor
    · intro he
      cases he
      exact h.choose_spec
    · rintro ⟨u, n, D, i, h1, h2, h3, h4⟩
      obtain ⟨u', n', D', i', g1, g2, g3, g4⟩ := h.choose_spec
      obtain ⟨rfl, rfl, rfl⟩ := last_unique h1 g1
      rw [h2] at g2; cases g2
      rw [h3] at g3; cases g3
      rfl
  · rename_i h
    exact ⟨fun he => (by cases he), fun he => absurd ⟨t, he⟩ h⟩

/-- C92: a read of a symbolic link notes the link and one more path, and this path opens what the read opens. -/
theorem c92_link (hr : Reads fs top rl) {s u n t : Str} {D i : Nat} (hl : Last fs top s u n D) (he : fs.entry D n = some i)
    (ht : fs.link i = some t) (hne : t ≠ []) (hlen : t.length < 4096) :
    ∃ p, handleRead rl list s = some (list ++ [s, p]) ∧ ∀ q, Opens fs top p q ↔ Opens fs top s q := by
  have hrl : rl s = some t := (hr s t).2 ⟨u, n, D, i, hl, he, ht, hne⟩
  have htake : t.take pathMax = t := List.take_of_length_le (by unfold pathMax; omega)
  have hh : n.head? ≠ some '/' := by
    obtain ⟨c, n', hc⟩ := List.exists_cons_of_ne_nil hl.name.1
    rw [hc]
    intro h
    simp only [List.head?_cons, Option.some.injEq] at h
    exact hl.name.2.1 (by rw [hc, h]; exact List.mem_cons_self)
  have hopen : ∀ q, Opens fs top s q ↔ Opens fs D t q := by
    intro q
    rw [hl.eq, opens_join hl.opens hl.dir hh, opens_link hl.name he ht hne]
  have hp : ∃ p, getSymlink rl s = .path p ∧ ∀ q, Opens fs top p q ↔ Opens fs top s q := by
    unfold getSymlink
    rw [hrl]
    dsimp only
    rw [htake, if_neg hne, if_neg (by unfold pathMax; omega)]
    by_cases hs : t.head? = some '/'
    · rw [if_pos hs]
      refine ⟨t, rfl, fun q => ?_⟩
      rw [hopen q]
      unfold Opens Fs.start
      simp only [hs, if_true]
    · rw [if_neg hs]
      have hgen : ∀ q, Opens fs top (u ++ t) q ↔ Opens fs top s q := by
        intro q
        rw [hopen q, opens_join hl.opens hl.dir hs]
      by_cases hin : '/' ∈ s
      · rw [if_pos hin]
        refine ⟨_, rfl, ?_⟩
        rw [hl.eq, dirPart_last hl.name.2.1 hl.dir, ← hl.eq]
        exact hgen
      · rw [if_neg hin]
        refine ⟨_, rfl, ?_⟩
        have hu : u = [] := by
          rcases hl.dir with h | h
          · exact h
          · exact absurd (by rw [hl.eq]; exact List.mem_append_left _ (List.mem_of_getLast? h)) hin
        rw [hu, List.nil_append] at hgen
        exact hgen
  obtain ⟨p, h1, h2⟩ := hp
  refine ⟨p, ?_, h2⟩
  unfold handleRead
  rw [h1]
  simp

/-- C92: if that path names a file itself, it is the file that is read. -/
theorem c92_file {s p : Str} {q q' : Nat} (ho : ∀ q, Opens fs top p q ↔ Opens fs top s q) (hs : Opens fs top s q)
    (hn : Names fs top p q') : q' = q := by
  obtain ⟨u, n, D, hl, he, hk⟩ := hn
  have hh : n.head? ≠ some '/' := by
    obtain ⟨c, n', hc⟩ := List.exists_cons_of_ne_nil hl.name.1
    rw [hc]
    intro h
    simp only [List.head?_cons, Option.some.injEq] at h
    exact hl.name.2.1 (by rw [hc, h]; exact List.mem_cons_self)
  have h1 : Opens fs top p q' := by
    rw [hl.eq, opens_join hl.opens hl.dir hh]
    refine ⟨[n], comps_name hl.name, ?_⟩
    unfold Fs.start
    rw [if_neg hh]
    exact .down hl.name he hk (.here _)
  obtain ⟨l, a, b⟩ := (ho q).2 hs
  obtain ⟨l', a', b'⟩ := h1
  rw [comps_unique a' a] at b'
  exact walk_unique b' _ b

/-- C92: a read of anything else notes that path only. -/
theorem c92_plain (hr : Reads fs top rl) {s : Str}
    (hno : ¬ ∃ u n D i t, Last fs top s u n D ∧ fs.entry D n = some i ∧ fs.link i = some t ∧ t ≠ []) :
    handleRead rl list s = some (list ++ [s]) := by
  unfold handleRead getSymlink
  cases h : rl s with
  | none => rfl
  | some t =>
    obtain ⟨u, n, D, i, g⟩ := (hr s t).1 h
    exact absurd ⟨u, n, D, i, t, g⟩ hno

/-- The exception to C92: only one link is followed.  If the path of a link names another link, neither of the two noted
paths names the file, so that a change of the file is not noticed. -/
theorem c92_chain (hr : Reads fs top rl) {s u n p u' n' t t' : Str} {D i D' i' : Nat} (hl : Last fs top s u n D)
    (he : fs.entry D n = some i) (ht : fs.link i = some t) (hne : t ≠ []) (hlen : t.length < 4096)
    (hp : handleRead rl list s = some (list ++ [s, p])) (hl' : Last fs top p u' n' D') (he' : fs.entry D' n' = some i')
    (ht' : fs.link i' = some t') :
    (∀ q, Opens fs top p q ↔ Opens fs top s q) ∧ ∀ q, ¬ Names fs top s q ∧ ¬ Names fs top p q := by
  obtain ⟨p', h1, h2⟩ := c92_link (list := list) hr hl he ht hne hlen
  rw [hp] at h1
  simp only [Option.some.injEq, List.append_cancel_left_eq, List.cons.injEq, and_true, true_and] at h1
  subst h1
  refine ⟨h2, fun q => ⟨?_, ?_⟩⟩
  · rintro ⟨a, b, c, g1, g2, g3⟩
    obtain ⟨_, rfl, rfl⟩ := last_unique hl g1
    rw [he] at g2; cases g2
    rw [ht] at g3; cases g3
  · rintro ⟨a, b, c, g1, g2, g3⟩
    obtain ⟨_, rfl, rfl⟩ := last_unique hl' g1
    rw [he'] at g2; cases g2
    rw [ht'] at g3; cases g3

/-- A link with a text of `PATH_MAX` characters or more (which Linux does not allow) is undefined behaviour. -/
theorem c92_long {s t : Str} (h : rl s = some t) (hlen : 4096 ≤ t.length) : handleRead rl list s = none := by
  have hb : (t.take pathMax).length = pathMax := by rw [List.length_take]; unfold pathMax; omega
  unfold handleRead getSymlink
  rw [h]
  dsimp only
  rw [if_neg (fun hn => by rw [hn] at hb; simp [pathMax] at hb), if_pos hb]

/-! The top 1 has the directories `x` (3) with `y` (4) and `f` (6), and `z`, a file `f` (7), the links `d` to `x/y`, `a` to
`b` and `b` to `x/f`; `y` has a link `l` to `../f`. -/

def exFs : Fs where
  root := 0
  parent d := if d = 4 then 3 else if d = 3 then 1 else 0
  entry d n := ([((1, "d".toList), 2), ((1, "x".toList), 3), ((3, "y".toList), 4), ((4, "l".toList), 5), ((3, "f".toList), 6),
    ((1, "f".toList), 7), ((1, "a".toList), 8), ((1, "b".toList), 9)] : List ((Nat × Str) × Nat)).lookup (d, n)
  link i := ([(2, "x/y".toList), (5, "../f".toList), (8, "b".toList), (9, "x/f".toList)] : List (Nat × Str)).lookup i

theorem nm (s : Str) (h : s ≠ [] ∧ '/' ∉ s ∧ s ≠ ".".toList ∧ s ≠ "..".toList) : Name s := h

theorem cs (a : Str) (b : Str) (ha : Name a) (hb : Name b) : Comps (a ++ '/' :: b) [a, b] := by
  have := Comps.cons (w := []) (e := a) (t := '/' :: b) (l := [b]) (by simp) ha.1 ha.2.1 (by simp)
    (by simpa using comps_lead (w := ['/']) (by simp) (comps_name hb))
  simpa using this

theorem opens_d : Opens exFs 1 "d/".toList 4 := by
  refine ⟨["d".toList], ?_, ?_⟩
  · have := Comps.cons (w := []) (e := "d".toList) (t := "/".toList) (l := []) (by simp) (by decide) (by decide) (by decide) (.nil (by decide))
    exact this
  · refine .link (i := 2) (t := "x/y".toList) (lt := ["x".toList, "y".toList]) (j := 4) (nm _ (by decide)) (by decide +kernel) (by decide +kernel)
      (by decide) (cs "x".toList "y".toList (nm _ (by decide)) (nm _ (by decide))) ?_ (.here _)
    exact .down (i := 3) (nm _ (by decide)) (by decide +kernel) (by decide +kernel)
      (.down (i := 4) (nm _ (by decide)) (by decide +kernel) (by decide +kernel) (.here _))

theorem opens_nil (d : Nat) : Opens exFs d [] d := ⟨[], .nil (by simp), .here d⟩

theorem last_dl : Last exFs 1 "d/l".toList "d/".toList "l".toList 4 :=
  ⟨by decide, nm _ (by decide), .inr (by decide), opens_d⟩

theorem last_a : Last exFs 1 "a".toList [] "a".toList 1 := ⟨rfl, nm _ (by decide), .inl rfl, opens_nil 1⟩
theorem last_b : Last exFs 1 "b".toList [] "b".toList 1 := ⟨rfl, nm _ (by decide), .inl rfl, opens_nil 1⟩
theorem last_f : Last exFs 1 "f".toList [] "f".toList 1 := ⟨rfl, nm _ (by decide), .inl rfl, opens_nil 1⟩

/-- `b` is a link to `x/f`. -/
example : ∃ rl, Reads exFs 1 rl ∧ ∃ p, handleRead rl [] "b".toList = some ["b".toList, p] := by
  obtain ⟨rl, hr⟩ := reads_exists exFs 1
  obtain ⟨p, h, _⟩ := c92_link (list := []) hr last_b (i := 9) (t := "x/f".toList) (by decide +kernel) (by decide +kernel) (by decide) (by decide)
  exact ⟨rl, hr, p, h⟩

/-- `a` is a link to the link `b`: the file `x/f` is not noted. -/
theorem c92_chain_sample (hr : Reads exFs 1 rl) : handleRead rl [] "a".toList = some ["a".toList, "b".toList] ∧
    ∀ q, ¬ Names exFs 1 "a".toList q ∧ ¬ Names exFs 1 "b".toList q := by
  have h : rl "a".toList = some "b".toList :=
    (hr _ _).2 ⟨_, _, _, 8, last_a, by decide +kernel, by decide +kernel, by decide⟩
  have h2 : handleRead rl [] "a".toList = some ["a".toList, "b".toList] := by
    unfold handleRead getSymlink
    rw [h]
    decide +kernel
  exact ⟨h2, (c92_chain (list := []) hr last_a (i := 8) (t := "b".toList) (by decide +kernel) (by decide +kernel) (by decide) (by decide) h2
    last_b (i' := 9) (t' := "x/f".toList) (by decide +kernel) (by decide +kernel)).2⟩

/-- `f` is not a link. -/
example (hr : Reads exFs 1 rl) : handleRead rl [] "f".toList = some ["f".toList] :=
  c92_plain hr (by
    rintro ⟨u, n, D, i, t, hl, he, ht, _⟩
    obtain ⟨_, rfl, rfl⟩ := last_unique last_f hl
    have : exFs.entry 1 "f".toList = some 7 := by decide +kernel
    rw [this] at he; cases he
    have : exFs.link 7 = none := by decide +kernel
    rw [this] at ht; cases ht)

/-- The other exception: the noted path is taken apart by names (C11).  If a directory on the path is a link as
well, `..` in the text of the link leads elsewhere: for `d/l` the path `d/../f` is noted, which opens `x/f` (6), but tup takes
it for `f`, which is another file (7). -/
theorem c92_dotdot (hr : Reads exFs 1 rl) :
    handleRead rl [] "d/l".toList = some ["d/l".toList, "d/../f".toList] ∧ Opens exFs 1 "d/../f".toList 6 ∧
      Tup.Pel.splitPath "d/../f".toList = some (false, ⟨["f".toList], 1⟩) ∧ Names exFs 1 "f".toList 7 := by
  have h : rl "d/l".toList = some "../f".toList :=
    (hr _ _).2 ⟨_, _, _, 5, last_dl, by decide +kernel, by decide +kernel, by decide⟩
  refine ⟨?_, ?_, by decide +kernel, [], "f".toList, 1, last_f, by decide +kernel, by decide +kernel⟩
  · unfold handleRead getSymlink
    rw [h]
    decide +kernel
  · have := (opens_join (q := 6) opens_d (.inr (by decide)) (t := "../f".toList) (by decide)).2 ?_
    · exact this
    · refine ⟨["..".toList, "f".toList], ?_, ?_⟩
      · have := Comps.cons (w := []) (e := "..".toList) (t := "/f".toList) (l := ["f".toList]) (by simp) (by decide) (by decide) (by decide)
          (comps_lead (w := ['/']) (s := "f".toList) (by simp) (comps_name (nm _ (by decide))))
        exact this
      · refine .up ?_
        exact .down (i := 6) (nm _ (by decide)) (by decide +kernel) (by decide +kernel) (.here _)

end Tup.Symlink
