import Verif.LuaNames.Lemmas
import Verif.Names.Props

/-! Property theorems for C87. -/

namespace Tup.LuaNames

open Tup (Str)

/-- **C87 (`tup.file`).** It gives what is behind the last slash or backslash. -/
theorem c87_file {d name : Str} (hd : IsDir d) (hn : IsName name) : file (d ++ name) = some name :=
  file_loop hn d.length d _ none (Nat.le_refl _) (by omega) (Or.inl rfl) hd

/-- Every path is such a directory and name. -/
theorem c87_split (s : Str) : ∃ d name, s = d ++ name ∧ IsDir d ∧ IsName name := by
  induction s with
  | nil => exact ⟨[], [], rfl, Or.inl rfl, fun c h => by cases h⟩
  | cons c t ih =>
    obtain ⟨d, n, rfl, hd, hn⟩ := ih
    rcases hd with rfl | ⟨e, x, rfl, hx⟩
    · by_cases hc : c = '/' ∨ c = '\\'
      · exact ⟨[c], n, rfl, Or.inr ⟨[], c, rfl, hc⟩, hn⟩
      · refine ⟨[], c :: n, rfl, Or.inl rfl, fun x hx => ?_⟩
        rcases List.mem_cons.mp hx with rfl | hx
        · exact ⟨fun e => hc (Or.inl e), fun e => hc (Or.inr e)⟩
        · exact hn x hx
    · exact ⟨c :: (e ++ [x]), n, rfl, Or.inr ⟨c :: e, x, rfl, hx⟩, hn⟩

example : IsDir "../src/".toList ∧ IsName "main.tar.gz".toList := ⟨Or.inr ⟨"../src".toList, '/', rfl, Or.inl rfl⟩, by decide +kernel⟩

/-- **C87 (with an extension).** If the name is a stem, a dot and letters and digits, `tup.base` is the stem and `tup.ext` the rest. -/
theorem c87_ext {d stem x : Str} (hd : IsDir d) (hs : IsName stem) (hx : Alnum x) : base (d ++ (stem ++ '.' :: x)) = some stem ∧ ext (d ++ (stem ++ '.' :: x)) = x := by
  have hn : IsName (stem ++ '.' :: x) := by
    intro c hc
    rcases List.mem_append.mp hc with hc | hc
    · exact hs c hc
    · rcases List.mem_cons.mp hc with rfl | hc
      · exact ⟨by decide, by decide⟩
      · have := hx c hc
        exact ⟨fun e => by subst e; exact absurd this (by decide), fun e => by subst e; exact absurd this (by decide)⟩
  refine ⟨?_, ?_⟩
  · unfold base
    rw [c87_file hd hn]
    exact base_hit hx stem _ (by simp; omega)
  · unfold ext
    rw [← List.append_assoc, ext_hit hx]

example : IsName "main.tar".toList ∧ Alnum "gz".toList ∧ base "../src/main.tar.gz".toList = some "main.tar".toList ∧ ext "../src/main.tar.gz".toList = "gz".toList := by
  refine ⟨?_, ?_, ?_, ?_⟩
  · decide +kernel
  · decide +kernel
  · decide +kernel
  · decide +kernel

/-- **C87 (without an extension).** If the name does not end with a dot and letters and digits, `tup.base` is all of it and `tup.ext` is empty. -/
theorem c87_no_ext {d name : Str} (hd : IsDir d) (hn : IsName name) (h : ∀ a x, name = a ++ '.' :: x → ¬ Alnum x) : base (d ++ name) = some name ∧ ext (d ++ name) = [] := by
  refine ⟨?_, ?_⟩
  · unfold base
    rw [c87_file hd hn]
    exact base_miss h
  · unfold ext
    rw [ext_miss]
    intro a x e hx
    -- the dot is behind the last separator, as there is none in `x`
    rcases List.append_eq_append_iff.mp e with ⟨u, hu, hv⟩ | ⟨u, hu, hv⟩
    · exact h u x hv hx
    · rcases hd with rfl | ⟨e', c, rfl, hc⟩
      · cases a with
        | nil =>
          have : u = [] := by
            cases u with
            | nil => rfl
            | cons y u => cases hu
          subst this
          exact h [] x hv.symm hx
        | cons y a => cases hu
      · cases hr : u.reverse with
        | nil =>
          have : u = [] := List.reverse_eq_nil_iff.mp hr
          subst this
          exact h [] x hv.symm hx
        | cons y w =>
          have eu : u = w.reverse ++ [y] := by
            rw [← List.reverse_reverse u, hr]
            simp
          rw [eu, ← List.append_assoc] at hu
          obtain ⟨_, h3⟩ := List.append_inj' hu rfl
          cases h3
          have hm : c ∈ '.' :: x := by
            rw [hv, eu]
            simp
          rcases List.mem_cons.mp hm with rfl | hm
          · rcases hc with hc | hc <;> exact absurd hc (by decide)
          · have := hx c hm
            rcases hc with rfl | rfl <;> exact absurd this (by decide)

example : IsName "main.c++".toList ∧ base "src.d/main.c++".toList = some "main.c++".toList ∧ ext "src.d/main.c++".toList = [] ∧ base "a.d/Makefile".toList = some "Makefile".toList ∧ ext "a.d/Makefile".toList = [] := by
  refine ⟨?_, ?_, ?_, ?_, ?_⟩ <;> decide +kernel

/-- **C87 (as in a Tupfile).** For a file of the project without a backslash in its path, whose extension has letters and digits only and whose name does not start with its only dot, `tup.file`, `tup.base` and `tup.ext` are what `%b`, `%B` and `%e`
of a rule in a Tupfile stand for: the name, as many characters of it as `%B` takes, and the rest of the path from where `%e` takes it. -/
theorem c87_as_tupfile {pat rel name stem : Str} {x : Option Str} {orderid tent : Nat} {e : Names.Entry} (h : Names.fileEntry pat rel name orderid tent = .ok e) (hr : rel = name ∨ ∃ d, rel = d ++ "/".toList ++ name)
    (hs : '/' ∉ name) (hb : '\\' ∉ rel) (hn : Names.Named name stem x) (hx : ∀ y, x = some y → Alnum y) (hp : x = none → '.' ∉ name) :
    file rel = some e.base ∧ base rel = some (e.base.take e.extlessbaselen.toNat)
      ∧ (∀ y, x = some y → ext rel = e.path.drop (e.extlesslen.toNat + 1)) ∧ (x = none → ext rel = []) := by
  obtain ⟨h1, h2, h3, h4, _⟩ := Names.c55_file h hs hr hn
  obtain ⟨d, rfl, hd⟩ : ∃ d, rel = d ++ name ∧ IsDir d := by
    rcases hr with rfl | ⟨d, rfl⟩
    · exact ⟨[], rfl, Or.inl rfl⟩
    · exact ⟨d ++ "/".toList, rfl, Or.inr ⟨d, '/', rfl, Or.inl rfl⟩⟩
  have hname : IsName name := fun c hc => ⟨fun e => hs (e ▸ hc), fun e => hb (e ▸ List.mem_append_right _ hc)⟩
  rw [h2, h3]
  refine ⟨c87_file hd hname, ?_⟩
  cases hn with
  | @ext _ y hs0 hy =>
    have ee : stem ++ ".".toList ++ y = stem ++ '.' :: y := by simp
    rw [ee] at hname ⊢
    have hst : IsName stem := fun c hc => hname c (List.mem_append_left _ hc)
    obtain ⟨r1, r2⟩ := c87_ext hd hst (hx y rfl)
    refine ⟨?_, ?_, fun h => by cases h⟩
    · rw [r1]
      simp
    · intro z hz
      rw [h4 z hz, r2]
      cases hz
      rfl
  | plain hpl =>
    obtain ⟨r1, r2⟩ := c87_no_ext hd hname (fun a z e _ => hp rfl (by rw [e]; simp))
    refine ⟨?_, fun y hy => (by cases hy), fun _ => r2⟩
    rw [r1]
    simp

example : ∃ e, Names.fileEntry "*.c".toList "src/a.b.c".toList "a.b.c".toList 1 7 = .ok e ∧ file "src/a.b.c".toList = some e.base ∧ base "src/a.b.c".toList = some "a.b".toList ∧ ext "src/a.b.c".toList = "c".toList := by
  refine ⟨⟨"src/a.b.c".toList, 7, [(0, some 3)], 1, some 7⟩, ?_, ?_, ?_, ?_⟩ <;> decide +kernel

/-- **C87 (what differs).** An extension with another character, a name that starts with its only dot, and a backslash are treated in other ways than in a Tupfile, where `%B` of these is `a`, `.profile`, and `x\\a`. -/
theorem c87_differences :
    base "a.c++".toList = some "a.c++".toList ∧ ext "a.c++".toList = []
    ∧ base ".profile".toList = some [] ∧ ext ".profile".toList = "profile".toList
    ∧ base "x\\a.c".toList = some "a".toList
    ∧ Names.Named "a.c++".toList "a".toList (some "c++".toList) ∧ Names.Named ".profile".toList ".profile".toList none ∧ Names.Named "x\\a.c".toList "x\\a".toList (some "c".toList) := by
  refine ⟨?_, ?_, ?_, ?_, ?_, ?_, ?_, ?_⟩
  · decide +kernel
  · decide +kernel
  · decide +kernel
  · decide +kernel
  · decide +kernel
  · exact .ext (s := "a".toList) (by decide) (by decide)
  · exact .plain (by decide)
  · exact .ext (s := "x\\a".toList) (by decide) (by decide)

end Tup.LuaNames
