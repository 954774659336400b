import Verif.LnCmd.Lemmas

/-!
C90: a link that `!tup_ln` or `!tup_preserve` makes leads to the input.
-/

namespace Tup.LnCmd

open Tup (Str isSpace skipSpaces)
open Tup.Relative (Table relative Place Proper Exists)
open Tup.Pel (Comps Leads Name)

/-- **C90 (the command).** With one input and one output the macros give a command that `update` does not run in a shell, but takes apart: the input, a space, the output. -/
theorem c90_command {a : Printf.Args} {e o : Names.Entry} {g g' : Nat} (hi : a.nl = ⟨[e], g⟩) (ho : a.onl = some ⟨[o], g'⟩) :
    (∃ t, Printf.printf a lnText = .ok t ∧ builtin t = some (e.path ++ ' ' :: o.path))
    ∧ ∃ t, Printf.printf a preserveText = .ok t ∧ builtin t = some (e.path ++ ' ' :: o.path) := by
  have hf : Printf.flag a "f %o".toList = .ok (e.path, " %o".toList) := by
    have h : Printf.oneFlag a 'f' = some (.ok e.path) := by
      rw [Printf.oneFlag_f, hi]
      rfl
    show Printf.flag a ('f' :: " %o".toList) = _
    unfold Printf.flag
    dsimp only
    rw [h]
  have hg : Printf.flag a "o".toList = .ok (o.path, []) := by
    have h : Printf.oneFlag a 'o' = some (.ok o.path) := by
      rw [Printf.oneFlag_o, ho]
      rfl
    show Printf.flag a ['o'] = _
    unfold Printf.flag
    dsimp only
    rw [h]
  have h1 : Printf.printf a "%f %o".toList = .ok (e.path ++ ' ' :: o.path) := by
    have h2 : Printf.printf a "%o".toList = .ok o.path := by
      show Printf.printf a ('%' :: "o".toList) = _
      rw [Printf.printf_flag, hg]
      dsimp only
      rw [Printf.printf_nil]
      simp
    show Printf.printf a ('%' :: "f %o".toList) = _
    rw [Printf.printf_flag, hf]
    dsimp only
    rw [show Printf.printf a " %o".toList = .ok (' ' :: o.path) from by
      show Printf.printf a (' ' :: "%o".toList) = _
      rw [Printf.printf_cons a (by decide), h2]]
  have hp : ∀ s : Str, '%' ∉ s → ∀ t, Printf.printf a t = .ok (e.path ++ ' ' :: o.path) → Printf.printf a (s ++ t) = .ok (s ++ (e.path ++ ' ' :: o.path)) := by
    intro s hs t ht
    induction s with
    | nil => exact ht
    | cons c s ih =>
      rw [List.cons_append, Printf.printf_cons a (fun h => hs (by rw [h]; exact List.mem_cons_self)), ih (fun h => hs (List.mem_cons_of_mem _ h))]
      rfl
  refine ⟨⟨_, hp "!tup_ln ".toList (by decide) _ h1, ?_⟩, ⟨_, hp "!tup_preserve ".toList (by decide) _ h1, ?_⟩⟩
  · rfl
  · rfl

example : ∃ a : Printf.Args, ∃ e o g g', a.nl = ⟨[e], g⟩ ∧ a.onl = some ⟨[o], g'⟩ ∧ (e : Names.Entry).path = "a.c".toList ∧ (o : Names.Entry).path = "lib/x".toList :=
  ⟨⟨⟨[⟨"a.c".toList, 1, [], 1, none⟩], 0⟩, some ⟨[⟨"lib/x".toList, 5, [], 1, none⟩], 0⟩, none, none, [], true⟩, _, _, _, _, rfl, rfl, rfl, rfl⟩

/-- **C90 (the link).** For an input and an output without white space the link is made at the path of the output, and it is relative; followed from the directory of the output it leads where the path of the input leads from the source directory of
the command. -/
theorem c90_link {T : Table} {fuel src out : Nat} {p q r : List Str} {f o : Str} {l : List Str} (hT : Proper T) (hs : Place T src q) (ho : Place T out p) (h1 : p.length < fuel) (h2 : q.length < fuel)
    (hf : Word f) (hlen : f.length < 4095) (hw : Word o) (hl : Comps f l) (hr : Leads (Exists T) q l r) :
    ∃ t, doLn T fuel src [out] (f ++ ' ' :: o) = .link t o ∧ t.head? ≠ some '/' ∧ ∃ m, Comps t m ∧ Leads (Exists T) p m r := by
  obtain ⟨e, he⟩ := Relative.c14_defined ho hs h1 h2 '/'
  obtain ⟨k, hk, hk2⟩ := Relative.c14_arrives hT ho hs he
  obtain ⟨c, hc, hc2⟩ := relative_head hT ho hs he
  have hwords : words (f ++ ' ' :: o) = .ok f o := by
    have := words_eq (w := []) (g := [' ']) (fun c hc => (by cases hc)) hf ⟨by decide, fun c hc => by rw [List.mem_singleton.mp hc]; decide⟩ (o := o) fun c hc => hw.2 c (List.mem_of_mem_head? hc)
    rw [if_neg (by omega)] at this
    simpa using this
  refine ⟨e ++ ['/'] ++ f, ?_, ?_, k ++ l, ?_, (Pel.leads_append _ _).mpr ⟨q, hk2, hr⟩⟩
  · unfold doLn
    rw [hwords]
    dsimp only
    unfold symlink
    rw [he]
  · cases e with
    | nil => cases hc
    | cons d e =>
      injection hc with hc
      intro h
      injection h with h
      exact hc2 (hc.symm.trans h)
  · rw [List.append_assoc]
    exact comps_join hk hl

theorem place2 : Place Relative.exT 2 ["src".toList] := .child (p := []) rfl (.top rfl)
theorem place3 : Place Relative.exT 3 ["src".toList, "a.c".toList] := .child (p := ["src".toList]) rfl place2
theorem place4 : Place Relative.exT 4 ["src".toList, "lib".toList] := .child (p := ["src".toList]) rfl place2
theorem word_dec {s : Str} (h : s ≠ []) (h2 : (s.all fun c => !isSpace c) = true) : Word s := ⟨h, fun c hc => by simpa using List.all_eq_true.mp h2 c hc⟩

/-- Case: the command in `src` with input `a.c` and output `lib/x`. -/
example : ∃ t, doLn Relative.exT 10 2 [4] "a.c lib/x".toList = .link t "lib/x".toList ∧ t.head? ≠ some '/' ∧ ∃ m, Comps t m ∧ Leads (Exists Relative.exT) ["src".toList, "lib".toList] m ["src".toList, "a.c".toList] :=
  c90_link (f := "a.c".toList) (o := "lib/x".toList) (l := ["a.c".toList]) Relative.exT_proper place2 place4 (by decide) (by decide) (word_dec (by decide) (by decide)) (by decide) (word_dec (by decide) (by decide))
    (Pel.comps_text (l := ["a.c".toList]) (by intro e he; rw [List.mem_singleton.1 he]; exact ⟨by decide, by decide⟩) (w := []) (by simp))
    (.down ⟨by decide, by decide, by decide, by decide⟩ ⟨3, place3⟩ .here)
example : doLn Relative.exT 10 2 [4] "a.c lib/x".toList = .link "../a.c".toList "lib/x".toList := by decide +kernel

/-- **C90 (inputs outside of the project).** The link is relative even if the path of the input is absolute; it then leads into the project, not to the input. -/
theorem c90_absolute {T : Table} {fuel src out : Nat} {p q : List Str} {f o : Str} {l : List Str} (hT : Proper T) (hs : Place T src q) (ho : Place T out p) (h1 : p.length < fuel) (h2 : q.length < fuel)
    (hf : Word ('/' :: f)) (hlen : f.length < 4094) (hw : Word o) (hl : Comps f l) :
    ∃ t, doLn T fuel src [out] ('/' :: f ++ ' ' :: o) = .link t o ∧ t.head? ≠ some '/'
      ∧ ∃ m, Comps t (m ++ l) ∧ ∀ D r, Leads D q l r → (∀ x, Exists T x → D x) → Leads D p (m ++ l) r := by
  obtain ⟨e, he⟩ := Relative.c14_defined ho hs h1 h2 '/'
  obtain ⟨k, hk, hk2⟩ := Relative.c14_arrives hT ho hs he
  obtain ⟨c, hc, hc2⟩ := relative_head hT ho hs he
  have hwords : words ('/' :: f ++ ' ' :: o) = .ok ('/' :: f) o := by
    have := words_eq (w := []) (g := [' ']) (fun c hc => (by cases hc)) hf ⟨by decide, fun c hc => by rw [List.mem_singleton.mp hc]; decide⟩ (o := o) fun c hc => hw.2 c (List.mem_of_mem_head? hc)
    rw [if_neg (by rw [List.length_cons]; omega)] at this
    simpa using this
  have mono : ∀ {D : List Str → Prop} {p m r : List Str}, (∀ x, Exists T x → D x) → Leads (Exists T) p m r → Leads D p m r := by
    intro D p m r hD h
    induction h with
    | here => exact .here
    | dot _ ih => exact .dot ih
    | up _ ih => exact .up ih
    | down hn hx _ ih => exact .down hn (hD _ hx) ih
  refine ⟨e ++ ['/'] ++ '/' :: f, ?_, ?_, k, ?_, fun D r hr hD => (Pel.leads_append _ _).mpr ⟨q, mono hD hk2, hr⟩⟩
  · unfold doLn
    rw [hwords]
    dsimp only
    unfold symlink
    rw [he]
  · cases e with
    | nil => cases hc
    | cons d e =>
      injection hc with hc
      intro h
      injection h with h
      exact hc2 (hc.symm.trans h)
  · rw [List.append_assoc]
    exact comps_join hk (comps_slash hl)

example : doLn Relative.exT 10 2 [4] "/etc/passwd lib/x".toList = .link "..//etc/passwd".toList "lib/x".toList := by decide +kernel

/-- **C90 (white space).** An input with white space in its path is cut there: the link leads to what its first word names, and is made at the rest, together with the output. -/
theorem c90_spaces {T : Table} {fuel src out : Nat} {f g rest o e : Str} (hf : Word f) (hlen : f.length < 4095) (hg : Gap g) (hr : Word rest)
    (he : relative T fuel out src '/' = some e) :
    doLn T fuel src [out] ((f ++ g ++ rest) ++ ' ' :: o) = .link (e ++ ['/'] ++ f) (rest ++ ' ' :: o) := by
  have hwords : words ((f ++ g ++ rest) ++ ' ' :: o) = .ok f (rest ++ ' ' :: o) := by
    have := words_eq (w := []) (fun c hc => (by cases hc)) hf hg (o := rest ++ ' ' :: o) (by
      intro c hc
      have h1 := hr.1
      cases rest with
      | nil => exact absurd rfl h1
      | cons d rest =>
        injection hc with hc
        rw [← hc]
        exact hr.2 d List.mem_cons_self)
    rw [if_neg (by omega)] at this
    simpa using this
  unfold doLn
  rw [hwords]
  dsimp only
  unfold symlink
  rw [he]

/-- Case: the input is `my file.c`. -/
example : doLn Relative.exT 10 2 [4] "my file.c lib/x".toList = .link "../my".toList "file.c lib/x".toList := by decide +kernel
example : Word "my".toList ∧ Gap " ".toList ∧ Word "file.c".toList :=
  ⟨word_dec (by decide) (by decide), ⟨by decide, by decide⟩, word_dec (by decide) (by decide)⟩

/-- **C90 (undefined behaviour).** The text is read behind its end exactly if it has only one word, without white space behind it; and the command without outputs reads a null pointer. -/
theorem c90_undefined {T : Table} {fuel src : Nat} {outs : List Nat} {s : Str} :
    doLn T fuel src outs s = .ub ↔ OneWord s ∨ (outs = [] ∧ words s ≠ .tooLong) := by
  rw [← words_ub]
  unfold doLn symlink
  cases hw : words s with
  | ub => simp
  | tooLong =>
    match outs with
    | [] => simp
    | [a] => simp
    | a :: b :: c => simp
  | ok i o =>
    match outs with
    | [] => simp
    | [a] =>
      dsimp only
      cases relative T fuel a src '/' <;> simp
    | a :: b :: c => simp

/-- Cases: the rules `: |> ^ x^ !tup_ln a |>` and `: |> ^ x^ !tup_ln a b |>`, whose commands begin with a caret and so are not looked up as macros. -/
example : builtin "!tup_ln a".toList = some "a".toList ∧ doLn Relative.exT 10 2 [] "a".toList = .ub ∧ doLn Relative.exT 10 2 [] "a b".toList = .ub := by decide +kernel

/-- **C90 (several outputs).** They are an error. -/
theorem c90_outputs {T : Table} {fuel src a b : Nat} {outs : List Nat} {s : Str} (h : ¬ OneWord s) : doLn T fuel src (a :: b :: outs) s = .err := by
  unfold doLn
  cases hw : words s with
  | ub => exact absurd (words_ub.mp hw) h
  | tooLong => rfl
  | ok i o => rfl

example : ¬ OneWord "a.c x y".toList := fun h => absurd (words_ub.mpr h) (by decide)

end Tup.LnCmd
