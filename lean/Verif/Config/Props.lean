import Verif.Config.Lemmas
import Verif.Tree.Props

/-! C15: reading `tup.config`; C18: `tup varsed`. -/

namespace Tup.Config

/-! ### C15 -/

/-- C15: a config file is accepted exactly when all its lines are in order, and then it sets what they say. -/
theorem c15_parse (s : Str) (bs : List (Str × Str)) : parse s = .ok bs ↔ File s bs :=
  ⟨file_of_parse s bs, parse_file⟩

/-- C15: for a file that ends in a newline there are no other outcomes than that and an error message. -/
theorem c15_error {s : Str} (h : s = [] ∨ s.getLast? = some '\n') : parse s = .error ↔ ¬ ∃ bs, File s bs := by
  have hub : parse s ≠ .ub := by
    induction s using lines_induct with
    | nil => rw [parse]; simp
    | last l hne hf =>
      rcases hf with hf | hf
      · rw [(parse_last hne).1 hf]; simp
      · exfalso
        rcases h with h | h
        · exact hne h
        · exact (findNl_past.1 hf).1 (List.mem_of_getLast? h)
    | line l t h1 h2 ih =>
      have ht : t = [] ∨ t.getLast? = some '\n' := by
        rcases h with h | h
        · simp at h
        · cases t with
          | nil => exact .inl rfl
          | cons c t =>
            right
            rw [List.getLast?_append, List.getLast?_cons_cons] at h
            rw [List.getLast?_cons] at h ⊢
            exact h
      have ih := ih ht
      rw [parse_line h1 h2]
      cases parseLine (trimEnd l) with
      | none => simp
      | some b =>
        simp only
        cases hp : parse t with
        | ok l => simp [Res.cons]
        | error => simp [Res.cons]
        | ub => exact absurd hp ih
  constructor
  · rintro h0 ⟨bs, hb⟩
    rw [parse_file hb] at h0
    cases h0
  · intro h0
    cases hp : parse s with
    | ok bs => exact absurd ⟨bs, file_of_parse s bs hp⟩ h0
    | error => rfl
    | ub => exact absurd hp hub

/-- C15: later bindings of a name override earlier ones: the store that results from the calls holds for every name its
last binding in the file, and nothing else. -/
theorem c15_values {bs : List (Str × Str)} {u : Tree.Vardb}
    (hu : Tree.VarRun ⟨.nil, 0⟩ (bs.map fun b => (.set b.1 (some b.2), .unit)) u) (n : Str) (v : Option Str) :
    ⟨n, v⟩ ∈ u.root.toList ↔ ∃ w, v = some w ∧ Last bs n w := by
  obtain ⟨M, h1, h2, _⟩ := Tree.c49_variable_stores hu
  rw [h2]
  have key : ∀ (bs : List (Str × Str)) (M0 M : Str → Option (Option Str)),
      Tree.mapRun M0 (bs.map fun b => (Tree.VarOp.set b.1 (some b.2), Tree.VarAns.unit)) = some M →
      (M n = some v ↔ (∃ w, v = some w ∧ Last bs n w) ∨ (n ∉ bs.map (·.1) ∧ M0 n = some v)) := by
    intro bs
    induction bs with
    | nil =>
      intro M0 M h
      cases h
      constructor
      · intro h; exact .inr ⟨by simp, h⟩
      · rintro (⟨w, _, a, b, h, _⟩ | h)
        · simp at h
        · exact h.2
    | cons x bs ih =>
      intro M0 M h
      obtain ⟨m, y⟩ := x
      rw [List.map_cons, Tree.mapRun, if_pos (by rfl)] at h
      rw [ih _ _ h]
      simp only [List.map_cons, List.mem_cons, not_or, Tree.mapStep]
      constructor
      · rintro (⟨w, hw, a, b, hbs, hb⟩ | ⟨h1, h2⟩)
        · exact .inl ⟨w, hw, (m, y) :: a, b, by rw [hbs]; rfl, hb⟩
        · split at h2
          · next hm =>
            subst hm
            cases h2
            exact .inl ⟨y, rfl, [], bs, rfl, h1⟩
          · next hm => exact .inr ⟨⟨hm, h1⟩, h2⟩
      · rintro (⟨w, hw, a, b, hbs, hb⟩ | ⟨⟨h1, h2⟩, h3⟩)
        · cases a with
          | nil =>
            simp only [List.nil_append, List.cons.injEq, Prod.mk.injEq] at hbs
            obtain ⟨⟨rfl, rfl⟩, rfl⟩ := hbs
            exact .inr ⟨hb, by rw [if_pos rfl, hw]⟩
          | cons z a =>
            simp only [List.cons_append, List.cons.injEq] at hbs
            exact .inl ⟨w, hw, a, b, hbs.2, hb⟩
        · exact .inr ⟨h2, by rw [if_neg h1]; exact h3⟩
  have := key bs (fun _ => none) M h1
  rw [this]
  simp

/-- The defect: if the last line is not ended by a newline (and everything in front of it is in order), memory behind
the buffer is read (db.c:7677 uses `fslurp`, which puts no NUL byte behind the content, and db.c:7684 `strchr`). -/
theorem c15_unterminated {s l : Str} {bs : List (Str × Str)} (hs : File s bs) (hl : l ≠ []) (h1 : '\n' ∉ l)
    (h2 : Char.ofNat 0 ∉ l) : parse (s ++ l) = .ub := by
  induction hs with
  | nil => exact (parse_last hl).2 (findNl_past.2 ⟨h1, h2⟩)
  | cons h3 h4 h5 _ ih =>
    rw [List.append_assoc, List.cons_append, parse_line h3 h4, line_parse h5, ih]
    rfl

/-- All kinds of lines, with white space at their ends. -/
example : File ("# c \n\nCONFIG_A=y z\t \r\n# CONFIG_B is not set\nCONFIG_A=\"q \" x\n \n".toList)
    [("A".toList, "y z".toList), ("B".toList, "n".toList), ("A".toList, "q ".toList)] :=
  (c15_parse _ _).1 (by decide +kernel)

example : ¬ ∃ bs, File "CONFIG_A=y\nB=2\n".toList bs :=
  (c15_error (.inr (by decide))).1 (by decide +kernel)

example : parse "# CONFIG_B\n".toList = .error := by decide +kernel
example : parse " CONFIG_B=y\n".toList = .error := by decide +kernel
example : parse "CONFIG_B=\"y\n".toList = .error := by decide +kernel

example : Last [("A".toList, "y".toList), ("B".toList, "n".toList), ("A".toList, "q".toList)] "A".toList "q".toList :=
  ⟨[("A".toList, "y".toList), ("B".toList, "n".toList)], [], rfl, by simp⟩

example : parse "CONFIG_A=y\nCONFIG_B=1".toList = .ub := by decide +kernel

/-- A byte-order mark in front is left out. -/
theorem c15_bom (s : Str) : readConfig (bom ++ s) = parse s := by
  unfold readConfig slurp
  rw [if_pos]
  · rfl
  · rw [isPrefixOf_iff]; exact ⟨s, rfl⟩

/-! ### C18 -/

/-- C18: what `varsed` writes for a text is the text with every `@NAME@` replaced and every other byte kept, and there is
only one such text. -/
theorem c18_substitution (look : Str → Option Str) (bin : Bool) (s t : Str) :
    replace look bin s = t ↔ Sub look bin s t :=
  ⟨fun h => h ▸ sub_replace look bin s, fun h => (replace_sub h).symm⟩

/-- C18: the file is that text, but for a byte-order mark at its beginning, which is dropped. -/
theorem c18_file (look : Str → Option Str) (bin : Bool) (s : Str) :
    ((¬ ∃ t, s = bom ++ t) → Sub look bin s (varsed look bin s)) ∧
      ∀ t, s = bom ++ t → Sub look bin t (varsed look bin s) := by
  unfold varsed slurp
  constructor
  · intro h
    rw [if_neg]
    · exact sub_replace look bin s
    · rw [isPrefixOf_iff]; exact h
  · rintro t rfl
    rw [if_pos]
    · exact sub_replace look bin t
    · rw [isPrefixOf_iff]; exact ⟨t, rfl⟩

/-- C18: a text without at signs is copied. -/
theorem c18_plain (look : Str → Option Str) (bin : Bool) {s : Str} (h : '@' ∉ s) : replace look bin s = s := by
  have := replace_bytes (look := look) (bin := bin) (s := []) h
  rwa [List.append_nil, replace_nil, List.append_nil] at this

def exLook (n : Str) : Option Str :=
  if n = "A".toList then some "x@B@".toList else if n = "Y_1".toList then some "y".toList else none

/-- Values are not looked at again, single at signs stay, variables that are not set vanish. -/
example : replace exLook true "a@b @A@Y_1@ @Y_1@,@NO@ @".toList = "a@b x@B@Y_1@ 1, @".toList := by decide +kernel

example : replace exLook false "@Y_1@ u@@v".toList = "y uv".toList := by decide +kernel

example : Sub exLook true "@A@@Y_1@".toList "x@B@1".toList :=
  (c18_substitution _ _ _ _).1 (by decide +kernel)

end Tup.Config
