import Verif.Refactor.Normal

/-!
C75.  `tup refactor` succeeds exactly if the rules ask for the commands that are there, and then changes none of them; an ordinary update would not change them either.
-/

namespace Tup.Refactor

/-- C75: `refactor` succeeds exactly if each rule has a command with the same string, display string, flags, inputs, outputs, exclusions and group, no two rules have the same command and no command is without a rule. -/
theorem c75_exact {t : Db} (hw : Wf t) (rules : List Rule) (dirs : List Nat) : (∃ t', process true rules dirs t = some t') ↔ Agree rules t.cmds := by
  constructor
  · rintro ⟨t', h⟩
    unfold process at h
    split at h
    · cases h
    · next t1 seen e1 =>
      split at h
      · cases h
      · next t2 e2 =>
        by_cases hc : t2.changes + t.expected = t.changes + t2.expected
        · obtain ⟨a1, a2, a3, a4⟩ := doRules_ref rules t t1 [] seen hw.ids hw.names e1
          unfold finish at e2
          simp only [true_and] at e2
          split at e2
          · cases e2
          · next hl =>
            obtain rfl := Option.some.inj e2
            simp only at hc
            obtain ⟨rfl, b1, b2, b3⟩ := a4 (by omega)
            simp only [ne_eq, Decidable.not_not, List.filter_eq_nil_iff, Bool.not_eq_true', Bool.not_eq_false] at hl
            refine ⟨b2, fun r hr => ?_, fun c hcm => ?_⟩
            · obtain ⟨c, h1, h2, _⟩ := b1 r hr
              exact ⟨c, h1, h2⟩
            · rcases b3 c hcm (by simpa using hl c hcm) with h | h
              · cases h
              · exact h
        · simp [hc] at h
  · intro ha
    obtain ⟨seen, e, _, h2⟩ := doRules_match (ref := true) hw rules [] ha.once (fun r hr => by
      obtain ⟨c, h1, h2⟩ := ha.all r hr
      exact ⟨c, h1, h2, by simp⟩)
    have hs : ∀ c ∈ t.cmds, c.id ∈ seen := by
      intro c hc
      obtain ⟨r, hr, hn⟩ := ha.only c hc
      exact h2 r hr c hc hn.symm
    have hl : t.cmds.filter (fun c => !seen.contains c.id) = [] := by
      simp only [List.filter_eq_nil_iff, Bool.not_eq_true', Bool.not_eq_false, List.contains_iff_mem]
      exact hs
    have hf : finish true dirs t seen = some { t with
        cmds := t.cmds.filter (fun c => seen.contains c.id), dirs := dirs, changes := t.changes + 0 + ((diff dirs t.dirs).length + (diff t.dirs dirs).length),
        expected := t.expected + ((diff dirs t.dirs).length + (diff t.dirs dirs).length) } := by
      unfold finish
      simp only [hl, ne_eq, not_true_eq_false, and_false, if_false, List.length_nil]
    unfold process
    rw [e]
    simp only [hf]
    rw [if_neg]
    · exact ⟨_, rfl⟩
    · simp only [true_and, Decidable.not_not, ne_eq]
      omega

/-- C75: when it succeeds, no command has changed and none is scheduled; only the links to the directory are new. -/
theorem c75_unchanged {t t' : Db} (hw : Wf t) {rules : List Rule} {dirs : List Nat} (h : process true rules dirs t = some t') : t'.cmds = t.cmds ∧ t'.modify = t.modify ∧ t'.dirs = dirs := by
  unfold process at h
  split at h
  · cases h
  · next t1 seen e1 =>
    split at h
    · cases h
    · next t2 e2 =>
      by_cases hc : t2.changes + t.expected = t.changes + t2.expected
      · obtain ⟨a1, a2, a3, a4⟩ := doRules_ref rules t t1 [] seen hw.ids hw.names e1
        simp only [hc, ne_eq, not_true_eq_false, and_false, if_false, Option.some.injEq] at h
        subst h
        unfold finish at e2
        simp only [true_and] at e2
        split at e2
        · cases e2
        · next hl =>
          obtain rfl := Option.some.inj e2
          simp only at hc
          obtain ⟨rfl, _⟩ := a4 (by omega)
          refine ⟨?_, rfl, rfl⟩
          simp only [ne_eq, Decidable.not_not, List.filter_eq_nil_iff, Bool.not_eq_true', Bool.not_eq_false] at hl
          exact List.filter_eq_self.2 hl
      · simp [hc] at h

/-- C75: an ordinary update makes the commands what the rules ask for, whatever was there before. -/
theorem c75_update {t t' : Db} (hw : Wf t) {rules : List Rule} (hd : Disjoint rules) {dirs : List Nat} (h : process false rules dirs t = some t') : Agree rules t'.cmds := by
  unfold process at h
  split at h
  · cases h
  · next t1 seen e1 =>
    have hr := doRules_false rules [] t t1 [] seen ⟨hw.ids, hw.names, by simp, by simp, by simp⟩ hd e1
    simp only [finish, Bool.false_eq_true, false_and, if_false, Option.some.injEq] at h
    subst h
    refine ⟨hr.once, ?_, ?_⟩
    · intro r hr'
      obtain ⟨c, h1, h2, h3⟩ := hr.all r hr'
      exact ⟨c, List.mem_filter.2 ⟨h1, by simpa using h2⟩, h3⟩
    · intro c hc
      obtain ⟨h1, h2⟩ := List.mem_filter.1 hc
      exact hr.only c h1 (by simpa using h2)

/-- C75: so `refactor` succeeds exactly if an ordinary update succeeds and leaves all commands as they are; and that update schedules nothing. -/
theorem c75_same {t : Db} (hw : Wf t) {rules : List Rule} (hd : Disjoint rules) (dirs : List Nat) : (∃ t', process true rules dirs t = some t') ↔ ∃ t', process false rules dirs t = some t' ∧ t'.cmds = t.cmds ∧ t'.modify = t.modify := by
  rw [c75_exact hw]
  constructor
  · intro ha
    obtain ⟨seen, e, _, h2⟩ := doRules_match (ref := false) hw rules [] ha.once (fun r hr => by
      obtain ⟨c, h1, h2⟩ := ha.all r hr
      exact ⟨c, h1, h2, by simp⟩)
    have hs : ∀ c ∈ t.cmds, seen.contains c.id = true := by
      intro c hc
      obtain ⟨r, hr, hn⟩ := ha.only c hc
      simpa using h2 r hr c hc hn.symm
    refine ⟨{ t with
        cmds := t.cmds.filter (fun c => seen.contains c.id), dirs := dirs,
        changes := t.changes + (t.cmds.filter (fun c => !seen.contains c.id)).length + ((diff dirs t.dirs).length + (diff t.dirs dirs).length),
        expected := t.expected + ((diff dirs t.dirs).length + (diff t.dirs dirs).length) }, ?_, List.filter_eq_self.2 hs, rfl⟩
    unfold process finish
    rw [e]
    simp only [Bool.false_eq_true, false_and, if_false]
  · rintro ⟨t', h, e, _⟩
    exact e ▸ c75_update hw hd h

/-! ### Cases -/

/-- Two commands; the second one reads what the first one writes. -/
def exDb : Db := ⟨[⟨5, "gcc -c a.c".toList, none, [], [1], [2], [], none⟩, ⟨6, "ld a.o".toList, some "LD".toList, "o".toList, [2], [3], [9], some 7⟩], [6], [1], 40, 30⟩
def exRules : List Rule := [⟨"ld a.o".toList, some "LD".toList, "o".toList, [2], [3], [9], some 7⟩, ⟨"gcc -c a.c".toList, none, [], [1], [2], [], none⟩]

theorem ex_wf : Wf exDb := by
  refine ⟨by decide +kernel, by decide +kernel, ?_⟩
  intro c hc c' hc' f hf hf'
  simp only [exDb, List.mem_cons, List.not_mem_nil, or_false] at hc hc'
  rcases hc with rfl | rfl <;> rcases hc' with rfl | rfl <;> simp only [List.mem_singleton] at hf hf' <;> first | rfl | omega

/-- The rules in another order, and with other links to the directory: `refactor` succeeds. -/
theorem ex_process : process true exRules [1, 4] exDb = some { exDb with dirs := [1, 4], changes := 41, expected := 31 } := by decide +kernel
example : Agree exRules exDb.cmds := (c75_exact ex_wf exRules [1, 4]).1 ⟨_, ex_process⟩
example : ∃ t', process false exRules [1, 4] exDb = some t' ∧ t'.cmds = exDb.cmds ∧ t'.modify = exDb.modify :=
  (c75_same ex_wf (by simp [Disjoint, exRules]) [1, 4]).1 ⟨_, ex_process⟩

/-- Other flags, a new input, one rule less: `refactor` fails, and an ordinary update does what the rules ask for. -/
example : process true [⟨"ld a.o".toList, some "LD".toList, [], [2], [3], [9], some 7⟩, ⟨"gcc -c a.c".toList, none, [], [1], [2], [], none⟩] [] exDb = none := by decide +kernel
example : process true [⟨"ld a.o".toList, some "LD".toList, "o".toList, [1, 2], [3], [9], some 7⟩, ⟨"gcc -c a.c".toList, none, [], [1], [2], [], none⟩] [] exDb = none := by decide +kernel
example : process true [⟨"gcc -c a.c".toList, none, [], [1], [2], [], none⟩] [] exDb = none := by decide +kernel
example : ∃ t', process false [⟨"gcc -c a.c -O".toList, none, [], [1], [2], [], none⟩] [] exDb = some t' ∧ t'.cmds = [⟨5, "gcc -c a.c -O".toList, none, [], [1], [2], [], none⟩] := ⟨_, rfl, by decide +kernel⟩

/-- C75: a new display string alone is let through by every check on the way, though the table of commands is changed; only the count at the end, which is meant for bugs of the program, makes it an error. -/
theorem c75_display : ∃ (t : Db) (rules : List Rule), Wf t ∧ (∃ x, doRules true rules t [] = some x ∧ x.1.cmds ≠ t.cmds ∧ finish true [] x.1 x.2 ≠ none) ∧ process true rules [] t = none := by
  refine ⟨exDb, [⟨"ld a.o".toList, some "Link".toList, "o".toList, [2], [3], [9], some 7⟩, ⟨"gcc -c a.c".toList, none, [], [1], [2], [], none⟩], ex_wf, ⟨_, rfl, by decide +kernel, by decide +kernel⟩, by decide +kernel⟩

end Tup.Refactor
