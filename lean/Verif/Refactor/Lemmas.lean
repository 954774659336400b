import Verif.Refactor.Spec

/-! Lemmas for C75. -/

namespace Tup.Refactor

theorem diff_nil {a b : List Nat} : diff a b = [] ↔ ∀ x ∈ a, x ∈ b := by
  simp [diff, List.filter_eq_nil_iff]

theorem diff_same {a b : List Nat} : (diff a b = [] ∧ diff b a = []) ↔ SameSet a b := by
  rw [diff_nil, diff_nil]
  exact ⟨fun h x => ⟨h.1 x, h.2 x⟩, fun h => ⟨fun x => (h x).1, fun x => (h x).2⟩⟩

theorem nodup_inj {α β : Type} {f : α → β} : ∀ {l : List α}, (l.map f).Nodup → ∀ {a b : α}, a ∈ l → b ∈ l → f a = f b → a = b := by
  intro l
  induction l with
  | nil => intro _ a b ha; cases ha
  | cons x l ih =>
    intro h a b ha hb e
    rw [List.map_cons, List.nodup_cons] at h
    rcases List.mem_cons.1 ha with rfl | ha
    · rcases List.mem_cons.1 hb with rfl | hb
      · rfl
      · exact absurd (List.mem_map.2 ⟨b, hb, e.symm⟩) h.1
    · rcases List.mem_cons.1 hb with hb | hb
      · exact absurd (List.mem_map.2 ⟨a, ha, e.trans (congrArg f hb)⟩) h.1
      · exact ih h.2 ha hb e

theorem byName_some {cmds : List Cmd} {n : Str} {c : Cmd} (h : byName cmds n = some c) : c ∈ cmds ∧ c.name = n :=
  ⟨List.mem_of_find?_eq_some h, by simpa using List.find?_some h⟩

theorem byName_none {cmds : List Cmd} {n : Str} (h : byName cmds n = none) : ∀ c ∈ cmds, c.name ≠ n := by
  simpa [byName] using h

theorem byName_mem {cmds : List Cmd} (hn : (cmds.map (·.name)).Nodup) {c : Cmd} (hc : c ∈ cmds) : byName cmds c.name = some c := by
  cases h : byName cmds c.name with
  | none => exact absurd rfl (byName_none h c hc)
  | some c' =>
    obtain ⟨h1, h2⟩ := byName_some h
    rw [nodup_inj hn h1 hc h2]

theorem owner_some {cmds : List Cmd} {f : Nat} {c : Cmd} (h : owner cmds f = some c) : c ∈ cmds ∧ f ∈ c.outs :=
  ⟨List.mem_of_find?_eq_some h, by simpa using List.find?_some h⟩

theorem existing_some {cmds : List Cmd} {c : Cmd} : ∀ {l : List Nat}, existing cmds l = some c → c ∈ cmds := by
  intro l
  induction l with
  | nil => intro h; cases h
  | cons f l ih =>
    intro h
    unfold existing at h
    split at h
    · next c' e =>
      obtain rfl := Option.some.inj h
      exact (owner_some e).1
    · exact ih h

/-! ### With `ref` -/

theorem unique_count {id : Nat} : ∀ (l : List Nat) (t : Db), t.changes ≤ (unique t id l).changes ∧ (unique t id l).expected = t.expected ∧ (unique t id l).dirs = t.dirs ∧
    ((unique t id l).changes = t.changes → unique t id l = t) := by
  intro l
  induction l with
  | nil => intro t; exact ⟨Nat.le_refl _, rfl, rfl, fun _ => rfl⟩
  | cons f l ih =>
    intro t
    unfold unique
    split
    · exact ih t
    · next c _ =>
      split
      · exact ih t
      · obtain ⟨h1, h2, h3, _⟩ := ih { t with cmds := put t.cmds c.id (fun c => { c with outs := c.outs.filter (· ≠ f) }), changes := t.changes + 1 + (if c.group.isSome then 1 else 0) }
        simp only at h1
        refine ⟨by omega, h2, h3, fun h => ?_⟩
        omega

theorem unique_self {t : Db} {id : Nat} : ∀ {l : List Nat}, (∀ f ∈ l, ∀ c, owner t.cmds f = some c → c.id = id) → unique t id l = t := by
  intro l
  induction l with
  | nil => intro _; rfl
  | cons f l ih =>
    intro h
    unfold unique
    split
    · exact ih (fun g hg => h g (by simp [hg]))
    · next c e =>
      rw [if_pos (h f (by simp) c e)]
      exact ih (fun g hg => h g (by simp [hg]))

theorem locate_ref {t t1 : Db} {r : Rule} {c : Cmd} {m k : Bool} (h : locate true t r = some (t1, c, m, k)) : t1 = t ∧ m = false ∧ k = true ∧ byName t.cmds r.name = some c := by
  unfold locate at h
  split at h
  · next c' e =>
    simp only [Option.some.injEq, Prod.mk.injEq] at h
    obtain ⟨rfl, rfl, rfl, rfl⟩ := h
    exact ⟨rfl, rfl, rfl, e⟩
  · split at h <;> simp at h

theorem doRule_ref {t t' : Db} {r : Rule} {seen seen' : List Nat} (h : doRule true r t seen = some (t', seen')) :
    t.changes ≤ t'.changes ∧ t'.expected = t.expected ∧ t'.dirs = t.dirs ∧
      (t'.changes = t.changes → t' = t ∧ ∃ c ∈ t.cmds, Match r c ∧ c.id ∉ seen ∧ seen' = c.id :: seen) := by
  unfold doRule at h
  split at h
  · cases h
  · next t1 c m k e1 =>
    obtain ⟨rfl, rfl, rfl, hb⟩ := locate_ref e1
    obtain ⟨hc, hn⟩ := byName_some hb
    split at h
    · cases h
    · next t2 m e2 =>
      rw [if_pos rfl] at e2
      unfold setFlags at e2
      by_cases hf : c.flags = r.flags
      · rw [if_pos hf] at e2
        simp only [Option.some.injEq, Prod.mk.injEq] at e2
        obtain ⟨rfl, rfl⟩ := e2
        split at h
        · cases h
        · next hs =>
          split at h
          · cases h
          · next t3 e3 =>
            unfold writeOutputs at e3
            simp only [if_true, Bool.false_or] at e3
            split at e3
            · cases e3
            · next hd =>
              obtain rfl := Option.some.inj e3
              simp only [Bool.or_eq_true, decide_eq_true_eq, not_or, Decidable.not_not, ne_eq] at hd
              obtain ⟨⟨⟨⟨hg, ho1⟩, ho2⟩, hx1⟩, hx2⟩ := hd
              split at h
              · cases h
              · next t4 e4 =>
                unfold writeInputs at e4
                simp only [if_true] at e4
                split at e4
                · next hi =>
                  obtain rfl := Option.some.inj e4
                  simp only [Option.some.injEq, Prod.mk.injEq] at h
                  obtain ⟨rfl, rfl⟩ := h
                  obtain ⟨u1, u2, u3, u4⟩ := unique_count (id := c.id) r.outs (setDisplay t1 c r)
                  have hd : t1.changes ≤ (setDisplay t1 c r).changes ∧ (setDisplay t1 c r).expected = t1.expected ∧ (setDisplay t1 c r).dirs = t1.dirs ∧
                      ((setDisplay t1 c r).changes = t1.changes → setDisplay t1 c r = t1 ∧ c.display = r.display) := by
                    unfold setDisplay
                    by_cases hp : c.display = r.display
                    · rw [if_pos hp]; exact ⟨Nat.le_refl _, rfl, rfl, fun _ => ⟨rfl, hp⟩⟩
                    · rw [if_neg hp]
                      refine ⟨Nat.le_succ _, rfl, rfl, fun h => ?_⟩
                      simp only at h
                      omega
                  refine ⟨by omega, u2.trans hd.2.1, u3.trans hd.2.2.1, fun he => ?_⟩
                  obtain ⟨d1, d2⟩ := hd.2.2.2 (by omega)
                  have := u4 (by omega)
                  refine ⟨this.trans d1, c, hc, ⟨hn, d2, hf, diff_same.1 ⟨hi.2, hi.1⟩, diff_same.1 ⟨ho1, ho2⟩, diff_same.1 ⟨hx1, hx2⟩, hg⟩, hs, rfl⟩
                · cases e4
      · rw [if_neg hf] at e2
        simp at e2

theorem doRules_ref : ∀ (rules : List Rule) (t t' : Db) (seen seen' : List Nat), (t.cmds.map (·.id)).Nodup → (t.cmds.map (·.name)).Nodup → doRules true rules t seen = some (t', seen') →
    t.changes ≤ t'.changes ∧ t'.expected = t.expected ∧ t'.dirs = t.dirs ∧
      (t'.changes = t.changes → t' = t ∧ (∀ r ∈ rules, ∃ c ∈ t.cmds, Match r c ∧ c.id ∉ seen) ∧ (rules.map (·.name)).Nodup ∧
        ∀ c ∈ t.cmds, c.id ∈ seen' → c.id ∈ seen ∨ ∃ r ∈ rules, r.name = c.name) := by
  intro rules
  induction rules with
  | nil =>
    intro t t' seen seen' _ _ h
    simp only [doRules, Option.some.injEq, Prod.mk.injEq] at h
    obtain ⟨rfl, rfl⟩ := h
    exact ⟨Nat.le_refl _, rfl, rfl, fun _ => ⟨rfl, by simp, by simp, fun c _ h => .inl h⟩⟩
  | cons r l ih =>
    intro t t' seen seen' hi hn h
    unfold doRules at h
    split at h
    · cases h
    · next t1 seen1 e1 =>
      obtain ⟨a1, a2, a3, a4⟩ := doRule_ref e1
      by_cases hch : t1.changes = t.changes
      · obtain ⟨rfl, c, hc, hm, hs, rfl⟩ := a4 hch
        obtain ⟨b1, b2, b3, b4⟩ := ih t1 t' _ seen' hi hn h
        refine ⟨b1, b2, b3, fun he => ?_⟩
        obtain ⟨rfl, g2, g3, g4⟩ := b4 he
        refine ⟨rfl, ?_, ?_, ?_⟩
        · intro r' hr'
          rcases List.mem_cons.1 hr' with rfl | hr'
          · exact ⟨c, hc, hm, hs⟩
          · obtain ⟨c', h1, h2, h3⟩ := g2 r' hr'
            exact ⟨c', h1, h2, fun h => h3 (List.mem_cons_of_mem _ h)⟩
        · rw [List.map_cons, List.nodup_cons]
          refine ⟨?_, g3⟩
          intro hmem
          obtain ⟨r', hr', hnn⟩ := List.mem_map.1 hmem
          obtain ⟨c', h1, h2, h3⟩ := g2 r' hr'
          have : c' = c := nodup_inj hn h1 hc (h2.name.trans (hnn.trans hm.name.symm))
          exact h3 (by simp [this])
        · intro c' hc' hs'
          rcases g4 c' hc' hs' with h | ⟨r', h1, h2⟩
          · rcases List.mem_cons.1 h with h | h
            · have : c' = c := nodup_inj hi hc' hc h
              exact .inr ⟨r, by simp, by rw [this]; exact hm.name.symm⟩
            · exact .inl h
          · exact .inr ⟨r', by simp [h1], h2⟩
      · -- the number of changes has grown: nothing is claimed about the commands
        have key : ∀ (l : List Rule) (t t' : Db) (seen seen' : List Nat), doRules true l t seen = some (t', seen') → t.changes ≤ t'.changes ∧ t'.expected = t.expected ∧ t'.dirs = t.dirs := by
          intro l
          induction l with
          | nil =>
            intro t t' seen seen' h
            simp only [doRules, Option.some.injEq, Prod.mk.injEq] at h
            obtain ⟨rfl, rfl⟩ := h
            exact ⟨Nat.le_refl _, rfl, rfl⟩
          | cons r l ih =>
            intro t t' seen seen' h
            unfold doRules at h
            split at h
            · cases h
            · next t1 seen1 e1 =>
              obtain ⟨a1, a2, a3, _⟩ := doRule_ref e1
              obtain ⟨b1, b2, b3⟩ := ih _ _ _ _ h
              exact ⟨by omega, b2.trans a2, b3.trans a3⟩
        obtain ⟨b1, b2, b3⟩ := key l t1 t' seen1 seen' h
        refine ⟨by omega, b2.trans a2, b3.trans a3, fun he => ?_⟩
        omega

theorem doRule_match {ref : Bool} {t : Db} (hw : Wf t) {r : Rule} {c : Cmd} (hc : c ∈ t.cmds) (hm : Match r c) {seen : List Nat} (hs : c.id ∉ seen) : doRule ref r t seen = some (t, c.id :: seen) := by
  have hb : byName t.cmds r.name = some c := hm.name ▸ byName_mem hw.names hc
  have hu : unique t c.id r.outs = t := by
    refine unique_self (fun f hf c' e => ?_)
    obtain ⟨h1, h2⟩ := owner_some e
    rw [hw.outs c' h1 c hc f h2 ((hm.outs f).2 hf)]
  have ho := diff_same.2 hm.outs
  have hx := diff_same.2 hm.excl
  have hi := diff_same.2 hm.ins
  simp only [doRule, locate, hb, setDisplay, hm.display, if_true, setFlags, hm.flags, hs, if_false, hu, writeOutputs, hm.group, ho.1, ho.2, hx.1, hx.2, ne_eq, not_true_eq_false, decide_false, Bool.or_self,
    Bool.false_eq_true, writeInputs, hi.1, hi.2, and_self]

theorem doRules_match {ref : Bool} {t : Db} (hw : Wf t) : ∀ (rules : List Rule) (seen : List Nat), (rules.map (·.name)).Nodup → (∀ r ∈ rules, ∃ c ∈ t.cmds, Match r c ∧ c.id ∉ seen) →
    ∃ seen', doRules ref rules t seen = some (t, seen') ∧ (∀ i ∈ seen, i ∈ seen') ∧ ∀ r ∈ rules, ∀ c ∈ t.cmds, c.name = r.name → c.id ∈ seen' := by
  intro rules
  induction rules with
  | nil => intro seen _ _; exact ⟨seen, rfl, fun _ h => h, by simp⟩
  | cons r l ih =>
    intro seen hn h
    rw [List.map_cons, List.nodup_cons] at hn
    obtain ⟨c, hc, hm, hs⟩ := h r (by simp)
    obtain ⟨seen', e, g1, g2⟩ := ih (c.id :: seen) hn.2 (fun r' hr' => by
      obtain ⟨c', h1, h2, h3⟩ := h r' (by simp [hr'])
      refine ⟨c', h1, h2, fun h => ?_⟩
      rcases List.mem_cons.1 h with h | h
      · have : c' = c := nodup_inj hw.ids h1 hc h
        exact hn.1 (List.mem_map.2 ⟨r', hr', by rw [← h2.name, ← hm.name, this]⟩)
      · exact h3 h)
    refine ⟨seen', ?_, fun i hi => g1 i (List.mem_cons_of_mem _ hi), ?_⟩
    · unfold doRules
      rw [doRule_match hw hc hm hs]
      exact e
    · intro r' hr' c' hc' hcn
      rcases List.mem_cons.1 hr' with rfl | hr'
      · have : c' = c := nodup_inj hw.names hc' hc (hcn.trans hm.name.symm)
        exact this ▸ g1 c.id (by simp)
      · exact g2 r' hr' c' hc' hcn

end Tup.Refactor
