import Verif.Refactor.Lemmas

/-! Lemmas for C75: what parsing without `refactor` does. -/

namespace Tup.Refactor

/-- Another command after a rule: only files of the rule may have been taken from it. -/
def Keep (r : Rule) (c c' : Cmd) : Prop :=
  c'.id = c.id ∧ c'.name = c.name ∧ c'.display = c.display ∧ c'.flags = c.flags ∧ c'.ins = c.ins ∧ c'.excl = c.excl ∧ c'.group = c.group ∧ (∀ f, f ∈ c'.outs → f ∈ c.outs) ∧ ∀ f, f ∉ r.outs → (f ∈ c'.outs ↔ f ∈ c.outs)

theorem Keep.refl {r : Rule} {c : Cmd} : Keep r c c := ⟨rfl, rfl, rfl, rfl, rfl, rfl, rfl, fun _ h => h, fun _ _ => Iff.rfl⟩

theorem unique_map {r : Rule} {id : Nat} : ∀ (l : List Nat) (t : Db), (∀ f ∈ l, f ∈ r.outs) → ∃ g : Cmd → Cmd, (unique t id l).cmds = t.cmds.map g ∧ (∀ c, c.id = id → g c = c) ∧ ∀ c, Keep r c (g c) := by
  intro l
  induction l with
  | nil => intro t _; exact ⟨fun c => c, by simp [unique], fun _ _ => rfl, fun _ => Keep.refl⟩
  | cons f l ih =>
    intro t hl
    unfold unique
    split
    · exact ih t (fun x hx => hl x (by simp [hx]))
    · next c0 _ =>
      split
      · exact ih t (fun x hx => hl x (by simp [hx]))
      · next hne =>
        obtain ⟨g, e, g1, g2⟩ := ih { t with cmds := put t.cmds c0.id (fun c => { c with outs := c.outs.filter (· ≠ f) }), changes := t.changes + 1 + (if c0.group.isSome then 1 else 0) } (fun x hx => hl x (by simp [hx]))
        refine ⟨fun c => g (if c.id == c0.id then { c with outs := c.outs.filter (· ≠ f) } else c), ?_, ?_, ?_⟩
        · rw [e]
          simp only [put, List.map_map]
          rfl
        · intro c hc
          have : ¬ c.id = c0.id := fun h => hne (h ▸ hc)
          simp only [beq_iff_eq, this, if_false]
          exact g1 c hc
        · intro c
          by_cases h : c.id = c0.id
          · show Keep r c (g (if c.id == c0.id then _ else c))
            rw [show (c.id == c0.id) = true from beq_iff_eq.2 h, if_pos rfl]
            obtain ⟨k1, k2, k3, k4, k5, k6, k7, k9, k8⟩ := g2 { c with outs := c.outs.filter (· ≠ f) }
            refine ⟨k1, k2, k3, k4, k5, k6, k7, fun x hx => (List.mem_filter.1 (k9 x hx)).1, fun x hx => ?_⟩
            have hxf : x ≠ f := by rintro rfl; exact hx (hl x (by simp))
            refine (k8 x hx).trans ?_
            simp [hxf]
          · simp only [beq_iff_eq, h, if_false]
            exact g2 c

theorem locate_false {t t1 : Db} {r : Rule} {c : Cmd} {m k : Bool} (h : locate false t r = some (t1, c, m, k)) :
    c.name = r.name ∧ c ∈ t1.cmds ∧ (k = false → c.display = r.display ∧ c.flags = r.flags) ∧
      ((t1.cmds = t.cmds) ∨ (t1.cmds = t.cmds ++ [c] ∧ c.id = fresh t.cmds ∧ ∀ x ∈ t.cmds, x.name ≠ r.name) ∨
        ((∀ x ∈ t.cmds, x.name ≠ r.name) ∧ t1.cmds = put t.cmds c.id (fun c => { c with name := r.name }))) := by
  unfold locate at h
  split at h
  · next c' e =>
    simp only [Option.some.injEq, Prod.mk.injEq] at h
    obtain ⟨rfl, rfl, rfl, rfl⟩ := h
    obtain ⟨h1, h2⟩ := byName_some e
    exact ⟨h2, h1, by simp, .inl rfl⟩
  · next e =>
    have hn := byName_none e
    split at h
    · simp only [Bool.false_eq_true, if_false, Option.some.injEq, Prod.mk.injEq] at h
      obtain ⟨rfl, rfl, rfl, rfl⟩ := h
      exact ⟨rfl, by simp, fun _ => ⟨rfl, rfl⟩, .inr (.inl ⟨rfl, rfl, hn⟩)⟩
    · next c' e' =>
      simp only [Bool.false_eq_true, if_false, Option.some.injEq, Prod.mk.injEq] at h
      obtain ⟨rfl, rfl, rfl, rfl⟩ := h
      refine ⟨rfl, ?_, by simp, .inr (.inr ⟨hn, rfl⟩)⟩
      exact List.mem_map.2 ⟨c', existing_some e', by simp⟩

theorem fresh_lt {cmds : List Cmd} {c : Cmd} (h : c ∈ cmds) : c.id < fresh cmds := by
  have key : ∀ (l : List Nat) (a : Nat), a ≤ l.foldl max a ∧ ∀ x ∈ l, x ≤ l.foldl max a := by
    intro l
    induction l with
    | nil => intro a; simp
    | cons b l ih =>
      intro a
      obtain ⟨h1, h2⟩ := ih (max a b)
      simp only [List.foldl_cons]
      refine ⟨by omega, ?_⟩
      intro x hx
      rcases List.mem_cons.1 hx with rfl | hx
      · omega
      · exact h2 x hx
  have := (key (cmds.map (·.id)) 0).2 c.id (List.mem_map_of_mem h)
  unfold fresh
  omega

/-- What a rule does to the commands that are there once its own has been found. -/
theorem rest_map {t1 t' : Db} {r : Rule} {c : Cmd} {m : Bool} {seen seen' : List Nat} (hn : c.name = r.name)
    (h : (match setFlags false (setDisplay t1 c r) c r m with
      | none => none
      | some (t2, modified) =>
        if c.id ∈ seen then none
        else
          match writeOutputs false (unique t2 c.id r.outs) c r modified with
          | none => none
          | some t3 =>
            match writeInputs false t3 c r with
            | none => none
            | some t4 => some (t4, c.id :: seen)) = some (t', seen')) :
    c.id ∉ seen ∧ seen' = c.id :: seen ∧ ∃ g : Cmd → Cmd, t'.cmds = t1.cmds.map g ∧ (∀ x, (g x).id = x.id ∧ (g x).name = x.name) ∧ (∀ x, x.id ≠ c.id → Keep r x (g x)) ∧ Match r (g c) := by
  have hd : ∃ g : Cmd → Cmd, (setDisplay t1 c r).cmds = t1.cmds.map g ∧ (∀ x, x.id ≠ c.id → g x = x) ∧ (∀ x, (g x).id = x.id ∧ (g x).name = x.name) ∧ g c = { c with display := r.display } := by
    unfold setDisplay
    by_cases hp : c.display = r.display
    · rw [if_pos hp]
      refine ⟨fun x => x, by simp, fun _ _ => rfl, fun _ => ⟨rfl, rfl⟩, ?_⟩
      cases c
      simp only at hp ⊢
      rw [hp]
    · rw [if_neg hp]
      refine ⟨fun x => if x.id == c.id then { x with display := r.display } else x, rfl, ?_, ?_, by simp⟩
      · intro x hx; simp [hx]
      · intro x
        by_cases hx : x.id = c.id <;> simp [hx]
  obtain ⟨g1, d1, d2, d3, d4⟩ := hd
  split at h
  · cases h
  · next t2 m2 e2 =>
    have hf : ∃ g : Cmd → Cmd, t2.cmds = t1.cmds.map g ∧ (∀ x, x.id ≠ c.id → g x = x) ∧ (∀ x, (g x).id = x.id ∧ (g x).name = x.name) ∧ g c = { c with display := r.display, flags := r.flags } := by
      unfold setFlags at e2
      by_cases hp : c.flags = r.flags
      · rw [if_pos hp] at e2
        simp only [Option.some.injEq, Prod.mk.injEq] at e2
        obtain ⟨rfl, rfl⟩ := e2
        refine ⟨g1, d1, d2, d3, ?_⟩
        rw [d4, hp]
      · rw [if_neg hp] at e2
        simp only [Bool.false_eq_true, if_false, Option.some.injEq, Prod.mk.injEq] at e2
        obtain ⟨rfl, rfl⟩ := e2
        refine ⟨fun x => if (g1 x).id == c.id then { g1 x with flags := r.flags } else g1 x, ?_, ?_, ?_, ?_⟩
        · show put (setDisplay t1 c r).cmds c.id _ = _
          rw [d1, put, List.map_map]
          rfl
        · intro x hx
          simp [(d3 x).1, hx, d2 x hx]
        · intro x
          by_cases hx : x.id = c.id <;> simp [d3 x, hx]
        · simp [d4]
    obtain ⟨g2, f1, f2, f3, f4⟩ := hf
    split at h
    · cases h
    · next hs =>
      obtain ⟨g3, u1, u2, u3⟩ := unique_map (r := r) (id := c.id) r.outs t2 (fun _ h => h)
      split at h
      · cases h
      · next t3 e3 =>
        have ho : ∃ g : Cmd → Cmd, t3.cmds = t1.cmds.map g ∧ (∀ x, x.id ≠ c.id → Keep r x (g x)) ∧ (∀ x, (g x).id = x.id ∧ (g x).name = x.name) ∧ (g c).display = r.display ∧ (g c).flags = r.flags ∧
            (g c).ins = c.ins ∧ SameSet (g c).outs r.outs ∧ SameSet (g c).excl r.excl ∧ (g c).group = r.group := by
          have hcomp : (unique t2 c.id r.outs).cmds = t1.cmds.map (fun x => g3 (g2 x)) := by rw [u1, f1, List.map_map]; rfl
          have hkeep : ∀ x, x.id ≠ c.id → Keep r x (g3 (g2 x)) := fun x hx => by rw [f2 x hx]; exact u3 x
          have hid : ∀ x, (g3 (g2 x)).id = x.id ∧ (g3 (g2 x)).name = x.name := fun x => ⟨(u3 _).1.trans (f3 x).1, (u3 _).2.1.trans (f3 x).2⟩
          have hc : g3 (g2 c) = { c with display := r.display, flags := r.flags } := (congrArg g3 f4).trans (u2 _ rfl)
          unfold writeOutputs at e3
          simp only [Bool.false_eq_true, if_false] at e3
          split at e3
          · obtain rfl := Option.some.inj e3
            refine ⟨fun x => if (g3 (g2 x)).id == c.id then { g3 (g2 x) with outs := r.outs, excl := r.excl, group := r.group } else g3 (g2 x), ?_, ?_, ?_, ?_⟩
            · show put (unique t2 c.id r.outs).cmds c.id _ = _
              rw [hcomp, put, List.map_map]
              rfl
            · intro x hx
              simp only [(hid x).1, beq_iff_eq, hx, if_false]
              exact hkeep x hx
            · intro x
              by_cases hx : x.id = c.id <;> simp [hid x, hx]
            · simp [hc, SameSet]
          · next hd =>
            obtain rfl := Option.some.inj e3
            simp only [Bool.or_eq_true, decide_eq_true_eq, not_or, Decidable.not_not, ne_eq] at hd
            obtain ⟨⟨⟨⟨⟨_, hg⟩, ho1⟩, ho2⟩, hx1⟩, hx2⟩ := hd
            refine ⟨fun x => g3 (g2 x), hcomp, hkeep, hid, ?_⟩
            simp only [hc]
            exact ⟨trivial, trivial, trivial, diff_same.1 ⟨ho1, ho2⟩, diff_same.1 ⟨hx1, hx2⟩, hg⟩
        obtain ⟨g4, o1, o2, o3, o4, o5, o6, o7, o8, o9⟩ := ho
        split at h
        · cases h
        · next t4 e4 =>
          simp only [Option.some.injEq, Prod.mk.injEq] at h
          obtain ⟨rfl, rfl⟩ := h
          refine ⟨hs, rfl, ?_⟩
          unfold writeInputs at e4
          simp only [Bool.false_eq_true, if_false] at e4
          split at e4
          · next hi =>
            obtain rfl := Option.some.inj e4
            exact ⟨g4, o1, o3, o2, (o3 c).2.trans hn, o4, o5, o6 ▸ diff_same.1 ⟨hi.2, hi.1⟩, o7, o8, o9⟩
          · obtain rfl := Option.some.inj e4
            refine ⟨fun x => if (g4 x).id == c.id then { g4 x with ins := r.ins } else g4 x, ?_, ?_, ?_, ?_⟩
            · show put t3.cmds c.id _ = _
              rw [o1, put, List.map_map]
              rfl
            · intro x
              by_cases hx : x.id = c.id <;> simp [o3 x, hx]
            · intro x hx
              simp only [(o3 x).1, beq_iff_eq, hx, if_false]
              exact o2 x hx
            · simp only [(o3 c).1, beq_self_eq_true, if_true]
              exact ⟨(o3 c).2.trans hn, o4, o5, fun _ => Iff.rfl, o7, o8, o9⟩

/-- What holds while the rules are processed. -/
structure Run (done : List Rule) (t : Db) (seen : List Nat) : Prop where
  ids : (t.cmds.map (·.id)).Nodup
  names : (t.cmds.map (·.name)).Nodup
  once : (done.map (·.name)).Nodup
  all : ∀ r ∈ done, ∃ c ∈ t.cmds, c.id ∈ seen ∧ Match r c
  only : ∀ c ∈ t.cmds, c.id ∈ seen → ∃ r ∈ done, r.name = c.name

theorem doRule_false {done : List Rule} {t t' : Db} {r : Rule} {seen seen' : List Nat} (hr : Run done t seen) (hd : ∀ r' ∈ done, ∀ f, f ∈ r'.outs → f ∉ r.outs) (h : doRule false r t seen = some (t', seen')) :
    Run (done ++ [r]) t' seen' := by
  unfold doRule at h
  split at h
  · cases h
  · next t1 c m k e1 =>
    obtain ⟨hn, hc1, hk, hcase⟩ := locate_false e1
    have hcmp : (if k then setFlags false (setDisplay t1 c r) c r m else some (t1, m)) = setFlags false (setDisplay t1 c r) c r m := by
      cases k with
      | true => rfl
      | false =>
        obtain ⟨h1, h2⟩ := hk rfl
        simp [setFlags, setDisplay, h1, h2]
    rw [hcmp] at h
    obtain ⟨hs, rfl, g, e, g1, g2, g3⟩ := rest_map hn h
    have ids1 : (t1.cmds.map (·.id)).Nodup := by
      rcases hcase with h | ⟨h, h', _⟩ | ⟨_, h⟩
      · rw [h]; exact hr.ids
      · rw [h, List.map_append]
        refine List.nodup_append.2 ⟨hr.ids, by simp, ?_⟩
        intro a ha b hb
        obtain ⟨x, hx, rfl⟩ := List.mem_map.1 ha
        have := fresh_lt hx
        simp only [List.map_cons, List.map_nil, List.mem_singleton] at hb
        omega
      · rw [h, put, List.map_map]
        have : ((fun x : Cmd => x.id) ∘ fun x => if x.id == c.id then { x with name := r.name } else x) = fun x => x.id := by
          funext x
          simp only [Function.comp]
          split <;> rfl
        rw [this]
        exact hr.ids
    have names1 : (t1.cmds.map (·.name)).Nodup := by
      rcases hcase with h | ⟨h, _, h'⟩ | ⟨h', h⟩
      · rw [h]; exact hr.names
      · rw [h, List.map_append]
        refine List.nodup_append.2 ⟨hr.names, by simp, ?_⟩
        intro a ha b hb
        obtain ⟨x, hx, rfl⟩ := List.mem_map.1 ha
        simp only [List.map_cons, List.map_nil, List.mem_singleton] at hb
        rw [hb, hn]
        exact h' x hx
      · rw [h]
        clear h e1 hc1 ids1 e
        have hi := hr.ids
        have hnm := hr.names
        revert hi hnm h'
        generalize t.cmds = l
        intro h' hi hnm
        induction l with
        | nil => simp [put]
        | cons a l ih =>
          simp only [List.map_cons, List.nodup_cons, put] at hi hnm ⊢
          refine ⟨?_, ih (fun x hx => h' x (by simp [hx])) hi.2 hnm.2⟩
          intro hm
          rw [List.map_map] at hm
          obtain ⟨x, hx, hxe⟩ := List.mem_map.1 hm
          simp only [Function.comp] at hxe
          by_cases hac : a.id = c.id
          · have hxc : x.id ≠ c.id := fun h => hi.1 (List.mem_map.2 ⟨x, hx, h.trans hac.symm⟩)
            simp only [beq_iff_eq, hxc, hac, if_false, if_true] at hxe
            exact h' x (by simp [hx]) hxe
          · by_cases hxc : x.id = c.id
            · simp only [beq_iff_eq, hxc, hac, if_false, if_true] at hxe
              exact h' a (by simp) hxe.symm
            · simp only [beq_iff_eq, hxc, hac, if_false] at hxe
              exact hnm.1 (List.mem_map.2 ⟨x, hx, hxe⟩)
    have old : ∀ x ∈ t.cmds, x.id ≠ c.id → x ∈ t1.cmds := by
      intro x hx hne
      rcases hcase with h | ⟨h, _, _⟩ | ⟨_, h⟩
      · rw [h]; exact hx
      · rw [h]; exact List.mem_append_left _ hx
      · rw [h]; exact List.mem_map.2 ⟨x, hx, by simp [hne]⟩
    have new : ∀ x ∈ t1.cmds, x.id ≠ c.id → x ∈ t.cmds := by
      intro x hx hne
      rcases hcase with h | ⟨h, _, _⟩ | ⟨_, h⟩
      · rw [h] at hx; exact hx
      · rw [h] at hx
        rcases List.mem_append.1 hx with h | h
        · exact h
        · simp only [List.mem_singleton] at h
          exact absurd (by rw [h]) hne
      · rw [h] at hx
        obtain ⟨y, hy, hyx⟩ := List.mem_map.1 hx
        by_cases hyc : y.id = c.id
        · simp only [beq_iff_eq, hyc, if_true] at hyx
          exact absurd (by rw [← hyx]) hne
        · simp only [beq_iff_eq, hyc, if_false] at hyx
          exact hyx ▸ hy
    refine ⟨?_, ?_, ?_, ?_, ?_⟩
    · rw [e, List.map_map]
      rw [show ((fun x : Cmd => x.id) ∘ g) = (fun x => x.id) from funext fun x => (g1 x).1]
      exact ids1
    · rw [e, List.map_map]
      rw [show ((fun x : Cmd => x.name) ∘ g) = (fun x => x.name) from funext fun x => (g1 x).2]
      exact names1
    · rw [List.map_append]
      refine List.nodup_append.2 ⟨hr.once, by simp, ?_⟩
      intro a ha b hb
      obtain ⟨r', hr', rfl⟩ := List.mem_map.1 ha
      simp only [List.map_cons, List.map_nil, List.mem_singleton] at hb
      rw [hb]
      intro hne
      obtain ⟨x, hx, hxs, hxm⟩ := hr.all r' hr'
      have hxc : x.id ≠ c.id := fun h => hs (h ▸ hxs)
      have := nodup_inj names1 (old x hx hxc) hc1 (hxm.name.trans (hne.trans hn.symm))
      exact hxc (by rw [this])
    · intro r' hr'
      rcases List.mem_append.1 hr' with hr' | hr'
      · obtain ⟨x, hx, hxs, hxm⟩ := hr.all r' hr'
        have hxc : x.id ≠ c.id := fun h => hs (h ▸ hxs)
        obtain ⟨k1, k2, k3, k4, k5, k6, k7, k9, k8⟩ := g2 x hxc
        refine ⟨g x, by rw [e]; exact List.mem_map_of_mem (old x hx hxc), by rw [k1]; exact List.mem_cons_of_mem _ hxs, k2.trans hxm.name, k3.trans hxm.display, k4.trans hxm.flags, k5 ▸ hxm.ins, ?_, k6 ▸ hxm.excl, k7.trans hxm.group⟩
        intro f
        by_cases hf : f ∈ r.outs
        · have hnr : f ∉ r'.outs := fun h => hd r' hr' f h hf
          have hnx : f ∉ x.outs := fun h => hnr ((hxm.outs f).1 h)
          exact ⟨fun h => absurd (k9 f h) hnx, fun h => absurd h hnr⟩
        · exact (k8 f hf).trans (hxm.outs f)
      · simp only [List.mem_singleton] at hr'
        subst hr'
        exact ⟨g c, by rw [e]; exact List.mem_map_of_mem hc1, by simp [(g1 c).1], g3⟩
    · intro y hy hys
      rw [e] at hy
      obtain ⟨x, hx, rfl⟩ := List.mem_map.1 hy
      rw [(g1 x).1] at hys
      by_cases hxc : x.id = c.id
      · have : x = c := nodup_inj ids1 hx hc1 hxc
        exact ⟨r, by simp, by rw [(g1 x).2, this, hn]⟩
      · obtain ⟨r', h1, h2⟩ := hr.only x (new x hx hxc) ((List.mem_cons.1 hys).resolve_left hxc)
        exact ⟨r', by simp [h1], by rw [(g1 x).2, h2]⟩

theorem doRules_false : ∀ (rules done : List Rule) (t t' : Db) (seen seen' : List Nat), Run done t seen → Disjoint (done ++ rules) → doRules false rules t seen = some (t', seen') → Run (done ++ rules) t' seen' := by
  intro rules
  induction rules with
  | nil =>
    intro done t t' seen seen' hr _ h
    simp only [doRules, Option.some.injEq, Prod.mk.injEq] at h
    obtain ⟨rfl, rfl⟩ := h
    simpa using hr
  | cons r l ih =>
    intro done t t' seen seen' hr hd h
    unfold doRules at h
    split at h
    · cases h
    · next t1 seen1 e1 =>
      have h1 := doRule_false hr (fun r' hr' => (List.pairwise_append.1 hd).2.2 r' hr' r (by simp)) e1
      have := ih (done ++ [r]) t1 t' seen1 seen' h1 (by simpa using hd) h
      simpa using this

end Tup.Refactor
