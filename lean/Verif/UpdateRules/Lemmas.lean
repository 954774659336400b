import Verif.Update.Props
import Verif.UpdateRules.Spec

/-! The invariant of the database is kept by a change of the rules. -/

namespace Tup.Update

open Tup.Exec (S Cfg)

variable {π π' : Proj} {w w' : W} {changed ghost : Nat → Bool}

theorem kept_iff {x : Nat} : kept π π' x = true ↔
    (x ∈ π.nodes ∧ π.isCmd x = true) ∧ x ∈ π'.nodes ∧ π'.isCmd x = true := by
  simp [kept]

theorem outsDiffer_false {x : Nat} : outsDiffer π π' x = false ↔ ∀ p, p ∈ π.outs x ↔ p ∈ π'.outs x := by
  simp only [outsDiffer, Bool.not_eq_false', Bool.and_eq_true, List.all_eq_true, List.contains_iff_mem]
  grind

theorem parse_some (h : parse π π' changed ghost w = some w') :
    (∀ p, w'.content p = if lost π π' w.db p then none else w.content p) ∧
    (∀ p, w'.db.known p = if lost π π' w.db p then none else w.db.known p) ∧
    (∀ p x, w'.db.link p x = (kept π π' x && w.db.link p x && !(inputDropped π π' p x))) ∧
    (∀ x, w'.db.modify x = if π'.isCmd x then
              !(kept π π' x) || w.db.modify x || changed x || outsDiffer π π' x ||
                π.nodes.any fun p => w.db.link p x && inputDropped π π' p x
            else w.db.modify x && !(lost π π' w.db x) || (ghost x && !(π.gen x) && π'.gen x)) := by
  unfold parse at h
  split at h
  · cases h
  · injection h with h
    subst h
    exact ⟨fun _ => rfl, fun _ => rfl, fun _ _ => rfl, fun _ => rfl⟩

/-- a command that is not scheduled after the parsing -/
theorem parse_quiet (h : parse π π' changed ghost w = some w') {x : Nat} (hc : π'.isCmd x = true)
    (hm : w'.db.modify x = false) :
    kept π π' x = true ∧ w.db.modify x = false ∧ changed x = false ∧ (∀ p, p ∈ π.outs x ↔ p ∈ π'.outs x) ∧
      ∀ p ∈ π.nodes, w.db.link p x = true → inputDropped π π' p x = false := by
  rw [(parse_some h).2.2.2 x, if_pos hc] at hm
  simp only [Bool.or_eq_false_iff, Bool.not_eq_false', List.any_eq_false, Bool.and_eq_true, not_and,
    Bool.not_eq_true] at hm
  obtain ⟨⟨⟨⟨h1, h2⟩, h3⟩, h4⟩, h5⟩ := hm
  exact ⟨h1, h2, h3, outsDiffer_false.1 h4, h5⟩

theorem parse_J (ok : π.Ok) (ok' : π'.Ok) (hc : TellsChanges π π' changed) (hn : NoNewO π π' w)
    (h : parse π π' changed ghost w = some w') (j : J π w.db) : J π' w'.db := by
  intro x hx hxc
  refine Classical.byContradiction fun hno => ?_
  have hm : w'.db.modify x = false := bool_ne fun hm => hno (Or.inl hm)
  apply hno
  right
  obtain ⟨hk, hmo, hch, ho, hin⟩ := parse_quiet h hxc hm
  obtain ⟨hcont, hknown, hlink, hmod⟩ := parse_some h
  obtain ⟨⟨hx1, hxc1⟩, _, _⟩ := kept_iff.1 hk
  obtain ⟨hbeh, hopt⟩ := hc x hk hch
  have hmask : ∀ v, mask π' x v = mask π x v := by
    intro v; funext p; simp only [mask, ho p]
  rcases j x hx1 hxc1 with hj | ⟨v, ⟨⟨m1, m2, m3⟩, m4, m5⟩, hv⟩
  · rw [hmo] at hj; cases hj
  have hread : ∀ p ∈ (π.beh x (mask π x v)).reads, p ∉ π.outs x →
      ((p ∈ π.sticky x → p ∈ π'.sticky x) ∧ π.gen p = π'.gen p) := by
    intro p hp hpo
    have := hin p (ok.readsIn x _ p hp).1 (m5 p hp hpo)
    simp only [inputDropped, Bool.or_eq_false_iff, Bool.and_eq_false_iff, List.contains_eq_mem,
      decide_eq_false_iff_not, Bool.not_eq_false', decide_eq_true_eq, bne_eq_false_iff_eq] at this
    exact ⟨fun hs => this.1.resolve_left (fun hn => hn hs), this.2⟩
  have hlost : ∀ p, π.gen p = π'.gen p → lost π π' w.db p = false := by
    intro p hp; simp only [lost, hp]; cases π'.gen p <;> simp
  refine ⟨v, ⟨⟨?_, ?_, ?_⟩, ?_, ?_⟩, ?_⟩
  · rw [hmask, hbeh]; exact m1
  · intro o hoo; rw [hmask, hbeh]; exact m2 o ((ho o).2 hoo)
  · intro p hp hpo hg
    rw [hmask, hbeh] at hp
    have hpo' : p ∉ π.outs x := fun hq => hpo ((ho p).1 hq)
    obtain ⟨r1, r2⟩ := hread p hp hpo'
    exact r1 (m3 p hp hpo' (r2.trans hg))
  · intro o hoo
    rw [hmask, hbeh, hknown o]
    have hg' : π'.gen o = true := gen_iff.2 ⟨x, hx, hxc, hoo⟩
    have hg : π.gen o = true := gen_iff.2 ⟨x, hx1, hxc1, (ho o).2 hoo⟩
    rw [hlost o (hg.trans hg'.symm)]
    exact m4 o ((ho o).2 hoo)
  · intro p hp hpo
    rw [hmask, hbeh] at hp
    have hpo' : p ∉ π.outs x := fun hq => hpo ((ho p).1 hq)
    rw [hlink, hk, m5 p hp hpo', hin p (ok.readsIn x _ p hp).1 (m5 p hp hpo')]
    rfl
  · intro p hp hpo
    rw [hmask, hbeh] at hp
    have hpo' : p ∉ π.outs x := fun hq => hpo ((ho p).1 hq)
    obtain ⟨_, r2⟩ := hread p hp hpo'
    have hl := hlost p r2
    have hkn : w'.db.known p = w.db.known p := by rw [hknown p, hl]; rfl
    rw [hkn]
    rcases hv p hp hpo' with hv | hv | ⟨d, hd, hdm, hdo⟩
    · exact Or.inl hv
    · refine Or.inr (Or.inl ?_)
      have hp' : π'.isCmd p = false := (ok'.readsIn x (mask π x v) p (by rw [hbeh]; exact hp)).2
      rw [hmod p, if_neg (by rw [hp']; simp), hv, hl]; rfl
    · obtain ⟨d', hd'⟩ := gen_prod (r2.symm.trans hd.gen)
      refine Or.inr (Or.inr ⟨d', hd', ?_, ?_⟩)
      · refine Classical.byContradiction fun hq => ?_
        obtain ⟨q1, q2, _, q4, _⟩ := parse_quiet h hd'.2.1 (bool_ne hq)
        obtain ⟨⟨q5, q6⟩, _⟩ := kept_iff.1 q1
        have : Prod π d' p := ⟨q5, q6, (q4 p).2 hd'.2.2⟩
        rw [this.eq ok hd] at q2
        rw [q2] at hdm; cases hdm
      · rw [hkn]
        rcases hdo with hdo | hdo
        · exact hn p d d' hd hd' hdm hdo
        · exact Or.inr hdo

theorem Hist.ok {clean : Bool} {good : Proj → Proj → W → Prop} {π : Proj} {w : W} (h : Hist clean good π w) :
    π.Ok := by
  induction h with
  | init ok _ => exact ok
  | step _ _ ih => exact ih
  | parse _ ok _ _ _ _ => exact ok

theorem Hist.J {good : Proj → Proj → W → Prop} (hg : ∀ π π' w, good π π' w → NoNewO π π' w) {π : Proj} {w : W}
    (h : Hist true good π w) : J π w.db := by
  induction h with
  | init _ h => exact fun c hc hcc => Or.inl (h c hc hcc)
  | step h hs ih => exact ih.step h.ok hs
  | parse h ok hc hgo hp ih => exact parse_J h.ok ok hc (hg _ _ _ hgo) hp ih

end Tup.Update
