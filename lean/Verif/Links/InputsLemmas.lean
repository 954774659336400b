import Verif.Links.Spec
import Verif.Graph.Props

/-! Lemmas for the recorded inputs. -/

namespace Tup.Links

open Tup.Db Tup.Graph

theorem asc_range (n : Nat) : Asc (List.range n) := List.pairwise_lt_range

theorem asc_filter {l : List Nat} (p : Nat → Bool) (h : Asc l) : Asc (l.filter p) := h.filter p

variable {db : Db}

theorem Sound.lt (h : Sound db) {a : Nat} (ha : (db.node a).isSome) : 0 < a ∧ a < db.top := by
  obtain ⟨n, hn⟩ := Option.isSome_iff_exists.1 ha
  exact h.node a n hn

theorem mem_normalInputs (h : Sound db) {a c : Nat} : a ∈ normalInputs db c ↔ db.normal a c = true := by
  simp only [normalInputs, List.mem_filter, List.mem_range]
  exact ⟨fun h => h.2, fun hn => ⟨(h.lt (h.normal a c hn).1).2, hn⟩⟩

theorem mem_stickyInputs (h : Sound db) {a c : Nat} : a ∈ stickyInputs db c ↔ db.sticky a c = true := by
  simp only [stickyInputs, List.mem_filter, List.mem_range]
  exact ⟨fun h => h.2, fun hn => ⟨(h.lt (h.sticky a c hn).1).2, hn⟩⟩

theorem mem_groupInputs (h : Sound db) {a c : Nat} :
    a ∈ groupInputs db c ↔ db.sticky a c = true ∧ db.isKind .group a = true := by
  simp only [groupInputs, List.mem_filter, mem_stickyInputs h]

theorem mem_recordedInputs (h : Sound db) {env a c : Nat} :
    a ∈ recordedInputs db env c ↔ db.normal a c = true ∧ ¬ EnvLink db env c a := by
  simp only [recordedInputs, List.mem_filter, mem_normalInputs h, EnvLink]
  grind

theorem mem_linksFrom (h : Sound db) {a b : Nat} : b ∈ linksFrom db a ↔ Feeds db a b := by
  simp only [linksFrom, List.mem_filter, List.mem_range, Feeds]
  exact ⟨fun h => h.2, fun hn => ⟨(h.lt (h.normal a b hn).2).2, hn⟩⟩

theorem plus_iff (h : Sound db) {a b : Nat} : Plus (fun a b => b ∈ linksFrom db a) a b ↔ Plus (Feeds db) a b := by
  have : (fun a b => b ∈ linksFrom db a) = Feeds db := by
    funext a b
    exact propext (mem_linksFrom h)
  rw [this]

theorem closed (h : Sound db) {a : Nat} (ha : (db.node a).isSome) :
    Closed ⟨linksFrom db, fun _ => []⟩ 0 (allIds db) [a] := by
  have hmem : ∀ x, (db.node x).isSome → x ∈ allIds db := by
    intro x hx
    have := h.lt hx
    simp only [allIds, List.mem_filter, List.mem_range, decide_eq_true_eq]
    omega
  refine ⟨fun n hn => ?_, fun n _ m hm => ?_, ?_, ?_⟩
  · rw [List.mem_singleton] at hn
    subst hn
    exact hmem n ha
  · rcases hm with hm | hm
    · exact hmem m (h.normal n m ((mem_linksFrom h).1 hm)).2
    · cases hm
  · simp [allIds]
  · exact List.Pairwise.filter _ List.nodup_range

/-- Nothing made from `a` is in the set. -/
def Cut (db : Db) (declared : List Nat) (a : Nat) : Prop := ∀ v ∈ declared, v ≠ a → ¬ Plus (Feeds db) a v

theorem checkGenerated_spec (h : Sound db) (c : Cmd) (hg : ∀ g ∈ c.groups, g ∈ c.sticky ∧ db.isKind .group g = true) :
    ∀ l : List Nat, (∀ a ∈ l, db.isKind .generated a = true) →
      (∀ a ∈ checkGenerated db c l, a ∈ l) ∧
      (∀ a ∈ l, Cut db c.sticky a → a ∈ checkGenerated db c l) ∧
      (Acyclic db → ∀ a ∈ checkGenerated db c l, Cut db c.sticky a) := by
  intro l
  induction l with
  | nil => intro _; simp [checkGenerated]
  | cons a l ih =>
    intro hk
    obtain ⟨i1, i2, i3⟩ := ih fun x hx => hk x (List.mem_cons_of_mem _ hx)
    have hak := hk a List.mem_cons_self
    have hrow : (db.node a).isSome := by
      obtain ⟨n, hn, _⟩ := isKind_iff.1 hak
      rw [hn]; rfl
    by_cases hc : (c.groups.any fun g => db.normal a g) = true
    · rw [checkGenerated, if_pos hc]
      refine ⟨fun x hx => List.mem_cons_of_mem _ (i1 x hx), ?_, i3⟩
      intro x hx hcut
      rcases List.mem_cons.1 hx with rfl | hx
      · obtain ⟨g, hg1, hg2⟩ := List.any_eq_true.1 hc
        obtain ⟨hg3, hg4⟩ := hg g hg1
        refine absurd (Plus.one hg2) (hcut g hg3 ?_)
        rintro rfl
        obtain ⟨n, h1, h2⟩ := isKind_iff.1 hg4
        obtain ⟨m, h3, h4⟩ := isKind_iff.1 hak
        rw [h1] at h3
        cases h3
        rw [h2] at h4
        cases h4
      · exact i2 x hx hcut
    · rw [checkGenerated, if_neg hc]
      have hconn := c39_connected (valid := fun v => decide (v ∈ c.sticky)) (closed h hrow)
      simp only [decide_eq_true_eq, plus_iff h] at hconn
      have hcut : (∃ v, v ≠ a ∧ v ∈ c.sticky ∧ Plus (Feeds db) a v) ↔ ¬ Cut db c.sticky a := by
        simp only [Cut]
        grind
      rcases hconn with ⟨he, hv⟩ | ⟨he, hv⟩ | ⟨he, n, h1, h2⟩
      · rw [he]
        refine ⟨fun x hx => List.mem_cons_of_mem _ (i1 x hx), ?_, i3⟩
        intro x hx hcut'
        rcases List.mem_cons.1 hx with rfl | hx
        · exact absurd hcut' (hcut.1 hv)
        · exact i2 x hx hcut'
      · rw [he]
        refine ⟨?_, ?_, ?_⟩
        · intro x hx
          rcases List.mem_cons.1 hx with rfl | hx
          · exact List.mem_cons_self
          · exact List.mem_cons_of_mem _ (i1 x hx)
        · intro x hx hcut'
          rcases List.mem_cons.1 hx with rfl | hx
          · exact List.mem_cons_self
          · exact List.mem_cons_of_mem _ (i2 x hx hcut')
        · intro hac x hx
          rcases List.mem_cons.1 hx with rfl | hx
          · exact Classical.byContradiction (fun hc => hv (hcut.2 hc))
          · exact i3 hac x hx
      · rw [he]
        refine ⟨fun x hx => hx, fun x hx _ => hx, fun hac => absurd h2 (hac n)⟩

/-- The first comparison: the undeclared generated files among those that were read. -/
theorem first_spec {c : Cmd} {read : List Nat} (hr : Asc read) (hs : Asc c.sticky) {s : Inp}
    (h : compare (newInput c) (fun s _ => some s) read c.sticky ⟨db, [], false⟩ = some s) :
    s.db = db ∧ s.important = false ∧
    ∀ a, a ∈ s.missing ↔ a ∈ read ∧ a ∉ c.sticky ∧ a ∉ c.outputs ∧ db.isKind .generated a = true := by
  have := compare_inv hr hs (fun D (s : Inp) => s.db = db ∧ s.important = false ∧
    ∀ a, a ∈ s.missing ↔ D (.left a) ∧ a ∉ c.outputs ∧ db.isKind .generated a = true)
    (s := ⟨db, [], false⟩) (s' := s) (by simp) (by
      intro D e s s' hD _ ⟨p1, p2, p3⟩ hst
      cases e with
      | left a =>
        simp only [step1, newInput] at hst
        split at hst
        · cases hst
          refine ⟨p1, p2, fun x => ?_⟩
          rw [p3]
          simp only [Ev.left.injEq]
          grind
        · split at hst
          · cases hst
          · split at hst
            · cases hst
              refine ⟨p1, p2, fun x => ?_⟩
              simp only [List.mem_append, List.mem_singleton, p3, Ev.left.injEq]
              rw [p1] at *
              grind
            · cases hst
              refine ⟨p1, p2, fun x => ?_⟩
              rw [p3]
              simp only [Ev.left.injEq]
              rw [p1] at *
              grind
      | right b =>
        cases hst
        refine ⟨p1, p2, fun x => ?_⟩
        rw [p3]
        simp) h
  obtain ⟨h1, h2, h3⟩ := this
  refine ⟨h1, h2, fun a => ?_⟩
  rw [h3]
  simp only [(mem_diff hr hs).1, and_assoc]

theorem first_total {c : Cmd} {read : List Nat} (hr : Asc read) (hs : Asc c.sticky)
    (hv : ∀ a ∈ read, a ∉ c.outputs → c.variant a = none ∨ c.variant a = c.variant c.id) (s : Inp) :
    ∃ s', compare (newInput c) (fun s _ => some s) read c.sticky s = some s' := by
  obtain ⟨s', h, _⟩ := compare_total (fa := newInput c) (fb := fun s _ => some s) hr hs (fun _ _ => True) (s := s) trivial (by
    intro D e s _ he _
    cases e with
    | left a =>
      have := ((mem_diff hr hs).1 a).1 he
      simp only [step1, newInput]
      split
      · exact ⟨_, rfl, trivial⟩
      · rename_i ho
        split
        · rename_i hc
          rcases hv a this.1 ho with h | h
          · exact absurd h hc.1
          · exact absurd h hc.2
        · split
          · exact ⟨_, rfl, trivial⟩
          · exact ⟨_, rfl, trivial⟩
    | right b => exact ⟨s, rfl, trivial⟩)
  exact ⟨s', h⟩

/-- The state during the second comparison. -/
structure Mid (db : Db) (c : Cmd) (m : List Nat) (D : Ev → Prop) (s : Inp) : Prop where
  rest : s.db = { db with normal := s.db.normal, ghosts := s.db.ghosts }
  missing : s.missing = m
  normal : ∀ x y, s.db.normal x y = true ↔
    (db.normal x y = true ∧ ¬ (y = c.id ∧ D (.right x))) ∨ (y = c.id ∧ D (.left x) ∧ x ∉ c.outputs ∧ x ∉ m)
  ghosts : ∀ x, s.db.ghosts x = true ↔ db.ghosts x = true ∨ (D (.right x) ∧ x ∉ c.sticky ∧ db.ghosty x = true)
  important : s.important = true ↔ ∃ x, D (.right x) ∧ db.isKind .generated x = true

theorem mid_start (c : Cmd) (m : List Nat) : Mid db c m (fun _ => False) ⟨db, m, false⟩ := by
  refine ⟨rfl, rfl, ?_, ?_, ?_⟩ <;> simp

theorem mid_node {c : Cmd} {m : List Nat} {D : Ev → Prop} {s : Inp} (h : Mid db c m D s) : s.db.node = db.node := by
  rw [h.rest]

theorem mid_left {c : Cmd} {m : List Nat} {D : Ev → Prop} {s s' : Inp} {a : Nat} (h : Mid db c m D s)
    (hst : newNormalLink c s a = some s') : Mid db c m (fun x => x = .left a ∨ D x) s' := by
  obtain ⟨h1, h2, h3, h4, h5⟩ := h
  have skip : (a ∈ c.outputs ∨ a ∈ m) → Mid db c m (fun x => x = .left a ∨ D x) s := by
    intro ho
    refine ⟨h1, h2, fun x y => ?_, fun x => ?_, ?_⟩
    · rw [h3]; simp only [Ev.left.injEq, reduceCtorEq, false_or]; grind
    · rw [h4]; simp only [reduceCtorEq, false_or]
    · rw [h5]; simp only [reduceCtorEq, false_or]
  unfold newNormalLink at hst
  split at hst
  · cases hst; exact skip (.inl (by assumption))
  · rename_i ho
    split at hst
    · cases hst; exact skip (.inr (by rw [← h2]; assumption))
    · rename_i hm
      rw [h2] at hm
      split at hst
      · cases hst
      · unfold insertLink at hst
        split at hst
        · rename_i db' heq
          split at heq
          · cases heq
          · cases heq
            cases hst
            refine ⟨by rw [h1], h2, fun x y => ?_, fun x => ?_, ?_⟩
            · simp only [Bool.or_eq_true, Bool.and_eq_true, decide_eq_true_eq, h3, Ev.left.injEq, reduceCtorEq, false_or]
              grind
            · rw [h4]; simp only [reduceCtorEq, false_or]
            · rw [h5]; simp only [reduceCtorEq, false_or]
        · cases hst

theorem mid_right {c : Cmd} {m : List Nat} {D : Ev → Prop} {s s' : Inp} {a : Nat} (h : Mid db c m D s)
    (hnl : ¬ D (.left a) ∧ db.normal a c.id = true) (hst : delNormalLink c s a = some s') :
    Mid db c m (fun x => x = .right a ∨ D x) s' := by
  have hnode := mid_node h
  obtain ⟨h1, h2, h3, h4, h5⟩ := h
  unfold delNormalLink at hst
  have hkind : ∀ k x, s.db.isKind k x = db.isKind k x := fun k x => isKind_congr (by rw [hnode]) k
  have hgh : ∀ x, s.db.ghosty x = db.ghosty x := fun x => by simp only [Db.ghosty, hkind]
  have hgh' : ∀ x, (removeLink s.db a c.id).ghosty x = db.ghosty x := hgh
  cases hst
  by_cases hk : s.db.isKind .generated a = true
  · simp only [hk, if_true]
    rw [hkind] at hk
    by_cases hs : a ∈ c.sticky
    · simp only [if_pos hs]
      refine ⟨by rw [removeLink, h1], h2, fun x y => ?_, fun x => ?_, ?_⟩
      · simp only [removeLink, Bool.and_eq_true, Bool.not_eq_true', Bool.and_eq_false_iff, decide_eq_false_iff_not, h3,
          Ev.right.injEq, reduceCtorEq, false_or]
        grind
      · simp only [removeLink, h4, Ev.right.injEq]; grind
      · simp only [Ev.right.injEq, true_iff]; exact ⟨a, .inl rfl, hk⟩
    · simp only [if_neg hs]
      refine ⟨by rw [Db.addGhost, removeLink, h1], h2, fun x y => ?_, fun x => ?_, ?_⟩
      · simp only [Db.addGhost, removeLink, Bool.and_eq_true, Bool.not_eq_true', Bool.and_eq_false_iff,
          decide_eq_false_iff_not, h3, Ev.right.injEq, reduceCtorEq, false_or]
        grind
      · simp only [Db.addGhost, hgh']
        simp only [removeLink, Bool.or_eq_true, Bool.and_eq_true, decide_eq_true_eq, h4, Ev.right.injEq]
        grind
      · simp only [Ev.right.injEq, true_iff]; exact ⟨a, .inl rfl, hk⟩
  · simp only [hk, Bool.false_eq_true, if_false]
    rw [hkind] at hk
    by_cases hs : a ∈ c.sticky
    · simp only [if_pos hs]
      refine ⟨by rw [removeLink, h1], h2, fun x y => ?_, fun x => ?_, ?_⟩
      · simp only [removeLink, Bool.and_eq_true, Bool.not_eq_true', Bool.and_eq_false_iff, decide_eq_false_iff_not, h3,
          Ev.right.injEq, reduceCtorEq, false_or]
        grind
      · simp only [removeLink, h4, Ev.right.injEq]; grind
      · simp only [Ev.right.injEq, h5]; grind
    · simp only [if_neg hs]
      refine ⟨by rw [Db.addGhost, removeLink, h1], h2, fun x y => ?_, fun x => ?_, ?_⟩
      · simp only [Db.addGhost, removeLink, Bool.and_eq_true, Bool.not_eq_true', Bool.and_eq_false_iff,
          decide_eq_false_iff_not, h3, Ev.right.injEq, reduceCtorEq, false_or]
        grind
      · simp only [Db.addGhost, hgh']
        simp only [removeLink, Bool.or_eq_true, Bool.and_eq_true, decide_eq_true_eq, h4, Ev.right.injEq]
        grind
      · simp only [Ev.right.injEq, h5]; grind

/-- The second comparison. -/
theorem second_spec {c : Cmd} {read recd m : List Nat} (hr : Asc read) (hn : Asc recd)
    (hrec : ∀ a ∈ recd, db.normal a c.id = true) {s : Inp}
    (h : compare (newNormalLink c) (delNormalLink c) read recd ⟨db, m, false⟩ = some s) :
    Mid db c m (fun e => e ∈ diff read recd) s := by
  refine (compare_inv hr hn (fun D s => Mid db c m D s ∧ ∀ e, D e → e ∈ diff read recd) ⟨mid_start c m, fun _ h => h.elim⟩ ?_ h).1
  intro D e s s' hD he ⟨hmid, hsub⟩ hst
  have hsub' : ∀ x, (x = e ∨ D x) → x ∈ diff read recd := by
    rintro x (rfl | hx)
    · exact he
    · exact hsub x hx
  cases e with
  | left a => exact ⟨mid_left hmid hst, hsub'⟩
  | right a =>
    have ha := ((mem_diff hr hn).2 a).1 he
    exact ⟨mid_right hmid ⟨fun hc => ((((mem_diff hr hn).1 a).1 (hsub _ hc)).2 ha.1), hrec a ha.1⟩ hst, hsub'⟩

theorem second_total {c : Cmd} {read recd m : List Nat} (hr : Asc read) (hn : Asc recd)
    (hrec : ∀ a ∈ recd, db.normal a c.id = true)
    (hok : ∀ a ∈ read, a ∉ recd → a ∉ c.outputs → a ≠ 0 ∧ a ≠ c.id ∧ db.isKind .cmd a = false ∧ db.normal a c.id = false)
    (hc : c.id ≠ 0) :
    ∃ s, compare (newNormalLink c) (delNormalLink c) read recd ⟨db, m, false⟩ = some s := by
  obtain ⟨s, h, _⟩ := compare_total (fa := newNormalLink c) (fb := delNormalLink c) hr hn
    (fun D s => Mid db c m D s ∧ ∀ e, D e → e ∈ diff read recd) (s := ⟨db, m, false⟩) ⟨mid_start c m, fun _ h => h.elim⟩ (by
    intro D e s hD he ⟨hmid, hsub⟩
    have hsub' : ∀ x, (x = e ∨ D x) → x ∈ diff read recd := by
      rintro x (rfl | hx)
      · exact he
      · exact hsub x hx
    cases e with
    | left a =>
      have ha := ((mem_diff hr hn).1 a).1 he
      have hex : ∃ s', newNormalLink c s a = some s' := by
        unfold newNormalLink
        split
        · exact ⟨_, rfl⟩
        · rename_i ho
          split
          · exact ⟨_, rfl⟩
          · obtain ⟨k1, k2, k3, k4⟩ := hok a ha.1 ha.2 ho
            have : s.db.isKind .cmd a = false := by
              rw [isKind_congr (db := db) (by rw [mid_node hmid])]; exact k3
            rw [if_neg (by rw [this]; decide)]
            have hno : ¬ (a = c.id ∨ a = 0 ∨ c.id = 0 ∨ s.db.normal a c.id = true) := by
              rw [hmid.normal]
              rintro (h | h | h | h | h)
              · exact k2 h
              · exact k1 h
              · exact hc h
              · rw [k4] at h; cases h.1
              · exact hD h.2.1
            rw [insertLink, if_neg hno]
            exact ⟨_, rfl⟩
      obtain ⟨s', hs'⟩ := hex
      exact ⟨s', hs', mid_left hmid hs', hsub'⟩
    | right a =>
      have ha := ((mem_diff hr hn).2 a).1 he
      exact ⟨_, rfl, mid_right hmid ⟨fun hc => ((((mem_diff hr hn).1 a).1 (hsub _ hc)).2 ha.1), hrec a ha.1⟩ rfl, hsub'⟩)
  exact ⟨s, h⟩

end Tup.Links
