import Verif.Restore.Model

/- Lemmas for C52 and C59. -/

namespace Tup.Restore

open Tup (Str)

/-- The outputs are different files. -/
def Distinct (os : List Output) : Prop := (os.map Output.id).Nodup ∧ (os.map Output.path).Nodup

theorem Distinct.tail {o : Output} {os : List Output} (h : Distinct (o :: os)) : Distinct os :=
  ⟨(List.nodup_cons.mp h.1).2, (List.nodup_cons.mp h.2).2⟩

theorem Distinct.head {o : Output} {os : List Output} (h : Distinct (o :: os)) : ∀ x ∈ os, x.id ≠ o.id ∧ x.path ≠ o.path := by
  intro x hx
  refine ⟨fun e => (List.nodup_cons.mp h.1).1 (e ▸ List.mem_map.mpr ⟨x, hx, rfl⟩), fun e => (List.nodup_cons.mp h.2).1 (e ▸ List.mem_map.mpr ⟨x, hx, rfl⟩)⟩

/-- An output that `move_outputs` and `unlink_outputs` deal with. -/
def Output.plain (o : Output) : Prop := o.virtual = false ∧ o.transient = false

theorem moveOne_tree {e : Env} {o : Output} {d : Disk} (h : (moveOne e o d).2 = true) (ho : o.plain) :
    (∀ p, (moveOne e o d).1.tree p = if p = o.path then none else d.tree p) ∧
    (∀ i, (moveOne e o d).1.backup i = if i = o.id then (d.tree o.path).or (d.backup i) else d.backup i) := by
  unfold moveOne at h ⊢
  rw [ho.1, ho.2] at h ⊢
  simp only [Bool.or_self, Bool.false_eq_true, if_false] at h ⊢
  split at h
  · cases h
  · rename_i h1
    rw [if_neg h1]
    split at h
    · rename_i e1
      simp only [e1]
      refine ⟨fun p => ?_, fun i => ?_⟩
      · split
        · rename_i e2; rw [e2, e1]
        · rfl
      · simp
    · rename_i f e1
      split at h
      · cases h
      · rename_i h2
        simp only [e1, if_neg h2]
        exact ⟨fun _ => trivial, fun i => by simp⟩

theorem moveOne_idle {e : Env} {o : Output} {d : Disk} (ho : ¬ o.plain) : moveOne e o d = (d, true) := by
  unfold moveOne
  rw [if_pos]
  unfold Output.plain at ho
  cases h1 : o.virtual <;> cases h2 : o.transient <;> simp_all

theorem moveOne_rest {e : Env} {o : Output} {d : Disk} : (moveOne e o d).1.mtime = d.mtime ∧ (moveOne e o d).1.skip = d.skip := by
  unfold moveOne
  split
  · exact ⟨rfl, rfl⟩
  · split
    · exact ⟨rfl, rfl⟩
    · split
      · exact ⟨rfl, rfl⟩
      · split <;> exact ⟨rfl, rfl⟩

theorem each_cons {f : Output → Disk → Disk × Bool} {o : Output} {os : List Output} {d : Disk} (h : (each f (o :: os) d).2 = true) :
    (f o d).2 = true ∧ each f (o :: os) d = each f os (f o d).1 := by
  rw [each] at h ⊢
  generalize f o d = r at h ⊢
  obtain ⟨d', b⟩ := r
  cases b with
  | false => cases h
  | true => exact ⟨rfl, rfl⟩

theorem each_true {f : Output → Disk → Disk × Bool} : ∀ {os : List Output} {d : Disk}, (∀ o ∈ os, ∀ d, (f o d).2 = true) → (each f os d).2 = true
  | [], _, _ => rfl
  | o :: os, d, h => by
    rw [each]
    have := h o List.mem_cons_self d
    generalize f o d = r at this
    obtain ⟨d', b⟩ := r
    simp only at this
    subst this
    exact each_true fun x hx => h x (List.mem_cons_of_mem _ hx)

theorem move_spec {e : Env} : ∀ {os : List Output} {d : Disk}, Distinct os → (each (moveOne e) os d).2 = true →
    (∀ o ∈ os, o.plain → (each (moveOne e) os d).1.tree o.path = none ∧ (each (moveOne e) os d).1.backup o.id = (d.tree o.path).or (d.backup o.id)) ∧
    (∀ p, (∀ o ∈ os, o.plain → o.path ≠ p) → (each (moveOne e) os d).1.tree p = d.tree p) ∧
    (∀ i, (∀ o ∈ os, o.plain → o.id ≠ i) → (each (moveOne e) os d).1.backup i = d.backup i) ∧
    (each (moveOne e) os d).1.mtime = d.mtime ∧ (each (moveOne e) os d).1.skip = d.skip
  | [], d, _, _ => ⟨(fun _ h => by cases h), fun _ _ => rfl, fun _ _ => rfl, rfl, rfl⟩
  | o :: os, d, hd, h => by
    obtain ⟨h1, h2⟩ := each_cons h
    rw [h2] at h ⊢
    obtain ⟨ha, hb, hc, hm, hs⟩ := move_spec hd.tail h
    have hr := moveOne_rest (e := e) (o := o) (d := d)
    by_cases ho : o.plain
    · obtain ⟨ht, hk⟩ := moveOne_tree h1 ho
      refine ⟨fun x hx hp => ?_, fun p hp => ?_, fun i hi => ?_, hm.trans hr.1, hs.trans hr.2⟩
      · rcases List.mem_cons.mp hx with e1 | hx
        · subst e1
          refine ⟨?_, ?_⟩
          · rw [hb x.path (fun y hy _ => ((hd.head y hy).2)), ht, if_pos rfl]
          · rw [hc x.id (fun y hy _ => ((hd.head y hy).1)), hk, if_pos rfl]
        · obtain ⟨a, b⟩ := ha x hx hp
          refine ⟨a, ?_⟩
          rw [b, ht, hk, if_neg (hd.head x hx).2, if_neg (hd.head x hx).1]
      · rw [hb p (fun y hy => hp y (List.mem_cons_of_mem _ hy)), ht, if_neg (fun e1 => hp o List.mem_cons_self ho e1.symm)]
      · rw [hc i (fun y hy => hi y (List.mem_cons_of_mem _ hy)), hk, if_neg (fun e1 => hi o List.mem_cons_self ho e1.symm)]
    · have hi := moveOne_idle (e := e) (d := d) ho
      rw [hi] at ha hb hc hm hs ⊢
      refine ⟨fun x hx hp => ?_, fun p hp => ?_, fun i hi => ?_, hm, hs⟩
      · rcases List.mem_cons.mp hx with e1 | hx
        · exact absurd (e1 ▸ hp) ho
        · exact ha x hx hp
      · exact hb p fun y hy => hp y (List.mem_cons_of_mem _ hy)
      · exact hc i fun y hy => hi y (List.mem_cons_of_mem _ hy)

theorem stamp_rest (o : Output) (d : Disk) : (stamp o d).tree = d.tree ∧ (stamp o d).backup = d.backup ∧ (stamp o d).skip = d.skip ∧
    ((∀ i, i ≠ o.id → (stamp o d).mtime i = d.mtime i) ∧ ∀ f, d.tree o.path = some f → (stamp o d).mtime o.id = f.mtime) := by
  unfold stamp
  split
  · rename_i f h
    refine ⟨rfl, rfl, rfl, fun i hi => if_neg hi, fun g hg => ?_⟩
    rw [h] at hg
    injection hg with hg
    simp only [if_pos, hg]
  · rename_i h
    exact ⟨rfl, rfl, rfl, fun i hi => rfl, fun g hg => by rw [h] at hg; cases hg⟩

theorem restoreOne_spec {e : Env} {o : Output} {d : Disk} (h : (restoreOne e o d).2 = true) (ho : o.virtual = false) :
    (∀ p, (restoreOne e o d).1.tree p = if p = o.path then (d.backup o.id).or (d.tree p) else d.tree p) ∧
    (∀ i, (restoreOne e o d).1.backup i = if i = o.id then none else d.backup i) ∧
    (∀ i, i ≠ o.id → (restoreOne e o d).1.mtime i = d.mtime i) ∧
    (∀ f, (restoreOne e o d).1.tree o.path = some f → (restoreOne e o d).1.mtime o.id = f.mtime) ∧
    (restoreOne e o d).1.skip = d.skip := by
  unfold restoreOne at h ⊢
  rw [ho] at h ⊢
  simp only [Bool.false_eq_true, if_false] at h ⊢
  split at h
  · rename_i e1
    simp only [e1]
    obtain ⟨a, b, c, s1, s2⟩ := stamp_rest o d
    refine ⟨fun p => ?_, fun i => ?_, s1, fun f hf => s2 f (a ▸ hf), c⟩
    · rw [a]; simp
    · rw [b]
      split
      · rename_i e2; rw [e2, e1]
      · rfl
  · rename_i f e1
    split at h
    · cases h
    · rename_i h2
      simp only [e1, if_neg h2]
      obtain ⟨a, b, c, s1, s2⟩ := stamp_rest o { d with tree := fun p => if p = o.path then some f else d.tree p, backup := fun i => if i = o.id then none else d.backup i }
      refine ⟨fun p => ?_, fun i => ?_, s1, fun g hg => ?_, c⟩
      · rw [a]; simp
      · rw [b]
      · rw [a] at hg
        exact s2 g hg

theorem restore_spec {e : Env} : ∀ {os : List Output} {d : Disk}, Distinct os → (each (restoreOne e) os d).2 = true →
    (∀ o ∈ os, o.virtual = false → (each (restoreOne e) os d).1.tree o.path = (d.backup o.id).or (d.tree o.path) ∧
      (each (restoreOne e) os d).1.backup o.id = none ∧
      ∀ f, (each (restoreOne e) os d).1.tree o.path = some f → (each (restoreOne e) os d).1.mtime o.id = f.mtime) ∧
    (∀ p, (∀ o ∈ os, o.virtual = false → o.path ≠ p) → (each (restoreOne e) os d).1.tree p = d.tree p) ∧
    (∀ i, (∀ o ∈ os, o.virtual = false → o.id ≠ i) → (each (restoreOne e) os d).1.backup i = d.backup i ∧ (each (restoreOne e) os d).1.mtime i = d.mtime i) ∧
    (each (restoreOne e) os d).1.skip = d.skip
  | [], d, _, _ => ⟨(fun _ h => by cases h), fun _ _ => rfl, fun _ _ => ⟨rfl, rfl⟩, rfl⟩
  | o :: os, d, hd, h => by
    obtain ⟨h1, h2⟩ := each_cons h
    rw [h2] at h ⊢
    obtain ⟨ha, hb, hc, hs⟩ := restore_spec hd.tail h
    by_cases ho : o.virtual = false
    · obtain ⟨ht, hk, hm, hm2, hs2⟩ := restoreOne_spec h1 ho
      refine ⟨fun x hx hp => ?_, fun p hp => ?_, fun i hi => ?_, hs.trans hs2⟩
      · rcases List.mem_cons.mp hx with e1 | hx
        · subst e1
          have hn1 : ∀ y ∈ os, y.virtual = false → y.path ≠ x.path := fun y hy _ => (hd.head y hy).2
          have hn2 : ∀ y ∈ os, y.virtual = false → y.id ≠ x.id := fun y hy _ => (hd.head y hy).1
          refine ⟨?_, ?_, fun f hf => ?_⟩
          · rw [hb _ hn1, ht, if_pos rfl]
          · rw [(hc _ hn2).1, hk, if_pos rfl]
          · rw [hb _ hn1] at hf
            rw [(hc _ hn2).2]
            exact hm2 f hf
        · obtain ⟨a, b, c⟩ := ha x hx hp
          refine ⟨?_, b, c⟩
          rw [a, ht, hk, if_neg (hd.head x hx).2, if_neg (hd.head x hx).1]
      · rw [hb p (fun y hy => hp y (List.mem_cons_of_mem _ hy)), ht, if_neg (fun e1 => hp o List.mem_cons_self ho e1.symm)]
      · obtain ⟨a, b⟩ := hc i (fun y hy => hi y (List.mem_cons_of_mem _ hy))
        have ne : i ≠ o.id := fun e1 => hi o List.mem_cons_self ho e1.symm
        rw [a, b, hk, if_neg ne, hm i ne]
        exact ⟨rfl, rfl⟩
    · have hi : restoreOne e o d = (d, true) := by
        unfold restoreOne
        rw [if_pos (by simpa using ho)]
      rw [hi] at ha hb hc hs ⊢
      refine ⟨fun x hx hp => ?_, fun p hp => ?_, fun i hi => ?_, hs⟩
      · rcases List.mem_cons.mp hx with e1 | hx
        · exact absurd (e1 ▸ hp) ho
        · exact ha x hx hp
      · exact hb p fun y hy => hp y (List.mem_cons_of_mem _ hy)
      · exact hc i fun y hy => hi y (List.mem_cons_of_mem _ hy)

theorem restoreOne_true {e : Env} {o : Output} (h : e.restores o.id = true) (d : Disk) : (restoreOne e o d).2 = true := by
  unfold restoreOne
  split
  · rfl
  · split
    · rfl
    · rw [if_neg (by simp [h])]

theorem unlink_spec {e : Env} : ∀ {os : List Output} {d : Disk}, Distinct os → (each (unlinkOne e) os d).2 = true →
    (∀ o ∈ os, o.plain → (each (unlinkOne e) os d).1.tree o.path = none ∧ (each (unlinkOne e) os d).1.skip o.id = false) ∧
    (∀ p, (∀ o ∈ os, o.plain → o.path ≠ p) → (each (unlinkOne e) os d).1.tree p = d.tree p) ∧
    (∀ i, (∀ o ∈ os, o.plain → o.id ≠ i) → (each (unlinkOne e) os d).1.skip i = d.skip i)
  | [], d, _, _ => ⟨(fun _ h => by cases h), fun _ _ => rfl, fun _ _ => rfl⟩
  | o :: os, d, hd, h => by
    obtain ⟨h1, h2⟩ := each_cons h
    rw [h2] at h ⊢
    obtain ⟨ha, hb, hc⟩ := unlink_spec hd.tail h
    by_cases ho : o.plain
    · have key : (∀ p, (unlinkOne e o d).1.tree p = if p = o.path then none else d.tree p) ∧
          ∀ i, (unlinkOne e o d).1.skip i = if i = o.id then false else d.skip i := by
        unfold unlinkOne at h1 ⊢
        rw [ho.1, ho.2] at h1 ⊢
        simp only [Bool.or_self, Bool.false_eq_true, if_false] at h1 ⊢
        split at h1
        · cases h1
        · rename_i h3
          rw [if_neg h3]
          split at h1
          · rename_i e1
            simp only [e1]
            refine ⟨fun p => ?_, fun _ => trivial⟩
            split
            · rename_i e2; rw [e2, e1]
            · rfl
          · rename_i f e1
            split at h1
            · cases h1
            · rename_i h4
              simp only [e1, if_neg h4]
              exact ⟨fun _ => trivial, fun _ => trivial⟩
      refine ⟨fun x hx hp => ?_, fun p hp => ?_, fun i hi => ?_⟩
      · rcases List.mem_cons.mp hx with e1 | hx
        · subst e1
          refine ⟨?_, ?_⟩
          · rw [hb x.path (fun y hy _ => ((hd.head y hy).2)), key.1, if_pos rfl]
          · rw [hc x.id (fun y hy _ => ((hd.head y hy).1)), key.2, if_pos rfl]
        · exact ha x hx hp
      · rw [hb p (fun y hy => hp y (List.mem_cons_of_mem _ hy)), key.1, if_neg (fun e1 => hp o List.mem_cons_self ho e1.symm)]
      · rw [hc i (fun y hy => hi y (List.mem_cons_of_mem _ hy)), key.2, if_neg (fun e1 => hi o List.mem_cons_self ho e1.symm)]
    · have hi : unlinkOne e o d = (d, true) := by
        unfold unlinkOne
        rw [if_pos]
        unfold Output.plain at ho
        cases h1 : o.virtual <;> cases h2 : o.transient <;> simp_all
      rw [hi] at ha hb hc ⊢
      refine ⟨fun x hx hp => ?_, fun p hp => ?_, fun i hi => ?_⟩
      · rcases List.mem_cons.mp hx with e1 | hx
        · exact absurd (e1 ▸ hp) ho
        · exact ha x hx hp
      · exact hb p fun y hy => hp y (List.mem_cons_of_mem _ hy)
      · exact hc i fun y hy => hi y (List.mem_cons_of_mem _ hy)

theorem check_spec : ∀ {os : List Output} {d : Disk}, Distinct os →
    (each checkOne os d).2 = true ∧ (each checkOne os d).1.tree = d.tree ∧ (each checkOne os d).1.backup = d.backup ∧
    (∀ o ∈ os, o.virtual = false → (each checkOne os d).1.skip o.id = (d.skip o.id && comparePaths (d.backup o.id) (d.tree o.path)))
  | [], d, _ => ⟨rfl, rfl, rfl, fun _ h => by cases h⟩
  | o :: os, d, hd => by
    have h1 : (checkOne o d).2 = true := by
      unfold checkOne
      split
      · rfl
      · split <;> rfl
    have h2 : each checkOne (o :: os) d = each checkOne os (checkOne o d).1 := by
      rw [each]
      generalize checkOne o d = r at h1
      obtain ⟨d', b⟩ := r
      simp only at h1
      subst h1
      rfl
    rw [h2]
    obtain ⟨ha, hb, hc, hs⟩ := check_spec (d := (checkOne o d).1) hd.tail
    have hk : (checkOne o d).1.tree = d.tree ∧ (checkOne o d).1.backup = d.backup ∧ ∀ i, i ≠ o.id → (checkOne o d).1.skip i = d.skip i := by
      unfold checkOne
      split
      · exact ⟨rfl, rfl, fun _ _ => rfl⟩
      · split
        · exact ⟨rfl, rfl, fun _ _ => rfl⟩
        · exact ⟨rfl, rfl, fun i hi => if_neg hi⟩
    refine ⟨ha, hb.trans hk.1, hc.trans hk.2.1, fun x hx hv => ?_⟩
    rcases List.mem_cons.mp hx with e1 | hx
    · subst e1
      have : ∀ (ps : List Output) (d : Disk), (∀ y ∈ ps, y.id ≠ x.id) → (each checkOne ps d).1.skip x.id = d.skip x.id := by
        intro ps
        induction ps with
        | nil => intro d _; rfl
        | cons y ps ih =>
          intro d hy
          have hne := hy y List.mem_cons_self
          have hn := fun z hz => hy z (List.mem_cons_of_mem _ hz)
          rw [each]
          unfold checkOne
          by_cases g1 : y.virtual = true
          · simp only [if_pos g1]
            exact ih d hn
          · simp only [if_neg g1]
            by_cases g2 : comparePaths (d.backup y.id) (d.tree y.path) = true
            · simp only [if_pos g2]
              exact ih d hn
            · simp only [if_neg g2]
              exact (ih _ hn).trans (if_neg (Ne.symm hne))
      rw [this os _ fun y hy => (hd.head y hy).1]
      unfold checkOne
      rw [hv]
      simp only [Bool.false_eq_true, if_false]
      split
      · rename_i e2; rw [e2, Bool.and_true]
      · rename_i e2
        have e2 : comparePaths (d.backup x.id) (d.tree x.path) = false := by simpa using e2
        rw [e2, Bool.and_false]
        simp
    · rw [hs x hx hv, hk.1, hk.2.1, hk.2.2 _ (hd.head x hx).1]

theorem unskip_spec : ∀ {os : List Output} {d : Disk}, (each unskipOne os d).2 = true ∧ (each unskipOne os d).1.tree = d.tree ∧
    (∀ i, (each unskipOne os d).1.skip i = (d.skip i && decide (i ∉ os.map Output.id)))
  | [], d => ⟨rfl, rfl, fun i => by simp [each]⟩
  | o :: os, d => by
    have h2 : each unskipOne (o :: os) d = each unskipOne os (unskipOne o d).1 := rfl
    rw [h2]
    obtain ⟨ha, hb, hc⟩ := unskip_spec (os := os) (d := (unskipOne o d).1)
    refine ⟨ha, hb, fun i => ?_⟩
    rw [hc]
    show ((if i = o.id then false else d.skip i) && _) = _
    by_cases e : i = o.id
    · simp [e]
    · simp [e]

theorem compareFiles_iff (a b : List Nat) : compareFiles a b = true ↔ a = b := by
  fun_induction compareFiles a b with
  | case1 a b h =>
    refine ⟨(fun h => by cases h), fun e => absurd (by rw [e]) h⟩
  | case2 a b h1 h2 =>
    refine ⟨fun _ => ?_, fun _ => rfl⟩
    have h1 : (a.take 4096).length = (b.take 4096).length := Classical.not_not.mp h1
    rw [List.length_take] at h1 h2
    rw [List.length_take] at h1
    have ha : a.length = 0 := by omega
    have hb : b.length = 0 := by omega
    rw [List.length_eq_zero_iff.mp ha, List.length_eq_zero_iff.mp hb]
  | case3 a b h1 h2 h3 =>
    refine ⟨(fun h => by cases h), fun e => absurd (by rw [e]) h3⟩
  | case4 a b h1 h2 h3 ih =>
    rw [ih]
    constructor
    · intro e
      have h3 : a.take 4096 = b.take 4096 := Classical.not_not.mp h3
      rw [← List.take_append_drop 4096 a, ← List.take_append_drop 4096 b, h3, e]
    · intro e; rw [e]

theorem comparePaths_iff (a b : Option File) (hl : ∀ f, a = some f → f.isLink = true → f.content.length ≤ 4096) :
    comparePaths a b = true ↔ ∃ f g, a = some f ∧ b = some g ∧ f.mode = g.mode ∧ f.content = g.content := by
  unfold comparePaths
  split
  · rename_i f g
    have one : (∃ f' g', some f = some f' ∧ some g = some g' ∧ f'.mode = g'.mode ∧ f'.content = g'.content) ↔ f.mode = g.mode ∧ f.content = g.content := by
      constructor
      · rintro ⟨_, _, e1, e2, h⟩
        injection e1 with e1; injection e2 with e2
        subst e1; subst e2
        exact h
      · exact fun h => ⟨f, g, rfl, rfl, h⟩
    rw [one]
    split
    · rename_i h
      exact ⟨(fun h => by cases h), fun e => absurd (by rw [e.2]) h⟩
    · rename_i h
      split
      · rename_i h2
        exact ⟨(fun h => by cases h), fun e => absurd e.1 h2⟩
      · rename_i h2
        have h2 : f.mode = g.mode := Classical.not_not.mp h2
        have h : f.content.length = g.content.length := Classical.not_not.mp h
        split
        · rename_i h3
          have hf := hl f rfl h3
          unfold compareLinks
          rw [List.take_of_length_le hf, List.take_of_length_le (h ▸ hf), if_neg (fun hx => hx h), decide_eq_true_eq]
          exact ⟨fun e => ⟨h2, e⟩, fun e => e.2⟩
        · rw [compareFiles_iff]
          exact ⟨fun e => ⟨h2, e⟩, fun e => e.2⟩
  · rename_i h
    refine ⟨(fun h => by cases h), ?_⟩
    rintro ⟨f, g, e1, e2, _⟩
    exact (h f g e1 e2).elim

end Tup.Restore
