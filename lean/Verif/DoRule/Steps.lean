import Verif.DoRule.Made

/-! The steps of `do_rule`, one after the other. -/

namespace Tup.DoRule

open Tup.Db Tup.Links

variable {db db' : Db} {excl : Nat}

/-- A declared file or group is not in the directory of the exclusions. -/
def OutOk (excl : Nat) : Out → Prop
  | .file d _ _ => d ≠ excl
  | .group d _ => d ≠ excl
  | .exclusion _ => True

/-- What holds while the outputs are added. -/
structure OutsInv (db0 : Db) (excl : Nat) (r : Spec) (s : Outs) : Prop where
  sound : Sound s.db
  tidy : Tidy s.db excl
  nodup : s.outputs.Nodup
  output : ∀ b ∈ s.outputs, ∃ n, s.db.node b = some n ∧ n.kind = .generated ∧ n.dir ≠ excl ∧ n.src = some r.dir
  exclusion : ∀ b ∈ s.exclusions, ∃ n, s.db.node b = some n ∧ n.kind = .ghost ∧ n.dir = excl
  group : ∀ g, s.group = some g → ∃ n, s.db.node g = some n ∧ n.kind = .group
  keep : ∀ i n, db0.node i = some n → ∃ m, s.db.node i = some m ∧ m.dir = n.dir ∧ m.name = n.name ∧
    (n.kind ≠ .ghost → m.kind = n.kind) ∧ (n.kind = .generated → i ∉ s.outputs → m.src = n.src)
  cmd : ∀ i, s.db.isKind .cmd i = true → s.db.node i = db0.node i
  normal : ∀ a b, s.db.normal a b = true → db0.normal a b = true
  top : db0.top ≤ s.db.top
  links : ∀ a b n m, db0.node a = some n → db0.node b = some m → n.kind ≠ .ghost → m.kind ≠ .ghost → s.db.normal a b = db0.normal a b
  unique : Unique db0 → Unique s.db

theorem outs_start (hs : Sound db) (ht : Tidy db excl) (r : Spec) : OutsInv db excl r { db := db } := by
  refine ⟨hs, ht, List.nodup_nil, fun b h => ?_, fun b h => ?_, fun b h => ?_, fun i n h => ⟨n, h, rfl, rfl, fun _ => rfl, fun _ _ => rfl⟩,
    fun _ _ => rfl, fun _ _ h => h, Nat.le_refl _, fun _ _ _ _ _ _ _ _ => rfl, id⟩
  · simp at h
  · simp at h
  · simp at h

/-- What a node that is made leaves of the others. -/
theorem Made.keep {d : Nat} {name : Str} {kind : Kind} {src : Option Nat} {i : Nat} (m : Made db excl d name kind src db' i)
    (hd : kind = .ghost ∨ d ≠ excl) {j : Nat} {n : Node} (h : db.node j = some n) :
    ∃ n', db'.node j = some n' ∧ n'.dir = n.dir ∧ n'.name = n.name ∧ (n.kind ≠ .ghost → n'.kind = n.kind) ∧
      (n.dir = excl → n'.kind = n.kind) ∧ (j ≠ i → n' = n) := by
  by_cases hj : j = i
  · subst hj
    obtain ⟨k1, k2, k3⟩ := m.self n h
    obtain ⟨n', e1, e2, e3, e4, _⟩ := m.node
    refine ⟨n', e1, e3.trans k1.symm, e4.trans k2.symm, fun hg => ?_, fun hx => ?_, fun h => absurd rfl h⟩
    · rcases k3 with k3 | k3
      · exact absurd k3 hg
      · rw [e2, k3]
    · rcases k3 with k3 | k3
      · rcases hd with hd | hd
        · rw [e2, k3, hd]
        · exact absurd (k1.symm.trans hx) hd
      · rw [e2, k3]
  · exact ⟨n, by rw [m.other j hj, h], rfl, rfl, fun _ => rfl, fun _ => rfl, fun _ => rfl⟩

theorem outs_links {db0 : Db} {r : Spec} {s : Outs} (h : OutsInv db0 excl r s) {d : Nat} {name : Str} {kind : Kind} {src : Option Nat} {i : Nat}
    (k : Made s.db excl d name kind src db' i) {a b : Nat} {n m : Node} (ha : db0.node a = some n) (hb : db0.node b = some m) (hn : n.kind ≠ .ghost)
    (hm : m.kind ≠ .ghost) : db'.normal a b = db0.normal a b := by
  obtain ⟨n', e1, _, _, e2, _⟩ := h.keep a n ha
  obtain ⟨m', f1, _, _, f2, _⟩ := h.keep b m hb
  rw [k.links a b, h.links a b n m ha hb hn hm]
  · rw [isKind_some e1, e2 hn]; exact decide_eq_false hn
  · rw [isKind_some f1, f2 hm]; exact decide_eq_false hm

/-- The new node is none of the outputs so far. -/
theorem outs_made {db0 : Db} {r : Spec} {s : Outs} (h : OutsInv db0 excl r s) {d : Nat} {name : Str} {kind : Kind} {src : Option Nat} {i : Nat}
    (hd : kind = .ghost ∨ d ≠ excl) (hkc : kind ≠ .cmd) (m : Made s.db excl d name kind src db' i) (hout : i ∉ s.outputs) :
    OutsInv db0 excl r { s with db := db' } ∨ kind = .generated ∧
      ((∀ b ∈ s.outputs, ∃ n, db'.node b = some n ∧ n.kind = .generated ∧ n.dir ≠ excl ∧ n.src = some r.dir) ∧
    (∀ b ∈ s.exclusions, ∃ n, db'.node b = some n ∧ n.kind = .ghost ∧ n.dir = excl) ∧
    (∀ g, s.group = some g → ∃ n, db'.node g = some n ∧ n.kind = .group) ∧
    (∀ j n, db0.node j = some n → ∃ m, db'.node j = some m ∧ m.dir = n.dir ∧ m.name = n.name ∧
      (n.kind ≠ .ghost → m.kind = n.kind) ∧ (n.kind = .generated → j ∉ s.outputs → j ≠ i → m.src = n.src)) ∧
    (∀ j, db'.isKind .cmd j = true → db'.node j = db0.node j) ∧ (∀ a b, db'.normal a b = true → db0.normal a b = true)) := by
  have f1 : ∀ b ∈ s.outputs, ∃ n, db'.node b = some n ∧ n.kind = .generated ∧ n.dir ≠ excl ∧ n.src = some r.dir := by
    intro b hb
    have hbi : b ≠ i := fun e => hout (e ▸ hb)
    rw [m.other b hbi]
    exact h.output b hb
  have f2 : ∀ b ∈ s.exclusions, ∃ n, db'.node b = some n ∧ n.kind = .ghost ∧ n.dir = excl := by
    intro b hb
    obtain ⟨n, e1, e2, e3⟩ := h.exclusion b hb
    obtain ⟨n', k1, k2, _, _, k3, _⟩ := m.keep hd e1
    exact ⟨n', k1, (k3 e3).trans e2, k2.trans e3⟩
  have f3 : ∀ g, s.group = some g → ∃ n, db'.node g = some n ∧ n.kind = .group := by
    intro g hg
    obtain ⟨n, e1, e2⟩ := h.group g hg
    obtain ⟨n', k1, _, _, k2, _⟩ := m.keep hd e1
    exact ⟨n', k1, (k2 (by rw [e2]; decide)).trans e2⟩
  have f4 : ∀ j n, db0.node j = some n → ∃ m, db'.node j = some m ∧ m.dir = n.dir ∧ m.name = n.name ∧
      (n.kind ≠ .ghost → m.kind = n.kind) ∧ (n.kind = .generated → j ∉ s.outputs → j ≠ i → m.src = n.src) := by
    intro j n hn
    obtain ⟨q, e1, e2, e3, e4, e5⟩ := h.keep j n hn
    obtain ⟨n', k1, k2, k3, k4, _, k5⟩ := m.keep hd e1
    refine ⟨n', k1, k2.trans e2, k3.trans e3, fun hg => ?_, fun hg ho hi => ?_⟩
    · have := e4 hg
      exact (k4 (by rw [this]; exact hg)).trans this
    · rw [k5 hi]; exact e5 hg ho
  have f5 : ∀ j, db'.isKind .cmd j = true → db'.node j = db0.node j := by
    intro j hj
    by_cases hji : j = i
    · subst hji
      obtain ⟨n, e1, e2, _⟩ := m.node
      rw [isKind_some e1, e2] at hj
      simp only [decide_eq_true_eq] at hj
      exact absurd hj hkc
    · rw [isKind_congr (m.other j hji)] at hj
      rw [m.other j hji]
      exact h.cmd j hj
  have f6 : ∀ a b, db'.normal a b = true → db0.normal a b = true := fun a b hn => h.normal a b (m.normal a b hn)
  by_cases hk : kind = .generated
  · exact .inr ⟨hk, f1, f2, f3, f4, f5, f6⟩
  · left
    refine ⟨m.sound, m.tidy, h.nodup, f1, f2, f3, fun j n hn => ?_, f5, f6, Nat.le_trans h.top m.top,
      fun a b n q ha hb hn hq => outs_links h m ha hb hn hq, fun hu => m.unique (h.unique hu)⟩
    obtain ⟨n', k1, k2, k3, k4, k5⟩ := f4 j n hn
    refine ⟨n', k1, k2, k3, k4, fun hg ho => k5 hg ho ?_⟩
    rintro rfl
    obtain ⟨q, e1, _, _, e4, _⟩ := h.keep j n hn
    have := e4 (by rw [hg]; decide)
    rcases (m.self q e1).2.2 with hc | hc
    · rw [this, hg] at hc; cases hc
    · exact hk (by rw [← hc, this, hg])

theorem addOut_inv {db0 : Db} {p : Parse} {r : Spec} {s s' : Outs} {o : Out} (ho : OutOk excl o) (h : OutsInv db0 excl r s)
    (ha : addOut excl p r s o = some s') : OutsInv db0 excl r s' := by
  cases o with
  | file d path src =>
    simp only [addOut, addFile_eq] at ha
    split at ha
    · cases ha
    split at ha
    · cases ha
    split at ha
    · cases ha
    split at ha
    · cases ha
    rename_i db' i hc
    split at ha
    · cases ha
    rename_i hi
    cases ha
    have m := create_made (.inl ⟨.inl rfl, ho⟩) h.sound h.tidy hc
    rcases outs_made h (.inr ho) (by decide) m hi with hk | ⟨_, f1, f2, f3, f4, f5, f6⟩
    · refine ⟨m.sound, m.tidy, ?_, fun b hb => ?_, hk.exclusion, hk.group, fun j n hn => ?_, hk.cmd, hk.normal, hk.top, hk.links, hk.unique⟩
      · exact List.nodup_append.2 ⟨h.nodup, by simp, fun a ha b hb => by simp at hb; rintro rfl; exact hi (hb ▸ ha)⟩
      · rcases List.mem_append.1 hb with hb | hb
        · exact hk.output b hb
        · simp at hb
          subst hb
          obtain ⟨n, e1, e2, e3, _, e5⟩ := m.node
          exact ⟨n, e1, e2, by rw [e3]; exact ho, e5 (by simp)⟩
      · obtain ⟨m', e1, e2, e3, e4, e5⟩ := hk.keep j n hn
        exact ⟨m', e1, e2, e3, e4, fun hg hno => e5 hg fun hc => hno (List.mem_append_left _ hc)⟩
    · refine ⟨m.sound, m.tidy, ?_, fun b hb => ?_, f2, f3, fun j n hn => ?_, f5, f6, Nat.le_trans h.top m.top,
      fun a b n q ha hb hn hq => outs_links h m ha hb hn hq, fun hu => m.unique (h.unique hu)⟩
      · exact List.nodup_append.2 ⟨h.nodup, by simp, fun a ha b hb => by simp at hb; rintro rfl; exact hi (hb ▸ ha)⟩
      · rcases List.mem_append.1 hb with hb | hb
        · exact f1 b hb
        · simp at hb
          subst hb
          obtain ⟨n, e1, e2, e3, _, e5⟩ := m.node
          exact ⟨n, e1, e2, by rw [e3]; exact ho, e5 (by simp)⟩
      · obtain ⟨m', e1, e2, e3, e4, e5⟩ := f4 j n hn
        refine ⟨m', e1, e2, e3, e4, fun hg hno => e5 hg (fun hc => hno (List.mem_append_left _ hc)) ?_⟩
        rintro rfl
        exact hno (List.mem_append_right _ (by simp))
  | exclusion pat =>
    simp only [addOut, addExclusion] at ha
    split at ha
    · cases ha
    rename_i db' i hc
    split at ha
    · cases ha
    cases ha
    have m := create_made (.inr ⟨rfl, rfl⟩) h.sound h.tidy hc
    have hio : i ∉ s.outputs := by
      intro hi
      obtain ⟨n, e1, e2, e3, _⟩ := h.output i hi
      exact e3 (m.self n e1).1
    rcases outs_made h (.inl rfl) (by decide) m hio with hk | ⟨hk, _⟩
    · refine ⟨m.sound, m.tidy, h.nodup, hk.output, fun b hb => ?_, hk.group, hk.keep, hk.cmd, hk.normal, hk.top, hk.links, hk.unique⟩
      rcases List.mem_append.1 hb with hb | hb
      · exact hk.exclusion b hb
      · simp at hb
        subst hb
        obtain ⟨n, e1, e2, e3, _⟩ := m.node
        exact ⟨n, e1, e2, e3⟩
    · cases hk
  | group d name =>
    simp only [addOut, addGroup] at ha
    split at ha
    · cases ha
    split at ha
    · cases ha
    rename_i db' i hc
    cases ha
    have m := create_made (.inl ⟨.inr rfl, ho⟩) h.sound h.tidy hc
    have hio : i ∉ s.outputs := by
      intro hi
      obtain ⟨n, e1, e2, e3, _⟩ := h.output i hi
      rcases (m.self n e1).2.2 with hc | hc <;> rw [e2] at hc <;> cases hc
    rcases outs_made h (.inr ho) (by decide) m hio with hk | ⟨hk, _⟩
    · refine ⟨m.sound, m.tidy, h.nodup, hk.output, hk.exclusion, fun g hg => ?_, hk.keep, hk.cmd, hk.normal, hk.top, hk.links, hk.unique⟩
      cases hg
      obtain ⟨n, e1, e2, _⟩ := m.node
      exact ⟨n, e1, e2⟩
    · cases hk

theorem addOuts_inv {db0 : Db} {p : Parse} {r : Spec} : ∀ {l : List Out} {s s' : Outs}, (∀ o ∈ l, OutOk excl o) → OutsInv db0 excl r s →
    addOuts excl p r l s = some s' → OutsInv db0 excl r s'
  | [], s, s', _, h, ha => by cases ha; exact h
  | o :: l, s, s', ho, h, ha => by
    unfold addOuts at ha
    split at ha
    · cases ha
    rename_i s1 h1
    exact addOuts_inv (fun o' h' => ho o' (List.mem_cons_of_mem _ h')) (addOut_inv (ho o List.mem_cons_self) h h1) ha

/-- The outputs are only added to. -/
theorem addOuts_sub {p : Parse} {r : Spec} : ∀ {l : List Out} {s s' : Outs}, addOuts excl p r l s = some s' → ∀ b ∈ s.outputs, b ∈ s'.outputs
  | [], s, s', ha => by cases ha; exact fun _ h => h
  | o :: l, s, s', ha => by
    unfold addOuts at ha
    split at ha
    · cases ha
    rename_i s1 h1
    intro b hb
    refine addOuts_sub ha b ?_
    cases o with
    | file d path src =>
      simp only [addOut, addFile_eq] at h1
      repeat' split at h1
      all_goals first | cases h1 | skip
      exact List.mem_append_left _ hb
    | exclusion pat =>
      simp only [addOut, addExclusion] at h1
      repeat' split at h1
      all_goals first | cases h1 | skip
      exact hb
    | group d name =>
      simp only [addOut, addGroup] at h1
      repeat' split at h1
      all_goals first | cases h1 | skip
      exact hb

theorem OutsInv.restart {db0 : Db} {r : Spec} {s : Outs} (h : OutsInv db0 excl r s) : OutsInv s.db excl r s :=
  ⟨h.sound, h.tidy, h.nodup, h.output, h.exclusion, h.group, fun _ n h => ⟨n, h, rfl, rfl, fun _ => rfl, fun _ _ => rfl⟩, fun _ _ => rfl, fun _ _ h => h,
    Nat.le_refl _, fun _ _ _ _ _ _ _ _ => rfl, id⟩

/-- The files that are listed are among the outputs. -/
theorem addOuts_listed {p : Parse} {r : Spec} {db0 : Db} : ∀ {l : List Out} {s s' : Outs}, (∀ o ∈ l, OutOk excl o) → OutsInv db0 excl r s →
    addOuts excl p r l s = some s' → ∀ d path src, Out.file d path src ∈ l → ∃ b ∈ s'.outputs, ∃ n, s'.db.node b = some n ∧ n.dir = d ∧ n.name = base path
  | [], s, s', _, _, _ => fun d path src h => by cases h
  | o :: l, s, s', ho, h, ha => by
    unfold addOuts at ha
    split at ha
    · cases ha
    rename_i s1 h1
    have i1 := addOut_inv (ho o List.mem_cons_self) h h1
    have ho' := fun o' h' => ho o' (List.mem_cons_of_mem _ h')
    intro d path src hm
    rcases List.mem_cons.1 hm with rfl | hm
    · have hok := ho _ (List.mem_cons_self (l := l))
      simp only [addOut, addFile_eq] at h1
      split at h1
      · cases h1
      split at h1
      · cases h1
      split at h1
      · cases h1
      split at h1
      · cases h1
      rename_i db' i hc
      split at h1
      · cases h1
      cases h1
      have m := create_made (.inl ⟨.inl rfl, hok⟩) h.sound h.tidy hc
      obtain ⟨n, e1, e2, e3, e4, _⟩ := m.node
      refine ⟨i, addOuts_sub ha i (List.mem_append_right _ (by simp)), ?_⟩
      obtain ⟨n', f1, f2, f3, _⟩ := (addOuts_inv ho' i1.restart ha).keep i n e1
      exact ⟨n', f1, f2.trans e3, f3.trans e4⟩
    · exact addOuts_listed ho' i1 ha d path src hm


end Tup.DoRule
