import Verif.DoRule.Sched
import Verif.Links.WriteTotal

/-! The steps of `do_rule` that cannot fail, for C50. -/

namespace Tup.DoRule

open Tup.Db Tup.Links Tup.Deletes

variable {db db' : Db} {excl : Nat} {p p' : Parse} {r : Spec}

/-- Where the node of an output is: directory and name. -/
def Out.key (excl : Nat) : Out → Nat × Str
  | .file d path _ => (d, base path)
  | .group d name => (d, name)
  | .exclusion pat => (excl, pat)

/-- The type of its node. -/
def Out.kind : Out → Kind
  | .file .. => .generated
  | .group .. => .group
  | .exclusion _ => .ghost

theorem create_ok {d : Nat} {name : Str} {kind : Kind} (src : Option Nat) (trans : Bool)
    (h : ∀ i n, db.select d name = some i → db.node i = some n → n.kind = .ghost ∨ n.kind = kind) : ∃ x, create db d name kind src trans = some x := by
  unfold create createNode
  cases hsel : db.select d name with
  | none => exact ⟨_, rfl⟩
  | some i =>
    obtain ⟨n, hn, _⟩ := select_some hsel
    simp only [hn]
    split
    · exact ⟨_, rfl⟩
    · rename_i hg
      rw [if_neg (fun hx => hx.1 ((h i n hsel hn).resolve_left hg))]
      exact ⟨_, rfl⟩

theorem asc_single {l : List Nat} (h : Asc l) (hu : ∀ x ∈ l, ∀ y ∈ l, x = y) : l = [] ∨ ∃ c, l = [c] := by
  match l, h with
  | [], _ => exact .inl rfl
  | [c], _ => exact .inr ⟨c, rfl⟩
  | a :: b :: l, h =>
    have := hu a (by simp) b (by simp)
    subst this
    exact absurd ((List.pairwise_cons.1 h).1 a (by simp)) (Nat.lt_irrefl _)

theorem incoming_ok (hs : Sound db) {b : Nat} (hu : ∀ x y, db.normal x b = true → db.normal y b = true → x = y) : ∃ o, incoming db b = some o := by
  have hm : ∀ x ∈ normalInputs db b, db.normal x b = true := fun x hx => (List.mem_filter.1 hx).2
  unfold incoming
  rcases asc_single (l := normalInputs db b) (asc_filter_range _ _) (fun x hx y hy => hu x y (hm x hx) (hm y hy)) with h | ⟨c, h⟩
  · rw [h]; exact ⟨_, rfl⟩
  · rw [h]; exact ⟨_, rfl⟩

theorem outputGroup_ok (hs : Sound db) {c : Nat}
    (hu : ∀ x y, db.normal c x = true → db.normal c y = true → db.isKind .group x = true → db.isKind .group y = true → x = y) :
    ∃ o, outputGroup db c = some o := by
  have hasc : Asc (oldGroups db c) := asc_sub (asc_filter_range _ _) _
  unfold outputGroup
  rcases asc_single hasc (fun x hx y hy => by
    have h1 := (mem_oldGroups hs).1 hx
    have h2 := (mem_oldGroups hs).1 hy
    exact hu x y h1.1 h2.1 h1.2 h2.2) with h | ⟨c, h⟩
  · rw [h]; exact ⟨_, rfl⟩
  · rw [h]; exact ⟨_, rfl⟩

/-- The one step of `addOuts` in terms of `create`. -/
theorem addOut_made {db0 : Db} {s s' : Outs} {o : Out} (ho : OutOk excl o) (h : OutsInv db0 excl r s) (ha : addOut excl p r s o = some s') :
    ∃ i src, Made s.db excl (o.key excl).1 (o.key excl).2 o.kind src s'.db i := by
  cases o with
  | file d path src =>
    simp only [addOut, addFile_eq] at ha
    split at ha
    · cases ha
    split at ha
    · cases ha
    split at ha
    · cases ha
    split at ha
    · cases ha
    rename_i db' i hcr
    split at ha
    · cases ha
    cases ha
    exact ⟨i, _, create_made (.inl ⟨.inl rfl, ho⟩) h.sound h.tidy hcr⟩
  | exclusion pat =>
    simp only [addOut, addExclusion] at ha
    split at ha
    · cases ha
    rename_i db' i hcr
    split at ha
    · cases ha
    cases ha
    exact ⟨i, _, create_made (.inr ⟨rfl, rfl⟩) h.sound h.tidy hcr⟩
  | group d name =>
    simp only [addOut, addGroup] at ha
    split at ha
    · cases ha
    split at ha
    · cases ha
    rename_i db' i hcr
    cases ha
    exact ⟨i, _, create_made (.inl ⟨.inr rfl, ho⟩) h.sound h.tidy hcr⟩

/-- A node was there before, as it is, or it is that of an output. -/
theorem addOuts_trace {db0 : Db} : ∀ {l : List Out} {s s' : Outs}, (∀ o ∈ l, OutOk excl o) → OutsInv db0 excl r s →
    addOuts excl p r l s = some s' → ∀ i n, s'.db.node i = some n →
      s.db.node i = some n ∨ ∃ o ∈ l, o.key excl = (n.dir, n.name) ∧ n.kind = o.kind
  | [], s, s', _, _, ha => by cases ha; exact fun i n h => .inl h
  | o :: l, s, s', ho, h, ha => by
    unfold addOuts at ha
    split at ha
    · cases ha
    rename_i s1 h1
    have ho1 := ho o List.mem_cons_self
    have is := addOut_inv ho1 h h1
    have hol : ∀ o ∈ l, OutOk excl o := fun o h => ho o (List.mem_cons_of_mem _ h)
    intro i n hn
    rcases addOuts_trace hol is ha i n hn with hi | ⟨o', h2, h3⟩
    · obtain ⟨j, src, m⟩ := addOut_made ho1 h h1
      by_cases hj : i = j
      · subst hj
        obtain ⟨n', e1, e2, e3, e4, _⟩ := m.node
        rw [hi] at e1; cases e1
        exact .inr ⟨o, List.mem_cons_self, by rw [e3, e4], e2⟩
      · rw [m.other i hj] at hi
        exact .inl hi
    · exact .inr ⟨o', List.mem_cons_of_mem _ h2, h3⟩

/-- An output, here or there. -/
def apart (excl : Nat) (o o' : Out) : Prop := o.key excl ≠ o'.key excl ∧ ¬ (o.kind = .group ∧ o'.kind = .group)

/-- The command may lose the file: no rule has claimed it, or the file belongs to a directory that is yet to be parsed. -/
def Loses (p : Parse) (src : Option Nat) (c : Nat) : Prop := p.doomed c = true ∨ ∃ d, src = some d ∧ p.parsing d = some false

/-- Nothing is against that output. -/
def OutFine (excl : Nat) (r : Spec) (p : Parse) : Out → Prop
  | .file d path src =>
    (r.variant = none → path ∉ ["Tupfile".toList, "Tuprules.tup".toList, "Tupfile.lua".toList, "Tuprules.lua".toList, "tup.config".toList]) ∧
    (∀ d', src = some d' → r.variant ≠ none → r.copy = false →
      (∀ b n, p.db.node b = some n → n.dir = d' → n.name = path → n.kind = .ghost) ∧ ∀ o ∈ r.outputs ++ r.extra, (o.key excl).1 ≠ d') ∧
    ∀ b n, p.db.node b = some n → n.dir = d → n.name = base path →
      n.kind = .ghost ∨ (n.kind = .generated ∧ ∀ c, p.db.normal c b = true → Loses p n.src c)
  | .group d name => ∀ b n, p.db.node b = some n → n.dir = d → n.name = name → n.kind = .ghost ∨ n.kind = .group
  | .exclusion pat => ∀ b n, p.db.node b = some n → n.dir = excl → n.name = pat → n.kind = .ghost

theorem available_of {src : Option Nat} {c : Nat} (h : Loses p src c) : available p src c = true := by
  unfold available
  rcases h with h | ⟨d, rfl, h⟩
  · simp [h]
  · simp [h]

theorem fullPath_variant {v path : Str} : fullPath (some v) path ∉ reserved := by
  intro h
  have : '/' ∈ fullPath (some v) path := by simp [fullPath]
  have hn : ∀ w ∈ reserved, '/' ∉ w := by decide
  exact hn _ h this

/-- One output is added. -/
theorem addOut_ok (hg : Good p.db excl) {l : List Out} {s : Outs} {o : Out} (hsub : ∀ x ∈ l, x ∈ r.outputs ++ r.extra) (hl : ∀ o ∈ l, OutOk excl o)
    (ho : OutOk excl o) (hx : addOuts excl p r l { db := p.db } = some s) (ha : ∀ x ∈ l, apart excl x o) (hf : OutFine excl r p o) :
    ∃ s', addOut excl p r s o = some s' := by
  have h0 := outs_start hg.sound hg.tidy r
  have is := addOuts_inv hl h0 hx
  have htr := addOuts_trace hl h0 hx
  -- the node of the output is the one that was there
  have hkey : ∀ i n, s.db.node i = some n → o.key excl = (n.dir, n.name) → p.db.node i = some n := fun i n h1 h2 => by
    rcases htr i n h1 with h | ⟨o', h3, h4, _⟩
    · exact h
    · exact absurd (h4.trans h2.symm) (ha o' h3).1
  cases o with
  | file d path src =>
    obtain ⟨f1, f2, f3⟩ := hf
    have hsrc : inSource r s.db path src = false := by
      unfold inSource
      split
      · rename_i v d' hv
        rw [Bool.and_eq_false_iff]
        by_cases hc : r.copy = false
        · right
          obtain ⟨k1, k2⟩ := f2 d' rfl (by rw [hv]; simp) hc
          split
          · rename_i i hsel
            obtain ⟨n, e1, e2, e3⟩ := select_some hsel
            rcases htr i n e1 with h | ⟨o', h3, h4, _⟩
            · rw [isKind_some e1, k1 i n h e2 e3]
              rfl
            · exact absurd (by rw [h4]; exact e2) (k2 o' (hsub o' h3))
          · rfl
        · left
          simpa using hc
      · rfl
    have hres : fullPath r.variant path ∉ reserved := by
      cases hv : r.variant with
      | none => exact f1 hv
      | some v => exact fullPath_variant
    have hno : ∀ i n, s.db.select d (base path) = some i → s.db.node i = some n →
        n.kind = .ghost ∨ (n.kind = .generated ∧ ∀ c, p.db.normal c i = true → Loses p n.src c) := fun i n hsel hn => by
      obtain ⟨n', e1, e2, e3⟩ := select_some hsel
      rw [hn] at e1; cases e1
      exact f3 i n (hkey i n hn (by rw [e2, e3]; rfl)) e2 e3
    have hval : validate p s.db d (base path) = true := by
      unfold validate
      cases hsel : s.db.select d (base path) with
      | none => rfl
      | some i =>
        obtain ⟨n, e1, e2, e3⟩ := select_some hsel
        have hp := hkey i n e1 (by rw [e2, e3]; rfl)
        have hdir : inDir p.db excl i = false := by rw [inDir_some hp, e2]; exact decide_eq_false ho
        have hdir' : inDir s.db excl i = false := by rw [inDir_some e1, e2]; exact decide_eq_false ho
        have hcase := hno i n hsel e1
        have hone : ∀ x y, s.db.normal x i = true → s.db.normal y i = true → x = y := fun x y hx hy => by
          rcases hcase with hk | ⟨hk, _⟩
          · have := (hg.tidy.ghost i (isKind_iff.2 ⟨n, hp, hk⟩) hdir x).1
            rw [is.normal x i hx] at this; cases this
          · have hgen := isKind_iff.2 ⟨n, e1, hk⟩
            have hng : s.db.isKind .group i = false := isKind_other hgen (by decide)
            exact is.tidy.owner x y i ⟨is.tidy.source x i hgen hx, hx, hng, hdir'⟩ ⟨is.tidy.source y i hgen hy, hy, hng, hdir'⟩
        obtain ⟨oc, hi⟩ := incoming_ok is.sound hone
        simp only [e1]
        rw [if_pos (by rcases hcase with h | h; exact .inl h; exact .inr h.1), hi]
        cases oc with
        | none => rfl
        | some c =>
          have hc := (incoming_some is.sound hi c).2 rfl
          have hc := is.normal c i hc
          rcases hcase with hk | ⟨_, hk⟩
          · have := (hg.tidy.ghost i (isKind_iff.2 ⟨n, hp, hk⟩) hdir c).1
            rw [hc] at this; cases this
          · exact available_of (hk c hc)
    obtain ⟨⟨db', i⟩, hcr⟩ := create_ok (db := s.db) (d := d) (name := base path) (kind := .generated) (some r.dir) r.transient
      (fun i n h1 h2 => (hno i n h1 h2).imp id And.left)
    have hi : i ∉ s.outputs := fun hi => by
      have m := create_made (.inl ⟨.inl rfl, ho⟩) is.sound is.tidy hcr
      obtain ⟨n, e1, _⟩ := is.output i hi
      obtain ⟨e2, e3, _⟩ := m.self n e1
      obtain ⟨path', src', h1, h2⟩ := addOuts_only hl h0 hx i hi (by simp) n e1
      exact (ha _ h1).1 (by show (n.dir, base path') = (d, base path); rw [h2, e2, e3])
    simp only [addOut, addFile_eq, hsrc, Bool.false_eq_true, if_false, hres, hval, Bool.not_true, hcr, hi]
    exact ⟨_, rfl⟩
  | exclusion pat =>
    obtain ⟨⟨db', i⟩, hcr⟩ := create_ok (db := s.db) (d := excl) (name := pat) (kind := .ghost) none false
      (fun i n h1 h2 => by
        obtain ⟨n', e1, e2, e3⟩ := select_some h1
        rw [h2] at e1; cases e1
        exact .inl (hf i n (hkey i n h2 (by rw [e2, e3]; rfl)) e2 e3))
    have hi : i ∉ s.exclusions := fun hi => by
      have m := create_made (.inr ⟨rfl, rfl⟩) is.sound is.tidy hcr
      obtain ⟨n, e1, _⟩ := is.exclusion i hi
      obtain ⟨e2, e3, _⟩ := m.self n e1
      have h1 := addOuts_only_excluded hl h0 hx i hi (by simp) n e1
      exact (ha _ h1).1 (by show (excl, n.name) = (excl, pat); rw [e3])
    simp only [addOut, addExclusion, hcr, hi, if_false]
    exact ⟨_, rfl⟩
  | group d name =>
    obtain ⟨⟨db', i⟩, hcr⟩ := create_ok (db := s.db) (d := d) (name := name) (kind := .group) none false
      (fun i n h1 h2 => by
        obtain ⟨n', e1, e2, e3⟩ := select_some h1
        rw [h2] at e1; cases e1
        exact hf i n (hkey i n h2 (by rw [e2, e3]; rfl)) e2 e3)
    have hgr : s.group = none := by
      cases hgr : s.group with
      | none => rfl
      | some g =>
        obtain ⟨n, e1, _⟩ := is.group g hgr
        have h1 := addOuts_only_group hl h0 hx g hgr rfl n e1
        exact absurd ⟨rfl, rfl⟩ (ha _ h1).2
    simp only [addOut, addGroup, hgr, hcr]
    exact ⟨_, rfl⟩

/-- All of them. -/
theorem addOuts_ok (hg : Good p.db excl) (hr : ∀ o ∈ r.outputs ++ r.extra, OutOk excl o) (hp : (r.outputs ++ r.extra).Pairwise (apart excl))
    (hf : ∀ o ∈ r.outputs ++ r.extra, OutFine excl r p o) : ∀ l l', r.outputs ++ r.extra = l ++ l' →
      ∀ s, addOuts excl p r l { db := p.db } = some s → ∃ s', addOuts excl p r l' s = some s'
  | l, [], _, s, _ => ⟨s, rfl⟩
  | l, o :: l', he, s, hs => by
    have hmem : ∀ x ∈ l, x ∈ r.outputs ++ r.extra := fun x hx => by rw [he]; exact List.mem_append_left _ hx
    have ho : o ∈ r.outputs ++ r.extra := by rw [he]; simp
    obtain ⟨s1, h1⟩ := addOut_ok hg hmem (fun x hx => hr x (hmem x hx)) (hr o ho) hs (fun x hx => by
      rw [he] at hp
      exact (List.pairwise_append.1 hp).2.2 x hx o List.mem_cons_self) (hf o ho)
    have he' : r.outputs ++ r.extra = (l ++ [o]) ++ l' := by rw [he]; simp
    obtain ⟨s', h2⟩ := addOuts_ok hg hr hp hf (l ++ [o]) l' he' s1 (by
      rw [addOuts_append, hs]
      show addOuts excl p r [o] s = some s1
      unfold addOuts
      rw [h1]
      rfl)
    refine ⟨s', ?_⟩
    unfold addOuts
    rw [h1]
    exact h2

end Tup.DoRule
