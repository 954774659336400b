import Verif.GenDir.Spec
import Verif.Ghosts.Run
import Verif.Scan.Mod

/-! Lemmas about directories that are there only for outputs. -/

namespace Tup.GenDir

open Tup.Db Tup.Scan

theorem isGeneratedDir_iff {db : Db} (hb : Bounded db) {d : Nat} :
    isGeneratedDir db d = true ↔ (∀ c m, Child db d c m → m.kind ≠ .file ∧ m.kind ≠ .dir) ∧
      ∃ c m, Child db d c m ∧ m.src ≠ some d ∧ (m.kind = .generated ∨ m.kind = .generatedDir) := by
  unfold isGeneratedDir
  rw [Bool.and_eq_true, Bool.not_eq_true', Bool.eq_false_iff, ne_eq, anyNode_iff hb, anyNode_iff hb]
  simp only [Bool.and_eq_true, Bool.or_eq_true, decide_eq_true_eq]
  constructor
  · rintro ⟨h1, c, m, h2, ⟨h3, h4⟩, h5⟩
    refine ⟨fun c m hc => ⟨fun hk => h1 ⟨c, m, hc.1, hc.2, .inl hk⟩, fun hk => h1 ⟨c, m, hc.1, hc.2, .inr hk⟩⟩, c, m, ⟨h2, h3⟩, h4, h5⟩
  · rintro ⟨h1, c, m, ⟨h2, h3⟩, h4, h5⟩
    refine ⟨?_, c, m, h2, ⟨h3, h4⟩, h5⟩
    rintro ⟨c, m, g1, g2, g3 | g3⟩
    · exact (h1 c m ⟨g1, g2⟩).1 g3
    · exact (h1 c m ⟨g1, g2⟩).2 g3

theorem toGenerated_node {db : Db} {d j : Nat} : (toGenerated db d).node j = if j = d then (db.node j).map fun n => { n with kind := .generatedDir } else db.node j := rfl

/-- The directories that turn into generated ones, by their children. -/
inductive Becomes (db : Db) (parsed : Nat → Bool) : Nat → Prop
  | mk {d n} : db.node d = some n → n.kind = .dir → (parsed d = true ∨ ∃ c m, Child db d c m ∧ m.kind = .dir) →
      (∀ c m, Child db d c m → m.kind ≠ .file) → (∀ c m, Child db d c m → m.kind = .dir → Becomes db parsed c) → Foreign db d → Becomes db parsed d

theorem becomes_within {db : Db} {parsed : Nat → Bool} {d x : Nat} (h : Becomes db parsed d) (hw : Within db d x) : Becomes db parsed x := by
  induction hw with
  | self => exact h
  | sub _ hc hk ih =>
    cases ih with
    | mk _ _ _ _ h5 _ => exact h5 _ _ hc hk

theorem rank_bound (r : Nat → Nat) (t : Nat) : ∃ M, ∀ i, i < t → r i ≤ M := by
  induction t with
  | zero => exact ⟨0, fun i h => by omega⟩
  | succ t ih =>
    obtain ⟨M, hM⟩ := ih
    refine ⟨M + r t, fun i hi => ?_⟩
    by_cases h : i = t
    · rw [h]; omega
    · have := hM i (by omega); omega

theorem becomes_iff {db : Db} {parsed : Nat → Bool} {r : Nat → Nat} (hb : Bounded db) (hr : Ranked r db) {d : Nat} :
    Becomes db parsed d ↔ OnlyOutputs db parsed d := by
  constructor
  · intro h
    refine ⟨?_, fun x hx => ?_, fun x hx => ?_, fun x hx => ?_⟩
    · cases h with
      | mk h1 h2 => exact isKind_iff.2 ⟨_, h1, h2⟩
    · cases becomes_within h hx with
      | mk _ _ _ h4 => exact h4
    · cases becomes_within h hx with
      | mk _ _ _ _ _ h6 => exact h6
    · cases becomes_within h hx with
      | mk _ _ h3 => exact h3
  · obtain ⟨M, hM⟩ := rank_bound r db.top
    have key : ∀ k x, M - r x ≤ k → OnlyOutputs db parsed x → Becomes db parsed x := by
      intro k
      induction k with
      | zero =>
        intro x hx h
        obtain ⟨n, hn, hk⟩ := isKind_iff.1 h.dir
        have hlt := hM x (lt_top hb hn)
        refine .mk hn hk (h.innermost x .self) (h.noFile x .self) (fun c m hc hkc => ?_) (h.foreign x .self)
        have h1 := hr c m hc.1
        rw [hc.2] at h1
        have h2 := hM c (lt_top hb hc.1)
        omega
      | succ k ih =>
        intro x hx h
        obtain ⟨n, hn, hk⟩ := isKind_iff.1 h.dir
        refine .mk hn hk (h.innermost x .self) (h.noFile x .self) (fun c m hc hkc => ?_) (h.foreign x .self)
        have h1 := hr c m hc.1
        rw [hc.2] at h1
        have h2 := hM c (lt_top hb hc.1)
        have hlift : ∀ y, Within db c y → Within db x y := by
          intro y hy
          induction hy with
          | self => exact .sub .self hc hkc
          | sub _ a b ih => exact .sub ih a b
        exact ih c (by omega) ⟨isKind_iff.2 ⟨m, hc.1, hkc⟩, fun y hy => h.noFile y (hlift y hy), fun y hy => h.foreign y (hlift y hy), fun y hy => h.innermost y (hlift y hy)⟩
    exact key _ d (Nat.le_refl _)

/-- What holds before each round: some of the directories that turn into generated ones have done so. -/
structure Inv (db0 : Db) (parsed : Nat → Bool) (C : Nat → Bool) (s : Conv) : Prop where
  node : ∀ j, s.db.node j = if C j then (db0.node j).map fun n => { n with kind := .generatedDir } else db0.node j
  top : s.db.top = db0.top
  becomes : ∀ j, C j = true → Becomes db0 parsed j
  normal : ∀ a b, s.db.normal a b = (db0.normal a b && !C a && !C b)
  sticky : s.db.sticky = db0.sticky
  create : s.db.create = db0.create
  modify : s.db.modify = db0.modify
  todo : ∀ j, s.todo j = true → db0.isKind .dir j = true ∧ (parsed j = true ∨ ∃ c m, Child db0 j c m ∧ C c = true)
  seen : ∀ j, C j = false → s.todo j = false → (parsed j = true ∨ ∃ c m, Child db0 j c m ∧ C c = true) → isGeneratedDir s.db j = false
  fresh : ∀ j, s.todo j = true → C j = false
  done : ∀ j c m, C j = true → Child db0 j c m → m.kind = .dir → C c = true
  ignores : ∀ j, s.ignores j = true ↔ ∃ c m, Child db0 j c m ∧ C c = true
  deletes : ∀ g, s.deletes g = true ↔ ∃ j, C j = true ∧ madeIgnore db0 j = some g
  ghosts : ∀ j, s.db.ghosts j = true ↔ db0.ghosts j = true ∨ (db0.ghosty j = true ∧ ∃ d, C d = true ∧ db0.normal j d = true)

variable {db0 : Db} {parsed : Nat → Bool}

theorem Inv.child {C : Nat → Bool} {s : Conv} (h : Inv db0 parsed C s) {d c : Nat} {m : Node} :
    Child s.db d c m ↔ ∃ m0, Child db0 d c m0 ∧ m = if C c then { m0 with kind := .generatedDir } else m0 := by
  unfold Child
  rw [h.node]
  cases hc : C c with
  | false => simp
  | true =>
    cases hn : db0.node c with
    | none => simp
    | some m0 =>
      simp only [if_true, Option.map_some, Option.some.injEq]
      constructor
      · rintro ⟨rfl, h2⟩
        exact ⟨m0, ⟨rfl, h2⟩, rfl⟩
      · rintro ⟨m1, ⟨rfl, h2⟩, rfl⟩
        exact ⟨rfl, h2⟩

theorem Inv.bounded {C : Nat → Bool} {s : Conv} (h : Inv db0 parsed C s) (hb : Bounded db0) : Bounded s.db := by
  intro i hi
  rw [h.top] at hi
  rw [h.node, hb i hi]
  split <;> rfl

theorem Inv.was_dir {C : Nat → Bool} {s : Conv} (h : Inv db0 parsed C s) {c : Nat} (hc : C c = true) : db0.isKind .dir c = true := by
  cases h.becomes c hc with
  | mk h1 h2 => exact isKind_iff.2 ⟨_, h1, h2⟩

/-- The test, in terms of the first database. -/
theorem Inv.test {C : Nat → Bool} {s : Conv} (h : Inv db0 parsed C s) (hb : Bounded db0) (d : Nat) :
    isGeneratedDir s.db d = true ↔ (∀ c m, Child db0 d c m → m.kind ≠ .file ∧ (m.kind = .dir → C c = true)) ∧
      ∃ c m, Child db0 d c m ∧ m.src ≠ some d ∧ (m.kind = .generated ∨ m.kind = .generatedDir ∨ C c = true) := by
  rw [isGeneratedDir_iff (h.bounded hb)]
  have hdir : ∀ c m0, Child db0 d c m0 → C c = true → m0.kind = .dir := by
    intro c m0 hc hC
    obtain ⟨n, g1, g2⟩ := isKind_iff.1 (h.was_dir hC)
    rw [hc.1] at g1
    cases g1
    exact g2
  constructor
  · rintro ⟨h1, c, m, h2, h3, h4⟩
    refine ⟨fun c m hc => ?_, ?_⟩
    · have g := h1 c _ (h.child.2 ⟨m, hc, rfl⟩)
      cases hC : C c with
      | true =>
        refine ⟨?_, fun _ => rfl⟩
        rw [hdir c m hc hC]; decide
      | false =>
        rw [hC] at g
        exact ⟨g.1, fun hk => absurd hk g.2⟩
    · obtain ⟨m0, g1, g2⟩ := h.child.1 h2
      cases hC : C c with
      | true =>
        rw [hC] at g2
        refine ⟨c, m0, g1, ?_, .inr (.inr hC)⟩
        rw [g2] at h3
        exact h3
      | false =>
        rw [hC, if_neg (by simp)] at g2
        subst g2
        refine ⟨c, m, g1, h3, ?_⟩
        rcases h4 with h4 | h4
        · exact .inl h4
        · exact .inr (.inl h4)
  · rintro ⟨h1, c, m, h2, h3, h4⟩
    refine ⟨fun c m hc => ?_, ?_⟩
    · obtain ⟨m0, g1, g2⟩ := h.child.1 hc
      cases hC : C c with
      | true => rw [hC] at g2; rw [g2]; exact ⟨by simp, by simp⟩
      | false =>
        rw [hC, if_neg (by simp)] at g2
        subst g2
        exact ⟨(h1 c m g1).1, fun hk => by have := (h1 c m g1).2 hk; rw [hC] at this; cases this⟩
    · refine ⟨c, _, h.child.2 ⟨m, h2, rfl⟩, ?_, ?_⟩
      · split <;> exact h3
      · cases hC : C c with
        | true => right; simp
        | false =>
          rw [if_neg (by simp)]
          rcases h4 with h4 | h4 | h4
          · exact .inl h4
          · exact .inr h4
          · rw [hC] at h4; cases h4

theorem find_todo {s : Conv} {d : Nat} (h : (List.range s.db.top).find? s.todo = some d) : s.todo d = true := List.find?_some h

/-- The number of the ids below `t` for which `p` holds. -/
def count (p : Nat → Bool) (t : Nat) : Nat := ((List.range t).filter p).length

theorem filter_le {p q : Nat → Bool} (h : ∀ i, p i = true → q i = true) (l : List Nat) : (l.filter p).length ≤ (l.filter q).length := by
  induction l with
  | nil => exact Nat.le_refl _
  | cons a l ih =>
    simp only [List.filter_cons]
    cases hp : p a with
    | true => rw [h a hp]; simp only [if_true, List.length_cons]; omega
    | false => cases q a <;> simp <;> omega

theorem filter_lt {p q : Nat → Bool} {d : Nat} (h : ∀ i, p i = true → q i = true) (hq : q d = true) (hp : p d = false) (l : List Nat) (hm : d ∈ l) :
    (l.filter p).length < (l.filter q).length := by
  induction l with
  | nil => cases hm
  | cons a l ih =>
    simp only [List.filter_cons]
    have hle := filter_le h l
    by_cases hda : a = d
    · subst hda
      rw [hp, hq]
      simp only [if_true, List.length_cons]
      simp; omega
    · have hml : d ∈ l := by
        rcases List.mem_cons.1 hm with e | e
        · exact absurd e.symm hda
        · exact e
      have := ih hml
      cases hp' : p a with
      | true => rw [h a hp']; simp only [if_true, List.length_cons]; omega
      | false => cases q a <;> simp <;> omega

theorem count_lt {p q : Nat → Bool} {t d : Nat} (hd : d < t) (h : ∀ i, p i = true → q i = true) (hq : q d = true) (hp : p d = false) : count p t < count q t :=
  filter_lt h hq hp _ (List.mem_range.2 hd)

theorem count_add {p : Nat → Bool} {t x : Nat} : count (fun j => p j || decide (j = x)) t ≤ count p t + 1 := by
  unfold count
  have key : ∀ (l : List Nat), l.Nodup → (l.filter fun j => p j || decide (j = x)).length ≤ (l.filter p).length + 1 ∧ (x ∉ l → (l.filter fun j => p j || decide (j = x)).length = (l.filter p).length) := by
    intro l
    induction l with
    | nil => intro _; exact ⟨Nat.zero_le _, fun _ => rfl⟩
    | cons a l ih =>
      intro hnd
      obtain ⟨h1, h2⟩ := List.nodup_cons.1 hnd
      obtain ⟨i1, i2⟩ := ih h2
      simp only [List.filter_cons]
      by_cases hax : a = x
      · subst hax
        have := i2 h1
        refine ⟨?_, fun hn => absurd (List.mem_cons_self) hn⟩
        cases p a <;> simp <;> omega
      · have hd : decide (a = x) = false := decide_eq_false hax
        rw [hd, Bool.or_false]
        refine ⟨?_, fun hn => ?_⟩
        · cases p a <;> simp <;> omega
        · have := i2 (fun h => hn (List.mem_cons_of_mem _ h))
          cases p a <;> simp <;> omega
  exact (key _ List.nodup_range).1

/-- What gets smaller in each round. -/
def measure (s : Conv) : Nat := count (fun j => s.db.isKind .dir j) s.db.top + count s.todo s.db.top

theorem round_inv {r : Nat → Nat} (ht : Tree r db0) (hc : Clean db0) (htop : ¬ Becomes db0 parsed 1) {C : Nat → Bool} {s : Conv} (h : Inv db0 parsed C s) :
    (round s = .done s ∧ ∀ j, j < s.db.top → s.todo j = false) ∨ ∃ C' s', round s = .next s' ∧ Inv db0 parsed C' s' ∧ measure s' < measure s := by
  have hb := ht.bounded
  unfold round
  cases hf : (List.range s.db.top).find? s.todo with
  | none =>
    left
    refine ⟨rfl, fun j hj => ?_⟩
    have := List.find?_eq_none.1 hf j (List.mem_range.2 hj)
    simpa using this
  | some d =>
    right
    have htd := find_todo hf
    have hdlt : d < s.db.top := List.mem_range.1 (List.mem_of_find?_eq_some hf)
    dsimp only
    cases hg : isGeneratedDir s.db d with
    | false =>
      rw [if_neg (by simp)]
      refine ⟨C, _, rfl, ⟨h.node, h.top, h.becomes, h.normal, h.sticky, h.create, h.modify, fun j hj => ?_, fun j hj1 hj2 hj3 => ?_, fun j hj => ?_, h.done, h.ignores, h.deletes, h.ghosts⟩, ?_⟩
      · simp only [Bool.and_eq_true] at hj
        exact h.todo j hj.1
      · dsimp only at hj2 ⊢
        by_cases hjd : j = d
        · rw [hjd]; exact hg
        · rw [decide_eq_false hjd] at hj2
          exact h.seen j hj1 (by simpa using hj2) hj3
      · simp only [Bool.and_eq_true] at hj
        exact h.fresh j hj.1
      · unfold measure
        dsimp only
        have : count (fun j => s.todo j && !decide (j = d)) s.db.top < count s.todo s.db.top :=
          count_lt hdlt (fun i hi => by simp only [Bool.and_eq_true] at hi; exact hi.1) htd (by simp)
        omega
    | true =>
      rw [if_pos rfl]
      obtain ⟨hdir, hwhy⟩ := h.todo d htd
      obtain ⟨n, hn0, hnk⟩ := isKind_iff.1 hdir
      obtain ⟨t1, t2⟩ := (h.test hb d).1 hg
      have hCd : C d = false := h.fresh d htd
      have hn : s.db.node d = some n := by rw [h.node, hCd]; exact hn0
      have hchild : ∀ c m, Child db0 d c m → C c = true → m.kind = .dir := by
        intro c m hcm hC
        obtain ⟨m', g1, g2⟩ := isKind_iff.1 (h.was_dir hC)
        rw [hcm.1] at g1
        cases g1
        exact g2
      have hbec : Becomes db0 parsed d := by
        refine .mk hn0 hnk ?_ (fun c m hcm => (t1 c m hcm).1) (fun c m hcm hk => h.becomes c ((t1 c m hcm).2 hk)) ?_
        · rcases hwhy with e | ⟨c, m, e1, e2⟩
          · exact .inl e
          · exact .inr ⟨c, m, e1, hchild c m e1 e2⟩
        · obtain ⟨c, m, e1, e2, e3⟩ := t2
          refine ⟨c, m, e1, e2, ?_⟩
          rcases e3 with e3 | e3 | e3
          · exact .inl e3
          · exact .inr (.inl e3)
          · exact .inr (.inr (hchild c m e1 e3))
      have hd1 : d ≠ 1 := by rintro rfl; exact htop hbec
      have hpar0 : (db0.node n.dir).isSome = true := by
        rcases ht.rooted d n hn0 with e | e
        · exact absurd (ht.one d n hn0 e) hd1
        · exact e
      have hpar : (s.db.node n.dir).isSome = true := by
        rw [h.node]
        split
        · rw [Option.isSome_map]; exact hpar0
        · exact hpar0
      obtain ⟨p, hp⟩ := Option.isSome_iff_exists.1 hpar0
      have hpk : p.kind = .dir := hc.user n.dir d n p ⟨hn0, rfl⟩ (.inr hnk) hp
      have hne : n.dir ≠ d := by
        intro e
        have := ht.ranked d n hn0
        rw [e] at this
        omega
      have hCp : C n.dir = false := by
        cases hx : C n.dir with
        | false => rfl
        | true =>
          have := h.done n.dir d n hx ⟨hn0, rfl⟩ hnk
          rw [hCd] at this
          cases this
      rw [hn]
      dsimp only
      rw [if_pos hpar]
      refine ⟨fun j => C j || decide (j = d), _, rfl, ?_, ?_⟩
      · have hnew : ∀ j, (toGenerated s.db d).node j = if (C j || decide (j = d)) then (db0.node j).map fun n => { n with kind := .generatedDir } else db0.node j := by
          intro j
          rw [toGenerated_node]
          by_cases hjd : j = d
          · subst hjd
            rw [if_pos rfl, h.node, hCd]
            simp
          · rw [if_neg hjd, h.node, decide_eq_false hjd, Bool.or_false]
        refine ⟨hnew, h.top, fun j hj => ?_, fun a b => ?_, h.sticky, h.create, h.modify, fun j hj => ?_, fun j hj1 hj2 hj3 => ?_, fun j hj => ?_, fun j c m hj hcm hk => ?_, fun j => ?_, fun g => ?_, fun j => ?_⟩
        · rcases Bool.or_eq_true _ _ |>.mp hj with e | e
          · exact h.becomes j e
          · rw [of_decide_eq_true e]; exact hbec
        · show (s.db.normal a b && !decide (a = d) && !decide (b = d)) = _
          rw [h.normal]
          cases db0.normal a b <;> cases C a <;> cases C b <;> cases decide (a = d) <;> cases decide (b = d) <;> rfl
        · simp only [Bool.or_eq_true, Bool.and_eq_true, decide_eq_true_eq] at hj
          rcases hj with ⟨hj, _⟩ | rfl
          · obtain ⟨e1, e2⟩ := h.todo j hj
            refine ⟨e1, ?_⟩
            rcases e2 with e2 | ⟨c, m, e2, e3⟩
            · exact .inl e2
            · exact .inr ⟨c, m, e2, by simp [e3]⟩
          · exact ⟨isKind_iff.2 ⟨p, hp, hpk⟩, .inr ⟨d, n, ⟨hn0, rfl⟩, by simp⟩⟩
        · dsimp only at hj2 ⊢
          simp only [Bool.or_eq_false_iff, Bool.and_eq_false_iff, Bool.not_eq_false', decide_eq_false_iff_not, decide_eq_true_eq] at hj1 hj2
          have hjd : s.todo j = false := by
            rcases hj2.1 with e | e
            · exact e
            · exact absurd e hj1.2
          have hseen : isGeneratedDir s.db j = false := by
            refine h.seen j hj1.1 hjd ?_
            rcases hj3 with e | ⟨c, m, e1, e2⟩
            · exact .inl e
            · rcases Bool.or_eq_true _ _ |>.mp e2 with e2 | e2
              · exact .inr ⟨c, m, e1, e2⟩
              · have e3 := of_decide_eq_true e2
                rw [e3] at e1
                have e4 := e1.1
                rw [hn0] at e4
                cases e4
                exact absurd e1.2.symm hj2.2
          have hb1 := h.bounded hb
          have hb2 : Bounded (toGenerated s.db d) := by
            intro i hi
            rw [toGenerated_node, hb1 i hi]
            split <;> rfl
          have hsame : ∀ c m, Child (toGenerated s.db d) j c m ↔ Child s.db j c m := by
            intro c m
            unfold Child
            rw [toGenerated_node]
            by_cases hcd : c = d
            · rw [if_pos hcd, hcd, hn]
              constructor
              · rintro ⟨e1, e2⟩
                simp only [Option.map_some, Option.some.injEq] at e1
                rw [← e1] at e2
                exact absurd e2.symm hj2.2
              · rintro ⟨e1, e2⟩
                cases e1
                exact absurd e2.symm hj2.2
            · rw [if_neg hcd]
          rw [Bool.eq_false_iff, ne_eq, isGeneratedDir_iff hb1] at hseen
          rw [Bool.eq_false_iff, ne_eq, isGeneratedDir_iff hb2]
          simp only [hsame]
          exact hseen
        · simp only [Bool.or_eq_true, Bool.and_eq_true, decide_eq_true_eq, Bool.not_eq_true', decide_eq_false_iff_not] at hj
          rw [Bool.or_eq_false_iff]
          rcases hj with ⟨e1, e2⟩ | rfl
          · exact ⟨h.fresh j e1, decide_eq_false e2⟩
          · exact ⟨hCp, decide_eq_false hne⟩
        · rcases Bool.or_eq_true _ _ |>.mp hj with e | e
          · rw [h.done j c m e hcm hk]; rfl
          · rw [of_decide_eq_true e] at hcm
            rw [(t1 c m hcm).2 hk]; rfl
        · dsimp only
          rw [Bool.or_eq_true, h.ignores, decide_eq_true_eq]
          constructor
          · rintro (⟨c, m, e1, e2⟩ | rfl)
            · exact ⟨c, m, e1, by simp [e2]⟩
            · exact ⟨d, n, ⟨hn0, rfl⟩, by simp⟩
          · rintro ⟨c, m, e1, e2⟩
            rcases Bool.or_eq_true _ _ |>.mp e2 with e2 | e2
            · exact .inl ⟨c, m, e1, e2⟩
            · have e3 := of_decide_eq_true e2
              rw [e3] at e1
              have e4 := e1.1
              rw [hn0] at e4
              cases e4
              exact .inr e1.2.symm
        · have hmi : madeIgnore s.db d = madeIgnore db0 d := by
            have hsel : s.db.select d gitignore = db0.select d gitignore := by
              unfold Db.select
              rw [h.top]
              congr 1
              funext i
              rw [h.node]
              cases C i <;> cases db0.node i <;> rfl
            unfold madeIgnore
            rw [hsel]
            cases hs : db0.select d gitignore with
            | none => rfl
            | some g =>
              dsimp only
              have : s.db.isKind .generated g = db0.isKind .generated g := by
                cases hC : C g with
                | false => exact isKind_congr (by rw [h.node, hC]; rfl) _
                | true =>
                  obtain ⟨m, e1, e2⟩ := isKind_iff.1 (h.was_dir hC)
                  simp only [Db.isKind, h.node, hC, if_true, e1, Option.map_some, e2]
                  rfl
              rw [this]
          dsimp only
          rw [Bool.or_eq_true, h.deletes, decide_eq_true_eq, hmi]
          constructor
          · rintro (⟨j, e1, e2⟩ | e)
            · exact ⟨j, by simp [e1], e2⟩
            · exact ⟨d, by simp, e⟩
          · rintro ⟨j, e1, e2⟩
            rcases Bool.or_eq_true _ _ |>.mp e1 with e1 | e1
            · exact .inl ⟨j, e1, e2⟩
            · rw [of_decide_eq_true e1] at e2
              exact .inr e2
        · show (s.db.ghosts j || (s.db.normal j d && s.db.ghosty j)) = true ↔ _
          have hgy : C j = false → s.db.ghosty j = db0.ghosty j := by
            intro hC
            have : s.db.node j = db0.node j := by rw [h.node, hC]; rfl
            unfold Db.ghosty
            rw [isKind_congr this, isKind_congr this, isKind_congr this]
          have hnC : db0.ghosty j = true → C j = false := by
            intro hg
            cases hC : C j with
            | false => rfl
            | true =>
              obtain ⟨m, e1, e2⟩ := isKind_iff.1 (h.was_dir hC)
              simp [Db.ghosty, Db.isKind, e1, e2] at hg
          rw [Bool.or_eq_true, Bool.and_eq_true, h.ghosts, h.normal]
          constructor
          · rintro ((e | ⟨e1, x, e2, e3⟩) | ⟨e1, e2⟩)
            · exact .inl e
            · exact .inr ⟨e1, x, by simp [e2], e3⟩
            · simp only [Bool.and_eq_true, Bool.not_eq_true'] at e1
              rw [hgy e1.1.2] at e2
              exact .inr ⟨e2, d, by simp, e1.1.1⟩
          · rintro (e | ⟨e1, x, e2, e3⟩)
            · exact .inl (.inl e)
            · rcases Bool.or_eq_true _ _ |>.mp e2 with e2 | e2
              · exact .inl (.inr ⟨e1, x, e2, e3⟩)
              · have := of_decide_eq_true e2
                subst this
                refine .inr ⟨?_, by rw [hgy (hnC e1)]; exact e1⟩
                rw [e3, hnC e1, hCd]; rfl
      · unfold measure
        dsimp only
        have e1 : count (fun j => s.todo j && !decide (j = d)) s.db.top < count s.todo s.db.top :=
          count_lt hdlt (fun i hi => by simp only [Bool.and_eq_true] at hi; exact hi.1) htd (by simp)
        have e2 : count (fun j => (s.todo j && !decide (j = d)) || decide (j = n.dir)) s.db.top ≤ count (fun j => s.todo j && !decide (j = d)) s.db.top + 1 := count_add
        have e3 : count (fun j => (toGenerated s.db d).isKind .dir j) s.db.top < count (fun j => s.db.isKind .dir j) s.db.top := by
          refine count_lt (d := d) hdlt (fun i hi => ?_) ?_ ?_
          · obtain ⟨m, g1, g2⟩ := isKind_iff.1 hi
            rw [toGenerated_node] at g1
            by_cases hid : i = d
            · rw [hid]; exact isKind_iff.2 ⟨n, hn, hnk⟩
            · rw [if_neg hid] at g1
              exact isKind_iff.2 ⟨m, g1, g2⟩
          · exact isKind_iff.2 ⟨n, hn, hnk⟩
          · simp only [Db.isKind, toGenerated_node, if_true, hn, Option.map_some]
            rfl
        have e4 : (toGenerated s.db d).top = s.db.top := rfl
        rw [e4]
        omega

theorem inv_init (hp : ∀ j, parsed j = true → db0.isKind .dir j = true) : Inv db0 parsed (fun _ => false) ⟨db0, parsed, fun _ => false, fun _ => false⟩ where
  node := fun j => rfl
  top := rfl
  becomes := fun _ h => by cases h
  normal := fun a b => by simp
  sticky := rfl
  create := rfl
  modify := rfl
  todo := fun j h => ⟨hp j h, .inl h⟩
  seen := fun j _ h h' => by
    rcases h' with e | ⟨_, _, _, e⟩
    · dsimp only at h; rw [h] at e; cases e
    · cases e
  fresh := fun _ _ => rfl
  done := fun _ _ _ h => by cases h
  ignores := fun j => ⟨fun h => (by cases h), fun ⟨_, _, _, h⟩ => (by cases h)⟩
  deletes := fun j => ⟨fun h => (by cases h), fun ⟨_, h, _⟩ => (by cases h)⟩
  ghosts := fun j => ⟨fun h => .inl h, fun h => by
    rcases h with e | ⟨_, _, e, _⟩
    · exact e
    · cases e⟩

theorem loop_inv {r : Nat → Nat} (ht : Tree r db0) (hc : Clean db0) (htop : ¬ Becomes db0 parsed 1) : ∀ (k : Nat) (C : Nat → Bool) (s : Conv), Inv db0 parsed C s → measure s ≤ k →
    ∃ C' s', loop (k + 1) s = some (.done s') ∧ Inv db0 parsed C' s' ∧ ∀ j, j < s'.db.top → s'.todo j = false := by
  intro k
  induction k with
  | zero =>
    intro C s h hk
    rcases round_inv ht hc htop h with ⟨h1, h2⟩ | ⟨C', s', h1, h2, h3⟩
    · exact ⟨C, s, by unfold loop; rw [h1], h, h2⟩
    · omega
  | succ k ih =>
    intro C s h hk
    rcases round_inv ht hc htop h with ⟨h1, h2⟩ | ⟨C', s', h1, h2, h3⟩
    · exact ⟨C, s, by unfold loop; rw [h1], h, h2⟩
    · obtain ⟨C2, s2, g1, g2, g3⟩ := ih C' s' h2 (by omega)
      exact ⟨C2, s2, by unfold loop; rw [h1]; exact g1, g2, g3⟩

theorem loop_mono : ∀ (k l : Nat) (s : Conv) (x : Round), loop k s = some x → loop (k + l) s = some x := by
  intro k
  induction k with
  | zero => intro _ _ _ h; cases h
  | succ k ih =>
    intro l s x h
    rw [Nat.add_right_comm]
    unfold loop at h ⊢
    cases hr : round s with
    | next s' => rw [hr] at h; exact ih l s' x h
    | done s' => rw [hr] at h; exact h
    | crash => rw [hr] at h; exact h

/-- At the end everything that turns into a generated directory has done so. -/
theorem Inv.complete {C : Nat → Bool} {s : Conv} (hb : Bounded db0) (h : Inv db0 parsed C s) (hd : ∀ j, j < s.db.top → s.todo j = false) {j : Nat} (hj : Becomes db0 parsed j) : C j = true := by
  induction hj with
  | @mk d n h1 h2 h3 h4 h5 h6 ih =>
    cases hC : C d with
    | true => rfl
    | false =>
      exfalso
      have hlt : d < s.db.top := by rw [h.top]; exact lt_top hb h1
      have hs := h.seen d hC (hd d hlt) (by
        rcases h3 with e | ⟨c, m, e1, e2⟩
        · exact .inl e
        · exact .inr ⟨c, m, e1, ih c m e1 e2⟩)
      have : isGeneratedDir s.db d = true := by
        rw [h.test hb]
        refine ⟨fun c m hcm => ⟨h4 c m hcm, ih c m hcm⟩, ?_⟩
        obtain ⟨c, m, e1, e2, e3⟩ := h6
        refine ⟨c, m, e1, e2, ?_⟩
        rcases e3 with e3 | e3 | e3
        · exact .inl e3
        · exact .inr (.inl e3)
        · exact .inr (.inr (ih c m e1 e3))
      rw [hs] at this
      cases this

end Tup.GenDir
