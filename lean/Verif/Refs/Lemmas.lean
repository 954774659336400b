import Verif.Refs.Model

/-! The invariant of the reference counts. -/

namespace Tup.Refs

/-- How many sets and lists point to an entry (a list may do so several times). -/
def pointers (l : List (Key × Nat)) (i : Nat) : Nat := l.countP fun p => decide (p.2 = i)

structure Inv (s : St) : Prop where
  refs : ∀ i r, s.mem i = some r → r = (pointers s.held i : Int)
  alive : ∀ p ∈ s.held, s.mem p.2 ≠ none
  root : ∀ i ∈ s.root, s.mem i ≠ none
  nodup : s.root.Nodup
  parent : ∀ i ∈ s.root, ∀ p, s.parent i = some p → p ∈ s.root
  own : ∀ i x, (.sticky i, x) ∈ s.held ∨ (.group i, x) ∈ s.held → s.mem i ≠ none
  uniq : ∀ k i, (∀ n, k ≠ .list n) → s.held.count (k, i) ≤ 1
  acyclic : ∃ depth : Nat → Nat, ∀ i ∈ s.root, ∀ p, s.parent i = some p → depth p < depth i

theorem inv_empty : Inv empty := by
  constructor <;> simp [empty]

theorem ref_some {s s' : St} {i : Nat} {d : Int} (h : ref s i d = some s') :
    ∃ r, s.mem i = some r ∧ s' = { s with mem := fun k => if k = i then some (r + d) else s.mem k } := by
  unfold ref at h
  cases hm : s.mem i with
  | none => rw [hm] at h; cases h
  | some r => rw [hm] at h; cases h; exact ⟨r, rfl, rfl⟩

theorem ref_live {s : St} {i : Nat} {d : Int} (h : s.mem i ≠ none) : ∃ s', ref s i d = some s' := by
  unfold ref
  cases hm : s.mem i with
  | none => exact absurd hm h
  | some r => exact ⟨_, rfl⟩

theorem release_spec (l : List (Key × Nat)) (s : St) (h : ∀ p ∈ l, s.mem p.2 ≠ none) :
    release l s = some { s with mem := fun i => (s.mem i).map fun r => r - (pointers l i : Int) } := by
  induction l generalizing s with
  | nil =>
    simp only [release, pointers, List.countP_nil]
    congr 1
    cases s; congr
    funext i
    simp
  | cons p l ih =>
    obtain ⟨s', h'⟩ := ref_live (d := -1) (h p (by simp))
    obtain ⟨r, h1, h2⟩ := ref_some h'
    rw [release, h', Option.bind_some, ih]
    · subst h2
      congr 1
      congr 1
      funext i
      simp only [pointers, List.countP_cons]
      by_cases e : i = p.2
      · subst e
        simp [h1]; omega
      · have : ¬ p.2 = i := fun h => e h.symm
        simp [e, this]
    · subst h2
      intro q hq
      have := h q (List.mem_cons_of_mem _ hq)
      by_cases e : q.2 = p.2 <;> simp [e]
      exact this

theorem pointers_split (l : List (Key × Nat)) (k : Key) (i : Nat) :
    pointers l i = pointers (l.filter fun p => decide (p.1 = k)) i + pointers (l.filter fun p => decide (p.1 ≠ k)) i := by
  unfold pointers
  induction l with
  | nil => rfl
  | cons p l ih =>
    by_cases e : p.1 = k
    · simp only [e, decide_true, List.filter_cons_of_pos, List.countP_cons, ne_eq, not_true, decide_false, Bool.false_eq_true, not_false_eq_true, List.filter_cons_of_neg]
      simp only [ne_eq] at ih
      omega
    · simp only [e, decide_false, Bool.false_eq_true, not_false_eq_true, List.filter_cons_of_neg, ne_eq, decide_true, List.filter_cons_of_pos, List.countP_cons]
      simp only [ne_eq] at ih
      omega

theorem freeAll_spec {s : St} (h : Inv s) (k : Key) :
    ∃ s', freeAll s k = some s' ∧ Inv s' ∧ s'.root = s.root ∧ s'.parent = s.parent ∧ s'.held = s.held.filter (fun p => decide (p.1 ≠ k)) ∧
      ∀ i, s'.mem i = none ↔ s.mem i = none := by
  unfold freeAll
  rw [release_spec _ _ (fun p hp => h.alive p (List.mem_filter.1 hp).1)]
  refine ⟨_, rfl, ?_, rfl, rfl, rfl, fun i => by simp⟩
  refine { refs := ?_, alive := ?_, root := ?_, nodup := h.nodup, parent := h.parent, own := ?_, uniq := ?_, acyclic := h.acyclic }
  · intro i r hr
    simp only [Option.map_eq_some_iff] at hr
    obtain ⟨a, ha, rfl⟩ := hr
    rw [h.refs i a ha, pointers_split s.held k i]
    simp only [ne_eq]
    omega
  · intro p hp
    have := h.alive p (List.mem_filter.1 hp).1
    simpa using this
  · intro i hi
    have := h.root i hi
    simpa using this
  · intro i x hx
    have := h.own i x (hx.imp (fun h => (List.mem_filter.1 h).1) (fun h => (List.mem_filter.1 h).1))
    simpa using this
  · intro k' i hk
    exact Nat.le_trans (List.filter_sublist.count_le _) (h.uniq k' i hk)

theorem pointers_erase {l : List (Key × Nat)} {k : Key} {j : Nat} (h : (k, j) ∈ l) (i : Nat) :
    pointers l i = pointers (l.erase (k, j)) i + (if j = i then 1 else 0) := by
  have hp : l.Perm ((k, j) :: l.erase (k, j)) := List.perm_cons_erase h
  unfold pointers
  rw [hp.countP_eq, List.countP_cons]
  simp

theorem remove_spec {s : St} (h : Inv s) (k : Key) (i : Nat) :
    ∃ s', remove s k i = some s' ∧ Inv s' ∧ s'.root = s.root ∧ s'.parent = s.parent ∧ s'.held = s.held.erase (k, i) ∧
      ∀ i, s'.mem i = none ↔ s.mem i = none := by
  unfold remove
  split
  · rename_i hm
    obtain ⟨s1, h'⟩ := ref_live (d := -1) (h.alive _ hm)
    obtain ⟨r, h1, h2⟩ := ref_some h'
    rw [h']
    subst h2
    have hmem : ∀ j, (if j = i then some (r + -1) else s.mem j) = none ↔ s.mem j = none := by
      intro j
      by_cases e : j = i
      · subst e; simp [h1]
      · simp [e]
    refine ⟨_, rfl, ?_, rfl, rfl, rfl, hmem⟩
    refine { refs := ?_, alive := ?_, root := ?_, nodup := h.nodup, parent := h.parent, own := ?_, uniq := ?_, acyclic := h.acyclic }
    · intro j q hq
      have hp := pointers_erase hm j
      by_cases e : j = i
      · subst e
        have hq : (if j = j then some (r + -1) else s.mem j) = some q := hq
        simp at hq
        have := h.refs j r h1
        simp at hp
        show q = (pointers (s.held.erase (k, j)) j : Int)
        omega
      · have hq : (if j = i then some (r + -1) else s.mem j) = some q := hq
        rw [if_neg e] at hq
        rw [h.refs j q hq]
        have : ¬ i = j := fun h => e h.symm
        simp [this] at hp
        show ((pointers s.held j : Nat) : Int) = (pointers (s.held.erase (k, i)) j : Int)
        omega
    · intro p hp
      exact fun e => h.alive p (List.mem_of_mem_erase hp) ((hmem _).1 e)
    · intro j hj
      exact fun e => h.root j hj ((hmem _).1 e)
    · intro j x hx
      exact fun e => h.own j x (hx.imp List.mem_of_mem_erase List.mem_of_mem_erase) ((hmem _).1 e)
    · intro k' j hk
      exact Nat.le_trans (List.erase_sublist.count_le _) (h.uniq k' j hk)
  · rename_i hm
    exact ⟨s, rfl, h, rfl, rfl, (List.erase_of_not_mem hm).symm, fun _ => Iff.rfl⟩

theorem pointers_zero {l : List (Key × Nat)} {i : Nat} : pointers l i = 0 ↔ ∀ k, (k, i) ∉ l := by
  unfold pointers
  rw [List.countP_eq_zero]
  constructor
  · intro h k hk
    have := h _ hk
    simp at this
  · intro h p hp e
    have e : p.2 = i := of_decide_eq_true e
    exact h p.1 (e ▸ hp)

/-- What `rm_entry` does: nothing, or it takes out the entry, and its memory is given back when nothing else points to it. -/
theorem rmEntry_spec {s : St} (h : Inv s) (i : Nat) (safe : Bool) :
    (i ∉ s.root ∧ rmEntry s i safe = .ok s) ∨
    (i ∈ s.root ∧ (∃ c ∈ s.root, s.parent c = some i) ∧ rmEntry s i safe = if safe then .ok s else .err s) ∨
    (i ∈ s.root ∧ (∀ c ∈ s.root, s.parent c ≠ some i) ∧ ∃ s', Inv s' ∧ s'.root = s.root.erase i ∧ s'.parent = s.parent ∧
      (∀ k j, (k, j) ∈ s'.held ↔ (k, j) ∈ s.held ∧ (k, j) ≠ (.ghost, i) ∧ k ≠ .sticky i ∧ k ≠ .group i) ∧
      (∀ j, j ≠ i → (s'.mem j = none ↔ s.mem j = none)) ∧
      (((∃ k, (k, i) ∈ s'.held) ∧ s'.mem i ≠ none ∧ rmEntry s i safe = .err s') ∨
       ((∀ k, (k, i) ∉ s'.held) ∧ s'.mem i = none ∧ rmEntry s i safe = .ok s'))) := by
  by_cases hi : i ∈ s.root
  case neg => left; exact ⟨hi, by unfold rmEntry; rw [if_pos hi]⟩
  right
  by_cases hc : ∃ c ∈ s.root, s.parent c = some i
  · left
    refine ⟨hi, hc, ?_⟩
    have : (s.root.any fun c => decide (s.parent c = some i)) = true := by
      simpa [List.any_eq_true] using hc
    unfold rmEntry
    rw [if_neg (not_not_intro hi), if_pos this]
  right
  have hc' : ∀ c ∈ s.root, s.parent c ≠ some i := fun c h1 h2 => hc ⟨c, h1, h2⟩
  refine ⟨hi, hc', ?_⟩
  have hany : ¬ (s.root.any fun c => decide (s.parent c = some i)) = true := by
    simpa [List.any_eq_true] using hc'
  obtain ⟨s1, e1, i1, r1, p1, h1, m1⟩ := remove_spec h .ghost i
  have i2 : Inv { s1 with root := s1.root.erase i } := by
    refine { refs := i1.refs, alive := i1.alive, root := fun j hj => i1.root j (List.mem_of_mem_erase hj), nodup := i1.nodup.erase i, parent := ?_, own := i1.own, uniq := i1.uniq, acyclic := i1.acyclic.imp fun _ hd j hj => hd j (List.mem_of_mem_erase hj) }
    intro j hj p hp
    have hj' : j ∈ s.root := r1 ▸ List.mem_of_mem_erase hj
    have hp' : s.parent j = some p := p1 ▸ hp
    have := i1.parent j (List.mem_of_mem_erase hj) p hp
    exact (List.mem_erase_of_ne (fun e => hc' j hj' (by rw [hp', e]))).2 this
  obtain ⟨s3, e3, i3, r3, p3, h3, m3⟩ := freeAll_spec i2 (.sticky i)
  obtain ⟨s4, e4, i4, r4, p4, h4, m4⟩ := freeAll_spec i3 (.group i)
  have m : ∀ j, s4.mem j = none ↔ s.mem j = none := fun j => (m4 j).trans ((m3 j).trans (m1 j))
  have hh : ∀ k j, (k, j) ∈ s4.held ↔ (k, j) ∈ s.held ∧ (k, j) ≠ (.ghost, i) ∧ k ≠ .sticky i ∧ k ≠ .group i := by
    intro k j
    have hg : (k, j) ∈ s.held.erase (.ghost, i) ↔ (k, j) ∈ s.held ∧ (k, j) ≠ (.ghost, i) := by
      by_cases e : (k, j) = (Key.ghost, i)
      · have : (Key.ghost, i) ∉ s.held.erase (Key.ghost, i) := by
          intro hin
          have a := h.uniq .ghost i (by intro n; simp)
          have b := List.count_erase_self (a := (Key.ghost, i)) (l := s.held)
          have c := List.count_pos_iff.2 hin
          omega
        constructor
        · intro hin; exact absurd (e ▸ hin) this
        · intro hin; exact absurd e hin.2
      · rw [List.mem_erase_of_ne e]
        exact ⟨fun x => ⟨x, e⟩, fun x => x.1⟩
    rw [h4, h3]
    simp only [List.mem_filter, h1, hg, decide_eq_true_eq]
    exact ⟨fun ⟨⟨⟨a, b⟩, c⟩, d⟩ => ⟨a, b, c, d⟩, fun ⟨a, b, c, d⟩ => ⟨⟨⟨a, b⟩, c⟩, d⟩⟩
  have hroot : s4.root = s.root.erase i := by rw [r4, r3]; show s1.root.erase i = _; rw [r1]
  have hpar : s4.parent = s.parent := by rw [p4, p3]; exact p1
  have hlive : s4.mem i ≠ none := fun e => h.root i hi ((m i).1 e)
  have hun : ∀ r, s4.mem i = some r → rmEntry s i safe = if r ≠ 0 then .err s4 else .ok { s4 with mem := fun k => if k = i then none else s4.mem k } := by
    intro r hr
    unfold rmEntry
    rw [if_neg (not_not_intro hi), if_neg hany, e1]
    simp only
    rw [e3, Option.bind_some, e4]
    simp only [hr]
  cases hr : s4.mem i with
  | none => exact absurd hr hlive
  | some r =>
    have hr0 := i4.refs i r hr
    by_cases hz : r = 0
    · have hno : ∀ k, (k, i) ∉ s4.held := pointers_zero.1 (by omega)
      have hni : i ∉ s4.root := by rw [hroot]; exact fun hin => (List.Nodup.mem_erase_iff h.nodup).1 hin |>.1 rfl
      refine ⟨{ s4 with mem := fun k => if k = i then none else s4.mem k }, ?_, hroot, hpar, hh, ?_, Or.inr ⟨hno, by simp, ?_⟩⟩
      · refine { refs := ?_, alive := ?_, root := ?_, nodup := i4.nodup, parent := i4.parent, own := ?_, uniq := i4.uniq, acyclic := i4.acyclic }
        · intro j q hq
          by_cases e : j = i
          · simp [e] at hq
          · simp only [e, if_false] at hq
            exact i4.refs j q hq
        · intro p hp
          have : p.2 ≠ i := fun e => hno p.1 (e ▸ hp)
          simp only [this, if_false]
          exact i4.alive p hp
        · intro j hj
          have : j ≠ i := fun e => hni (e ▸ hj)
          simp only [this, if_false]
          exact i4.root j hj
        · intro j x hx
          have : j ≠ i := by
            rintro rfl
            rcases hx with hx | hx
            · exact ((hh _ _).1 hx).2.2.1 rfl
            · exact ((hh _ _).1 hx).2.2.2 rfl
          simp only [this, if_false]
          exact i4.own j x hx
      · intro j hj
        simp only [hj, if_false]
        exact m j
      · rw [hun r hr, if_neg (not_not_intro hz)]
    · have hyes : ∃ k, (k, i) ∈ s4.held := by
        apply Classical.byContradiction
        intro hne
        have : pointers s4.held i = 0 := pointers_zero.2 (fun k hk => hne ⟨k, hk⟩)
        omega
      refine ⟨s4, i4, hroot, hpar, hh, fun j _ => m j, Or.inl ⟨hyes, by rw [hr]; simp, ?_⟩⟩
      rw [hun r hr, if_pos hz]

theorem pointers_cons (l : List (Key × Nat)) (k : Key) (j i : Nat) : pointers ((k, j) :: l) i = pointers l i + if j = i then 1 else 0 := by
  simp [pointers, List.countP_cons]

/-- A pointer more. -/
theorem held_inv {s s' : St} (h : Inv s) {k : Key} {i : Nat} {l : List (Key × Nat)} (hr : ref s i 1 = some s') (hl : l.Perm ((k, i) :: s.held))
    (hk : there s k = true) (hu : (∀ n, k ≠ .list n) → (k, i) ∉ s.held) : Inv { s' with held := l } := by
  obtain ⟨r, h1, rfl⟩ := ref_some hr
  have hmem : ∀ j, (if j = i then some (r + 1) else s.mem j) = none ↔ s.mem j = none := by
    intro j
    by_cases e : j = i
    · subst e; simp [h1]
    · simp [e]
  have hmm : ∀ p, p ∈ l ↔ p = (k, i) ∨ p ∈ s.held := fun p => by rw [hl.mem_iff, List.mem_cons]
  refine { refs := ?_, alive := ?_, root := ?_, nodup := h.nodup, parent := h.parent, own := ?_, uniq := ?_, acyclic := h.acyclic }
  · intro j q hq
    have hq : (if j = i then some (r + 1) else s.mem j) = some q := hq
    show q = (pointers l j : Int)
    have : pointers l j = pointers ((k, i) :: s.held) j := hl.countP_eq _
    rw [this, pointers_cons]
    by_cases e : j = i
    · subst e
      simp at hq
      have := h.refs j r h1
      simp
      omega
    · rw [if_neg e] at hq
      have : ¬ i = j := fun h => e h.symm
      simp [this]
      exact h.refs j q hq
  · intro p hp e
    have e := (hmem _).1 e
    rcases (hmm p).1 hp with rfl | hp
    · rw [h1] at e; cases e
    · exact h.alive p hp e
  · intro j hj e
    exact h.root j hj ((hmem _).1 e)
  · intro j x hx e
    have e := (hmem _).1 e
    rcases hx with hx | hx
    · rcases (hmm _).1 hx with hx | hx
      · cases hx
        simp [there, e] at hk
      · exact h.own j x (Or.inl hx) e
    · rcases (hmm _).1 hx with hx | hx
      · cases hx
        simp [there, e] at hk
      · exact h.own j x (Or.inr hx) e
  · intro k' j hk'
    show l.count (k', j) ≤ 1
    rw [hl.count_eq, List.count_cons]
    have := h.uniq k' j hk'
    split
    · rename_i e
      have e : (k, i) = (k', j) := by simpa using e
      cases e
      have := List.count_eq_zero.2 (hu hk')
      omega
    · omega

theorem create_spec {s : St} (h : Inv s) (i : Nat) (p : Option Nat) :
    ∃ s', Inv s' ∧ s'.held = s.held ∧ (∀ j, j ≠ i → s'.mem j = s.mem j) ∧ (s.mem i ≠ none → s'.mem i = s.mem i) ∧
      (create s i p = .ok s' ∧ s'.mem i = some 0 ∧ s'.parent i = p ∧ s'.root = i :: s.root ∨ create s i p = .err s') := by
  unfold create
  split
  · exact ⟨s, h, rfl, fun _ _ => rfl, fun _ => rfl, Or.inr rfl⟩
  rename_i hn
  have hi : i ∉ s.root := fun e => hn (Or.inl e)
  have hm : s.mem i = none := Classical.byContradiction fun e => hn (Or.inr e)
  have key : ∀ q : Option Nat, (∀ p, q = some p → p ∈ s.root) → Inv { s with mem := fun k => if k = i then some 0 else s.mem k, parent := fun k => if k = i then q else s.parent k, root := i :: s.root } := by
    intro q hq
    have hal : ∀ j, s.mem j ≠ none → (if j = i then some 0 else s.mem j) ≠ none := by
      intro j hj
      by_cases e : j = i <;> simp [e]
      exact hj
    refine { refs := ?_, alive := fun p hp => hal _ (h.alive p hp), root := ?_, nodup := List.nodup_cons.2 ⟨hi, h.nodup⟩, parent := ?_, own := fun j x hx => hal _ (h.own j x hx), uniq := h.uniq, acyclic := ?_ }
    · intro j r hr
      have hr : (if j = i then some 0 else s.mem j) = some r := hr
      show r = (pointers s.held j : Int)
      by_cases e : j = i
      · subst e
        have : pointers s.held j = 0 := pointers_zero.2 (fun k hk => h.alive _ hk hm)
        simp at hr
        omega
      · rw [if_neg e] at hr
        exact h.refs j r hr
    · intro j hj
      by_cases e : j = i
      · simp [e]
      · exact hal j (h.root j ((List.mem_cons.1 hj).resolve_left e))
    · intro j hj p hp
      have hp : (if j = i then q else s.parent j) = some p := hp
      by_cases e : j = i
      · rw [if_pos e] at hp
        exact List.mem_cons_of_mem _ (hq p hp)
      · rw [if_neg e] at hp
        exact List.mem_cons_of_mem _ (h.parent j ((List.mem_cons.1 hj).resolve_left e) p hp)
    · obtain ⟨d, hd⟩ := h.acyclic
      refine ⟨fun j => if j = i then q.elim 0 (fun p => d p + 1) else d j, ?_⟩
      intro j hj p hp
      have hp : (if j = i then q else s.parent j) = some p := hp
      by_cases e : j = i
      · rw [if_pos e] at hp
        have : p ≠ i := fun e' => hi (e' ▸ hq p hp)
        simp only [e, this, if_false, if_true, hp, Option.elim_some]
        omega
      · rw [if_neg e] at hp
        have hj' := (List.mem_cons.1 hj).resolve_left e
        have : p ≠ i := fun e' => hi (e' ▸ h.parent j hj' p hp)
        simp only [e, this, if_false]
        exact hd j hj' p hp
  cases p with
  | none => exact ⟨_, key none (by simp), rfl, fun j hj => by simp [hj], fun e => absurd hm e, Or.inl ⟨rfl, by simp, by simp, rfl⟩⟩
  | some p =>
    by_cases hp : p ∈ s.root
    · exact ⟨_, key (some p) (by intro _ e; cases e; exact hp), rfl, fun j hj => by simp [hj], fun e => absurd hm e, Or.inl ⟨by simp only [hp, if_true], by simp, by simp, rfl⟩⟩
    · exact ⟨_, key none (by simp), rfl, fun j hj => by simp [hj], fun e => absurd hm e, Or.inr (by simp only [hp, if_false])⟩

theorem dropSets_spec (l : List Nat) {s : St} (h : Inv s) :
    ∃ s', dropSets l s = some s' ∧ Inv s' ∧ s'.root = s.root ∧ s'.parent = s.parent ∧ (∀ j, s'.mem j = none ↔ s.mem j = none) ∧
      ∀ k j, (k, j) ∈ s'.held ↔ (k, j) ∈ s.held ∧ ∀ i ∈ l, k ≠ .sticky i ∧ k ≠ .group i := by
  induction l generalizing s with
  | nil => exact ⟨s, rfl, h, rfl, rfl, fun _ => Iff.rfl, fun k j => by simp⟩
  | cons i l ih =>
    obtain ⟨s1, e1, i1, r1, p1, h1, m1⟩ := freeAll_spec h (.sticky i)
    obtain ⟨s2, e2, i2, r2, p2, h2, m2⟩ := freeAll_spec i1 (.group i)
    obtain ⟨s3, e3, i3, r3, p3, m3, h3⟩ := ih i2
    refine ⟨s3, ?_, i3, by rw [r3, r2, r1], by rw [p3, p2, p1], fun j => (m3 j).trans ((m2 j).trans (m1 j)), ?_⟩
    · rw [dropSets, e1, Option.bind_some, e2, Option.bind_some, e3]
    · intro k j
      rw [h3, h2, h1]
      simp only [List.mem_filter, decide_eq_true_eq, List.mem_cons]
      constructor
      · rintro ⟨⟨⟨a, b⟩, c⟩, d⟩
        refine ⟨a, ?_⟩
        rintro x (rfl | hx)
        · exact ⟨b, c⟩
        · exact d x hx
      · rintro ⟨a, b⟩
        exact ⟨⟨⟨a, (b i (Or.inl rfl)).1⟩, (b i (Or.inl rfl)).2⟩, fun x hx => b x (Or.inr hx)⟩

/-- What a pass does. -/
theorem pass_spec (l : List Nat) {s : St} (h : Inv s) :
    ∃ s', (pass l s = .ok s' ∨ pass l s = .err s') ∧ Inv s' ∧ List.Sublist s'.root s.root ∧ s'.parent = s.parent ∧
      (∀ k j, (k, j) ∈ s'.held → (k, j) ∈ s.held) ∧
      (∀ k j, (k, j) ∈ s.held → k ≠ .ghost → (∀ i ∈ s.root, k ≠ .sticky i ∧ k ≠ .group i) → (k, j) ∈ s'.held) ∧
      (∀ j, j ∉ s.root → (s'.mem j = none ↔ s.mem j = none)) ∧
      (pass l s = .ok s' → ∀ j ∈ s.root, j ∉ s'.root → s'.mem j = none) ∧
      (pass l s = .ok s' → ∀ j ∈ l, j ∈ s.root → (∀ c ∈ s.root, s.parent c ≠ some j) → j ∉ s'.root) ∧
      ((∀ k j, (k, j) ∈ s.held → j ∈ s.root → k = .ghost) → pass l s = .ok s') := by
  induction l generalizing s with
  | nil =>
    exact ⟨s, Or.inl rfl, h, List.Sublist.refl _, rfl, fun _ _ x => x, fun _ _ x _ _ => x, fun _ _ => Iff.rfl, fun _ j a b => absurd a b, fun _ j a => by simp at a, fun _ => rfl⟩
  | cons i l ih =>
    rcases rmEntry_spec h i true with ⟨hi, e⟩ | ⟨hi, hc, e⟩ | ⟨hi, hc, s1, i1, r1, p1, h1, m1, e⟩
    · obtain ⟨s', a1, a2, a3, a4, a5, a6, a7, a8, a9, a10⟩ := ih h
      have ep : pass (i :: l) s = pass l s := by rw [pass, e]
      refine ⟨s', by rw [ep]; exact a1, a2, a3, a4, a5, a6, a7, by rw [ep]; exact a8, ?_, by rw [ep]; exact a10⟩
      rw [ep]
      intro ok j hj hjr hl
      rcases List.mem_cons.1 hj with rfl | hj
      · exact absurd hjr hi
      · exact a9 ok j hj hjr hl
    · obtain ⟨s', a1, a2, a3, a4, a5, a6, a7, a8, a9, a10⟩ := ih h
      have ep : pass (i :: l) s = pass l s := by rw [pass, e]; rfl
      refine ⟨s', by rw [ep]; exact a1, a2, a3, a4, a5, a6, a7, by rw [ep]; exact a8, ?_, by rw [ep]; exact a10⟩
      rw [ep]
      intro ok j hj hjr hl
      rcases List.mem_cons.1 hj with rfl | hj
      · obtain ⟨c, c1, c2⟩ := hc
        exact absurd c2 (hl c c1)
      · exact a9 ok j hj hjr hl
    · rcases e with ⟨⟨k0, hk0⟩, _, e⟩ | ⟨hno, hm, e⟩
      · have ep : pass (i :: l) s = .err s1 := by rw [pass, e]
        refine ⟨s1, Or.inr ep, i1, r1 ▸ List.erase_sublist, p1, fun k j x => ((h1 k j).1 x).1, ?_, ?_, by rw [ep]; simp, by rw [ep]; simp, ?_⟩
        · intro k j x hg hs
          exact (h1 k j).2 ⟨x, fun e => hg (by cases e; rfl), hs i hi⟩
        · intro j hj
          exact m1 j (fun e => hj (e ▸ hi))
        · intro hcl
          have := (h1 k0 i).1 hk0
          have e0 := hcl k0 i this.1 hi
          exact absurd (by rw [e0]) this.2.1
      · obtain ⟨s', a1, a2, a3, a4, a5, a6, a7, a8, a9, a10⟩ := ih i1
        have ep : pass (i :: l) s = pass l s1 := by rw [pass, e]
        have hsub : List.Sublist s1.root s.root := r1 ▸ List.erase_sublist
        have hni : i ∉ s1.root := by rw [r1]; exact fun hin => (List.Nodup.mem_erase_iff h.nodup).1 hin |>.1 rfl
        refine ⟨s', by rw [ep]; exact a1, a2, a3.trans hsub, a4.trans p1, fun k j x => ((h1 k j).1 (a5 k j x)).1, ?_, ?_, ?_, ?_, ?_⟩
        · intro k j x hg hs
          exact a6 k j ((h1 k j).2 ⟨x, fun e => hg (by cases e; rfl), hs i hi⟩) hg (fun q hq => hs q (hsub.mem hq))
        · intro j hj
          exact (a7 j (fun hx => hj (hsub.mem hx))).trans (m1 j (fun e => hj (e ▸ hi)))
        · rw [ep]
          intro ok j hj hjn
          by_cases hj1 : j ∈ s1.root
          · exact a8 ok j hj1 hjn
          · have : j = i := Classical.byContradiction fun ne => hj1 (by rw [r1]; exact (List.mem_erase_of_ne ne).2 hj)
            subst this
            exact (a7 j hni).2 hm
        · rw [ep]
          intro ok j hj hjr hl
          by_cases hji : j = i
          · subst hji
            exact fun hx => hni (a3.mem hx)
          · exact a9 ok j ((List.mem_cons.1 hj).resolve_left hji) (by rw [r1]; exact (List.mem_erase_of_ne hji).2 hjr) (fun c hcr => by rw [p1]; exact hl c (hsub.mem hcr))
        · rw [ep]
          intro hcl
          exact a10 (fun k j x hj => hcl k j ((h1 k j).1 x).1 (hsub.mem hj))

/-- There is an entry that no other has as its parent. -/
theorem leaf {s : St} (h : Inv s) (hne : s.root ≠ []) : ∃ j ∈ s.root, ∀ c ∈ s.root, s.parent c ≠ some j := by
  obtain ⟨d, hd⟩ := h.acyclic
  have hmax : ∀ l : List Nat, l ≠ [] → ∃ j ∈ l, ∀ c ∈ l, d c ≤ d j := by
    intro l
    induction l with
    | nil => intro h; exact absurd rfl h
    | cons a l ih =>
      intro _
      by_cases hl : l = []
      · subst hl
        exact ⟨a, by simp, by simp⟩
      · obtain ⟨j, hj, hm⟩ := ih hl
        by_cases hlt : d j ≤ d a
        · refine ⟨a, by simp, fun c hc => ?_⟩
          rcases List.mem_cons.1 hc with rfl | hc
          · exact Nat.le_refl _
          · exact Nat.le_trans (hm c hc) hlt
        · refine ⟨j, List.mem_cons_of_mem _ hj, fun c hc => ?_⟩
          rcases List.mem_cons.1 hc with rfl | hc
          · omega
          · exact hm c hc
  obtain ⟨j, hj, hm⟩ := hmax _ hne
  refine ⟨j, hj, fun c hc hp => ?_⟩
  have := hd c hc j hp
  have := hm c hc
  omega

theorem clearLoop_spec (n : Nat) : ∀ {s : St}, s.root.length ≤ n → Inv s → (∀ i ∈ s.root, ∀ x, (.sticky i, x) ∉ s.held ∧ (.group i, x) ∉ s.held) →
    ∃ s', (clearLoop s = .ok s' ∨ clearLoop s = .err s') ∧ Inv s' ∧
      (clearLoop s = .ok s' ↔ ∀ k j, (k, j) ∈ s.held → j ∈ s.root → k = .ghost) ∧
      (clearLoop s = .ok s' → s'.root = [] ∧ (∀ j ∈ s.root, s'.mem j = none)) ∧
      (∀ j, j ∉ s.root → (s'.mem j = none ↔ s.mem j = none)) := by
  induction n with
  | zero =>
    intro s hn h _
    have : s.root = [] := List.length_eq_zero_iff.1 (by omega)
    have e : clearLoop s = .ok s := by rw [clearLoop]; simp [this]
    exact ⟨s, Or.inl e, h, ⟨fun _ k j _ hj => by simp [this] at hj, fun _ => e⟩, fun _ => ⟨this, by simp [this]⟩, fun _ _ => Iff.rfl⟩
  | succ n ih =>
    intro s hn h hs
    by_cases hne : s.root = []
    · have e : clearLoop s = .ok s := by rw [clearLoop]; simp [hne]
      exact ⟨s, Or.inl e, h, ⟨fun _ k j _ hj => by simp [hne] at hj, fun _ => e⟩, fun _ => ⟨hne, by simp [hne]⟩, fun _ _ => Iff.rfl⟩
    obtain ⟨s1, a1, a2, a3, a4, a5, a6, a7, a8, a9, a10⟩ := pass_spec (s.root.mergeSort (· ≤ ·)) h
    rcases a1 with ep | ep
    · obtain ⟨j, hj, hl⟩ := leaf h hne
      have hj1 := a9 ep j (List.mem_mergeSort.2 hj) hj hl
      have hlt : s1.root.length < s.root.length := by
        rcases Nat.lt_or_ge s1.root.length s.root.length with hlt | hge
        · exact hlt
        · exact absurd ((a3.eq_of_length_le hge) ▸ hj) hj1
      have ec : clearLoop s = clearLoop s1 := by
        rw [clearLoop, if_neg hne, ep]
        simp only [hlt, if_true]
      obtain ⟨s2, b1, b2, b3, b4, b5⟩ := ih (s := s1) (by omega) a2 (fun i hi x => ⟨fun hx => (hs i (a3.mem hi) x).1 (a5 _ _ hx), fun hx => (hs i (a3.mem hi) x).2 (a5 _ _ hx)⟩)
      refine ⟨s2, by rw [ec]; exact b1, b2, ?_, ?_, ?_⟩
      · rw [ec, b3]
        constructor
        · intro hcl k j hk hjr
          apply Classical.byContradiction
          intro hg
          have hk1 := a6 k j hk hg (fun i hi => ⟨fun e => (hs i hi j).1 (e ▸ hk), fun e => (hs i hi j).2 (e ▸ hk)⟩)
          by_cases hj1 : j ∈ s1.root
          · exact hg (hcl k j hk1 hj1)
          · exact a2.alive _ hk1 (a8 ep j hjr hj1)
        · intro hcl k j hk hjr
          exact hcl k j (a5 k j hk) (a3.mem hjr)
      · rw [ec]
        intro ok
        refine ⟨(b4 ok).1, fun j hjr => ?_⟩
        by_cases hj1 : j ∈ s1.root
        · exact (b4 ok).2 j hj1
        · exact (b5 j hj1).2 (a8 ep j hjr hj1)
      · intro j hjr
        exact (b5 j (fun hx => hjr (a3.mem hx))).trans (a7 j hjr)
    · have ec : clearLoop s = .err s1 := by rw [clearLoop, if_neg hne, ep]
      refine ⟨s1, Or.inr ec, a2, ⟨by rw [ec]; simp, ?_⟩, by rw [ec]; simp, a7⟩
      intro hcl
      have := a10 hcl
      rw [ep] at this
      cases this

end Tup.Refs
