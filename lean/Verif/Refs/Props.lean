import Verif.Refs.Lemmas

/-!
C110: the reference counts of the entries.
-/

namespace Tup.Refs

/-- The caller uses entries and sets that are in memory, and does not use a list as a set. -/
def Proper (s : St) : Op → Prop
  | .add k i _ => there s k = true ∧ s.mem i ≠ none ∧ ∀ n, k ≠ .list n
  | .remove k i => there s k = true ∧ s.mem i ≠ none
  | .free k => there s k = true
  | .push _ i _ => s.mem i ≠ none
  | _ => True

/-- What the program does is proper all the way; it may go on after an error, with the state that it leaves. -/
inductive Goes : St → List Op → St → Prop
  | nil (s) : Goes s [] s
  | cons {s s' s'' : St} {o : Op} {l : List Op} : Proper s o → (step s o = .ok s' ∨ step s o = .err s') → Goes s' l s'' → Goes s (o :: l) s''

/-- An invariant step: it ends, without undefined behaviour, in a state in which the counts are right. -/
theorem step_inv {s : St} (h : Inv s) (o : Op) (hp : Proper s o) : ∃ s', Inv s' ∧ (step s o = .ok s' ∨ step s o = .err s') := by
  cases o with
  | create i p =>
    obtain ⟨s', a, _, _, _, b⟩ := create_spec h i p
    exact ⟨s', a, b.imp (fun x => x.1) id⟩
  | add k i dup =>
    obtain ⟨h1, h2, h3⟩ := hp
    simp only [step, h1, h2, or_false, Bool.true_eq_false, if_false, add]
    split
    · exact ⟨s, h, by cases dup <;> simp⟩
    · rename_i hn
      obtain ⟨s', hr⟩ := ref_live (d := 1) h2
      have := held_inv h hr (List.Perm.refl _) h1 (fun _ => hn)
      obtain ⟨r, _, he⟩ := ref_some hr
      have hh : s'.held = s.held := by rw [he]
      rw [hr]
      exact ⟨_, hh ▸ this, Or.inl rfl⟩
  | remove k i =>
    obtain ⟨s', e, a, _⟩ := remove_spec h k i
    exact ⟨s', a, Or.inl (by simp only [step, hp.1, hp.2, or_false, Bool.true_eq_false, if_false, e])⟩
  | free k =>
    obtain ⟨s', e, a, _⟩ := freeAll_spec h k
    have hp : there s k = true := hp
    exact ⟨s', a, Or.inl (by simp only [step, hp, Bool.true_eq_false, if_false, e])⟩
  | push n i tail =>
    obtain ⟨s', hr⟩ := ref_live (d := 1) (s := s) (i := i) hp
    obtain ⟨r, _, he⟩ := ref_some hr
    have hh : s'.held = s.held := by rw [he]
    refine ⟨{ s' with held := if tail then s'.held ++ [(.list n, i)] else (.list n, i) :: s'.held }, held_inv (k := .list n) h hr ?_ rfl (fun c => absurd rfl (c n)), Or.inl ?_⟩
    · rw [hh]
      cases tail
      · exact List.Perm.refl _
      · exact List.perm_append_comm
    · simp only [step, push, hr]
  | pop n i =>
    obtain ⟨s', e, a, _⟩ := remove_spec h (.list n) i
    exact ⟨s', a, Or.inl (by simp only [step, e])⟩
  | rm i =>
    rcases rmEntry_spec h i false with ⟨_, e⟩ | ⟨_, _, e⟩ | ⟨_, _, s', a, _, _, _, _, e⟩
    · exact ⟨s, h, Or.inl e⟩
    · exact ⟨s, h, Or.inr (by simpa [step] using e)⟩
    · exact ⟨s', a, e.elim (fun x => Or.inr x.2.2) (fun x => Or.inl x.2.2)⟩

theorem goes_inv {s s' : St} {l : List Op} (g : Goes s l s') (h : Inv s) : Inv s' := by
  induction g with
  | nil => exact h
  | cons hp e _ ih =>
    obtain ⟨t, ht, e'⟩ := step_inv h _ hp
    apply ih
    rcases e with e | e <;> rcases e' with e' | e' <;> rw [e] at e' <;> cases e' <;> exact ht

/-- C110: whatever the program has done, the reference count of an entry in memory is the number of the pointers to it in all sets and
lists. -/
theorem c110_counts {s : St} {l : List Op} (g : Goes empty l s) (i : Nat) (r : Int) (h : s.mem i = some r) :
    r = ((s.held.filter fun p => decide (p.2 = i)).length : Int) := by
  rw [(goes_inv g inv_empty).refs i r h, pointers, List.countP_eq_length_filter]

/-- C110: no set and no list points to an entry that was given back, the index of the entries and the links to the parents don't either. -/
theorem c110_alive {s : St} {l : List Op} (g : Goes empty l s) :
    (∀ k i, (k, i) ∈ s.held → s.mem i ≠ none ∧ there s k = true) ∧
    (∀ i ∈ s.root, s.mem i ≠ none ∧ ∀ p, s.parent i = some p → s.mem p ≠ none) := by
  have h := goes_inv g inv_empty
  refine ⟨fun k i hk => ⟨h.alive _ hk, ?_⟩, fun i hi => ⟨h.root i hi, fun p hp => h.root p (h.parent i hi p hp)⟩⟩
  cases k with
  | sticky j => exact Option.isSome_iff_ne_none.2 (h.own j i (Or.inl hk))
  | group j => exact Option.isSome_iff_ne_none.2 (h.own j i (Or.inr hk))
  | _ => rfl

/-- C110: no operation uses memory that was given back, as long as the caller does not hand it a pointer to such memory, and each ends. -/
theorem c110_safe {s : St} {l : List Op} (g : Goes empty l s) (o : Op) (hp : Proper s o) : step s o ≠ .ub ∧ step s o ≠ .hang := by
  obtain ⟨s', _, e⟩ := step_inv (goes_inv g inv_empty) o hp
  rcases e with e | e <;> rw [e] <;> simp

/-- C110: removing an entry that is in the index, and that is nobody's parent, takes it out of the index, whatever comes of it. Its memory is
given back if and only if no set and no list points to it apart from the set of ghosts and its own two sets; otherwise it is an error. No
other entry loses its memory, and of the pointers only that in the set of ghosts and those in its own two sets are gone. -/
theorem c110_remove {s : St} {l : List Op} (g : Goes empty l s) (i : Nat) (hi : i ∈ s.root) (hc : ∀ c ∈ s.root, s.parent c ≠ some i) :
    ∃ s', s'.root = s.root.erase i ∧
      (∀ k j, (k, j) ∈ s'.held ↔ (k, j) ∈ s.held ∧ (k, j) ≠ (.ghost, i) ∧ k ≠ .sticky i ∧ k ≠ .group i) ∧
      (∀ j, j ≠ i → (s'.mem j = none ↔ s.mem j = none)) ∧
      ((∀ k, (k, i) ∈ s.held → k = .ghost ∨ k = .sticky i ∨ k = .group i) → step s (.rm i) = .ok s' ∧ s'.mem i = none) ∧
      (∀ k, (k, i) ∈ s.held → k ≠ .ghost → k ≠ .sticky i → k ≠ .group i → step s (.rm i) = .err s' ∧ s'.mem i ≠ none) := by
  rcases rmEntry_spec (goes_inv g inv_empty) i false with ⟨h, _⟩ | ⟨_, ⟨c, c1, c2⟩, _⟩ | ⟨_, _, s', _, r, _, hh, m, e⟩
  · exact absurd hi h
  · exact absurd c2 (hc c c1)
  · refine ⟨s', r, hh, m, ?_, ?_⟩
    · intro hk
      rcases e with ⟨⟨k, x⟩, _, _⟩ | ⟨_, b, c⟩
      · have := (hh k i).1 x
        rcases hk k this.1 with rfl | rfl | rfl
        · exact absurd rfl this.2.1
        · exact absurd rfl this.2.2.1
        · exact absurd rfl this.2.2.2
      · exact ⟨c, b⟩
    · intro k hk h1 h2 h3
      rcases e with ⟨_, b, c⟩ | ⟨a, _, _⟩
      · exact ⟨c, b⟩
      · exact absurd ((hh k i).2 ⟨hk, fun e => h1 (by cases e; rfl), h2, h3⟩) (a k)

/-- C110: an entry in which there are others is not removed: it is an error, and nothing is changed. An entry that is not in the index is not
touched. -/
theorem c110_parent {s : St} {l : List Op} (_ : Goes empty l s) (i : Nat) :
    ((∃ c ∈ s.root, s.parent c = some i) → i ∈ s.root → step s (.rm i) = .err s) ∧ (i ∉ s.root → step s (.rm i) = .ok s) := by
  constructor
  · rintro ⟨c, c1, c2⟩ hi
    have : (s.root.any fun c => decide (s.parent c = some i)) = true := by
      rw [List.any_eq_true]; exact ⟨c, c1, by simpa using c2⟩
    simp only [step, rmEntry, hi, not_true, if_false, this, if_true, Bool.false_eq_true]
  · intro hi
    simp only [step, rmEntry, hi, not_false_eq_true, if_true]

/-- C110: dropping all entries uses no memory that was given back and ends. It succeeds if and only if nothing else points to the entries of
the index, neither a set or list of the program nor a set of an entry that is not in the index any more; then the memory of all of them is
given back. -/
theorem c110_clear {s : St} {l : List Op} (g : Goes empty l s) :
    ∃ s', (clear s = .ok s' ∨ clear s = .err s') ∧
      (clear s = .ok s' ↔ ∀ k j, (k, j) ∈ s.held → j ∈ s.root → k = .ghost ∨ ∃ i ∈ s.root, k = .sticky i ∨ k = .group i) ∧
      (clear s = .ok s' → s'.root = [] ∧ ∀ i ∈ s.root, s'.mem i = none) ∧
      (∀ i, i ∉ s.root → (s'.mem i = none ↔ s.mem i = none)) := by
  obtain ⟨s1, e1, i1, r1, p1, m1, h1⟩ := dropSets_spec s.root (goes_inv g inv_empty)
  obtain ⟨s2, a1, _, a3, a4, a5⟩ := clearLoop_spec _ (Nat.le_refl _) i1 (fun i hi x =>
    ⟨fun hx => (((h1 _ _).1 hx).2 i (r1 ▸ hi)).1 rfl, fun hx => (((h1 _ _).1 hx).2 i (r1 ▸ hi)).2 rfl⟩)
  have e : clear s = clearLoop s1 := by rw [clear, e1]
  rw [e]
  refine ⟨s2, a1, ?_, ?_, ?_⟩
  · rw [a3, r1]
    constructor
    · intro h k j hk hj
      by_cases hs : ∃ i ∈ s.root, k = .sticky i ∨ k = .group i
      · exact Or.inr hs
      · left
        refine h k j ((h1 k j).2 ⟨hk, fun i hi => ⟨fun e => hs ⟨i, hi, Or.inl e⟩, fun e => hs ⟨i, hi, Or.inr e⟩⟩⟩) hj
    · intro h k j hk hj
      have hk := (h1 k j).1 hk
      rcases h k j hk.1 hj with h | ⟨i, hi, h | h⟩
      · exact h
      · exact absurd h (hk.2 i hi).1
      · exact absurd h (hk.2 i hi).2
  · intro ok
    have := a4 ok
    rw [r1] at this
    exact this
  · intro i hi
    rw [r1] at a5
    exact (a5 i hi).trans (m1 i)

/-- C110: an entry that was just added to a set is in it, and its count is one more; a second time it is an error, or nothing where that is
allowed. -/
theorem c110_add {s : St} {l : List Op} (g : Goes empty l s) (k : Key) (i : Nat) (dup : Bool) (hp : Proper s (.add k i dup)) (r : Int) (hr : s.mem i = some r) :
    ((k, i) ∉ s.held → ∃ s', step s (.add k i dup) = .ok s' ∧ (k, i) ∈ s'.held ∧ s'.mem i = some (r + 1) ∧ ∀ p, p ∈ s'.held ↔ p = (k, i) ∨ p ∈ s.held) ∧
    ((k, i) ∈ s.held → step s (.add k i dup) = if dup then .ok s else .err s) := by
  have _ := g
  obtain ⟨h1, h2, _⟩ := hp
  constructor
  · intro hn
    refine ⟨{ s with mem := fun k => if k = i then some (r + 1) else s.mem k, held := (k, i) :: s.held }, ?_, by simp, by simp, fun p => by simp⟩
    simp only [step, h1, hr, or_false, Bool.true_eq_false, if_false, add, hn, ref, reduceCtorEq]
  · intro hn
    simp only [step, h1, h2, or_false, Bool.true_eq_false, if_false, add, hn, if_true]

/-- C110: taking an entry out of a set, and emptying a set or list: the pointers are gone, all others are as they were. -/
theorem c110_let_go {s : St} {l : List Op} (g : Goes empty l s) (k : Key) (i : Nat) :
    (Proper s (.remove k i) → (∀ n, k ≠ .list n) → ∃ s', step s (.remove k i) = .ok s' ∧ (∀ p, p ∈ s'.held ↔ p ∈ s.held ∧ p ≠ (k, i)) ∧ ∀ j, s'.mem j = none ↔ s.mem j = none) ∧
    (Proper s (.free k) → ∃ s', step s (.free k) = .ok s' ∧ (∀ p, p ∈ s'.held ↔ p ∈ s.held ∧ p.1 ≠ k) ∧ ∀ j, s'.mem j = none ↔ s.mem j = none) := by
  have h := goes_inv g inv_empty
  constructor
  · intro hp hk
    obtain ⟨s', e, _, _, _, hh, m⟩ := remove_spec h k i
    refine ⟨s', by simp only [step, hp.1, hp.2, or_false, Bool.true_eq_false, if_false, e], fun p => ?_, m⟩
    rw [hh]
    by_cases e : p = (k, i)
    · subst e
      constructor
      · intro hin
        have a := h.uniq k i hk
        have b := List.count_erase_self (a := (k, i)) (l := s.held)
        have c := List.count_pos_iff.2 hin
        omega
      · intro hin; exact absurd rfl hin.2
    · rw [List.mem_erase_of_ne e]
      exact ⟨fun x => ⟨x, e⟩, fun x => x.1⟩
  · intro hp
    have hp : there s k = true := hp
    obtain ⟨s', e, _, _, _, hh, m⟩ := freeAll_spec h k
    refine ⟨s', by simp only [step, hp, Bool.true_eq_false, if_false, e], fun p => ?_, m⟩
    rw [hh]
    simp [List.mem_filter]

/-- The entries of a list, in order. -/
def items (s : St) (n : Nat) : List Nat := (s.held.filter fun p => decide (p.1 = .list n)).map (·.2)

/-- C110: a list has its entries in the order in which they were put in at its two ends; the other lists stay as they are. -/
theorem c110_push {s : St} {l : List Op} (g : Goes empty l s) (n i : Nat) (tail : Bool) (hp : s.mem i ≠ none) :
    ∃ s', step s (.push n i tail) = .ok s' ∧ items s' n = (if tail then items s n ++ [i] else i :: items s n) ∧ ∀ m, m ≠ n → items s' m = items s m := by
  have _ := g
  obtain ⟨s1, hr⟩ := ref_live (d := 1) hp
  obtain ⟨r, _, he⟩ := ref_some hr
  have hh : s1.held = s.held := by rw [he]
  refine ⟨{ s1 with held := if tail then s1.held ++ [(.list n, i)] else (.list n, i) :: s1.held }, by simp only [step, push, hr], ?_, ?_⟩
  · cases tail <;> simp [items, hh]
  · intro m hm
    have : ¬ n = m := fun e => hm e.symm
    cases tail <;> simp [items, hh, this]

theorem items_erase (l : List (Key × Nat)) (n i m : Nat) :
    ((l.erase (.list n, i)).filter fun p => decide (p.1 = .list m)).map (·.2) =
      if m = n then ((l.filter fun p => decide (p.1 = .list m)).map (·.2)).erase i else (l.filter fun p => decide (p.1 = .list m)).map (·.2) := by
  induction l with
  | nil => split <;> rfl
  | cons p l ih =>
    obtain ⟨k, j⟩ := p
    by_cases e : (k, j) = (.list n, i)
    · cases e
      by_cases hm : m = n
      · subst hm; simp
      · have : ¬ n = m := fun e => hm e.symm
        simp [hm, this]
    · have hbe : ((k, j) == (Key.list n, i)) = false := by simpa using e
      rw [List.erase_cons, hbe]
      simp only [Bool.false_eq_true, if_false]
      by_cases hk : k = .list m
      · subst hk
        simp only [decide_true, List.filter_cons_of_pos, List.map_cons, ih]
        by_cases hm : m = n
        · subst hm
          have hj : ¬ j = i := fun h => e (by rw [h])
          simp [hj]
        · simp [hm]
      · simp only [hk, decide_false, Bool.false_eq_true, not_false_eq_true, List.filter_cons_of_neg, ih]

/-- C110: taking an entry out of a list takes it out once. -/
theorem c110_pop {s : St} {l : List Op} (g : Goes empty l s) (n i : Nat) :
    ∃ s', step s (.pop n i) = .ok s' ∧ items s' n = (items s n).erase i ∧ (∀ m, m ≠ n → items s' m = items s m) ∧
      pointers s'.held i = pointers s.held i - (if i ∈ items s n then 1 else 0) := by
  obtain ⟨s', e, _, _, _, hh, _⟩ := remove_spec (goes_inv g inv_empty) (.list n) i
  refine ⟨s', by simp only [step, e], ?_, ?_, ?_⟩
  · unfold items
    rw [hh, items_erase, if_pos rfl]
  · intro m hm
    unfold items
    rw [hh, items_erase, if_neg hm]
  · have hmem : i ∈ items s n ↔ (Key.list n, i) ∈ s.held := by
      simp [items, List.mem_map, List.mem_filter]
    by_cases hin : (Key.list n, i) ∈ s.held
    · have := pointers_erase hin i
      rw [if_pos (hmem.2 hin), hh]
      simp at this
      omega
    · rw [if_neg (fun h => hin (hmem.1 h)), hh, List.erase_of_not_mem hin]
      rfl

/-- C110: a new entry is in the index, nothing points to it, and it has the parent that was asked for. If there is no such parent it is an
error, and the entry is in the index all the same, without a parent. -/
theorem c110_create {s : St} {l : List Op} (g : Goes empty l s) (i : Nat) (h : s.mem i = none) (p : Option Nat) :
    ∃ s', s'.root = i :: s.root ∧ s'.mem i = some 0 ∧ s'.held = s.held ∧
      ((∀ q, p = some q → q ∈ s.root) → step s (.create i p) = .ok s' ∧ s'.parent i = p) ∧
      (∀ q, p = some q → q ∉ s.root → step s (.create i p) = .err s' ∧ s'.parent i = none) := by
  have hi : i ∉ s.root := fun e => (goes_inv g inv_empty).root i e h
  have hn : ¬ (i ∈ s.root ∨ s.mem i ≠ none) := by simp [hi, h]
  cases p with
  | none =>
    exact ⟨{ s with mem := fun k => if k = i then some 0 else s.mem k, parent := fun k => if k = i then none else s.parent k, root := i :: s.root },
      rfl, by simp, rfl, fun _ => ⟨by simp only [step, create, hn, if_false], by simp⟩, fun q e => by cases e⟩
  | some q =>
    by_cases hq : q ∈ s.root
    · exact ⟨{ s with mem := fun k => if k = i then some 0 else s.mem k, parent := fun k => if k = i then some q else s.parent k, root := i :: s.root },
        rfl, by simp, rfl, fun _ => ⟨by simp only [step, create, hn, if_false, hq, if_true], by simp⟩, fun q' e hn' => by cases e; exact absurd hq hn'⟩
    · exact ⟨{ s with mem := fun k => if k = i then some 0 else s.mem k, parent := fun k => if k = i then none else s.parent k, root := i :: s.root },
        rfl, by simp, rfl, fun hh => absurd (hh q rfl) hq, fun q' e hn' => by cases e; exact ⟨by simp only [step, create, hn, if_false, hq], by simp⟩⟩

/-! Cases that meet the hypotheses: a directory 1 with a file 2 and a command 3. The command is sticky to the file; the file is a ghost and in
a list twice, of which one pointer is taken away. -/

def ops : List Op := [.create 1 none, .create 2 (some 1), .create 3 (some 1), .add (.sticky 3) 2 false, .add .ghost 2 true, .push 0 2 true, .push 0 2 false, .push 0 3 true, .pop 0 2]

def after (s : St) (o : Op) : St :=
  match step s o with
  | .ok s | .err s => s
  | _ => s

def reached : St := ops.foldl after empty

theorem reached_goes : Goes empty ops reached :=
  .cons trivial (.inl rfl) <| .cons trivial (.inl rfl) <| .cons trivial (.inl rfl) <|
  .cons ⟨rfl, by decide, by intro n h; cases h⟩ (.inl rfl) <| .cons ⟨rfl, by decide, by intro n h; cases h⟩ (.inl rfl) <|
  .cons (show _ ≠ _ by decide) (.inl rfl) <| .cons (show _ ≠ _ by decide) (.inl rfl) <| .cons (show _ ≠ _ by decide) (.inl rfl) <|
  .cons trivial (.inl rfl) <| .nil _

/-- `c110_counts`, `c110_alive`, `c110_safe`: three pointers to the file. -/
example : reached.mem 2 = some 3 ∧ (reached.held.filter fun p => decide (p.2 = 2)).length = 3 ∧ items reached 0 = [2, 3] := by decide

/-- `c110_remove`: the list has the file, so its memory is not given back. -/
example : step reached (.rm 2) ≠ .ok (after reached (.rm 2)) ∧ (after reached (.rm 2)).mem 2 = some 2 ∧ (after reached (.rm 2)).root = [3, 1] := by
  refine ⟨?_, by decide, by decide⟩
  obtain ⟨s', _, _, _, _, h⟩ := c110_remove reached_goes 2 (by decide) (by decide)
  have := h (.list 0) (by decide) (by decide) (by decide) (by decide)
  rw [this.1]
  simp

/-- `c110_remove`, `c110_let_go`: without the list and the command's set it is. -/
example : (([.free (.list 0), .remove (.sticky 3) 2, .rm 2] : List Op).foldl after reached).mem 2 = none ∧
    (([.free (.list 0), .remove (.sticky 3) 2] : List Op).foldl after reached).mem 2 = some 1 ∧
    (([.free (.list 0), .remove (.sticky 3) 2] : List Op).foldl after reached).held = [(.ghost, 2)] := by decide

/-- `c110_parent`: the directory cannot be removed. -/
example : step reached (.rm 1) = .err reached := (c110_parent reached_goes 1).1 ⟨2, by decide, by decide⟩ (by decide)

/-- `c110_clear`: without the list all are given back, although the directory can only be removed after the two others. -/
example : ∃ s', clear (after reached (.free (.list 0))) = .ok s' ∧ s'.mem 1 = none ∧ s'.mem 2 = none ∧ s'.mem 3 = none := by
  have g : Goes empty (ops ++ [.free (.list 0)]) (after reached (.free (.list 0))) :=
    .cons trivial (.inl rfl) <| .cons trivial (.inl rfl) <| .cons trivial (.inl rfl) <|
    .cons ⟨rfl, by decide, by intro n h; cases h⟩ (.inl rfl) <| .cons ⟨rfl, by decide, by intro n h; cases h⟩ (.inl rfl) <|
    .cons (show _ ≠ _ by decide) (.inl rfl) <| .cons (show _ ≠ _ by decide) (.inl rfl) <| .cons (show _ ≠ _ by decide) (.inl rfl) <|
    .cons trivial (.inl rfl) <| .cons rfl (.inl rfl) <| .nil _
  obtain ⟨s', _, h1, h2, _⟩ := c110_clear g
  have ok := h1.2 (by
    intro k j hk _
    have : (k, j) = (.ghost, 2) ∨ (k, j) = (.sticky 3, 2) := by
      have hl : (after reached (.free (.list 0))).held = [(.ghost, 2), (.sticky 3, 2)] := by decide
      rw [hl] at hk
      simpa using hk
    rcases this with h | h <;> cases h
    · exact .inl rfl
    · exact .inr ⟨3, by decide, .inl rfl⟩)
  exact ⟨s', ok, (h2 ok).2 1 (by decide), (h2 ok).2 2 (by decide), (h2 ok).2 3 (by decide)⟩

/-- `c110_clear`: with the list it is an error. -/
example : ∃ s', clear reached = .err s' := by
  obtain ⟨s', h, h1, _⟩ := c110_clear reached_goes
  rcases h with h | h
  · have := (h1.1 h) (.list 0) 2 (by decide) (by decide)
    rcases this with h | ⟨i, _, h | h⟩ <;> cases h
  · exact ⟨s', h⟩

/-- `c110_add`, `c110_push`, `c110_pop`. -/
example : step reached (.add (.sticky 3) 2 false) = .err reached ∧ (after reached (.add (.tree 5) 2 false)).mem 2 = some 4 ∧
    items (after reached (.push 0 1 false)) 0 = [1, 2, 3] ∧ items (after reached (.push 0 1 true)) 0 = [2, 3, 1] ∧ items (after reached (.pop 0 2)) 0 = [3] := by
  refine ⟨?_, by decide, by decide, by decide, by decide⟩
  exact (c110_add reached_goes (.sticky 3) 2 false ⟨rfl, by decide, by intro n h; cases h⟩ 3 (by decide)).2 (by decide)

/-- `c110_create`: the error leaves the entry. -/
example : ∃ s', step reached (.create 7 (some 9)) = .err s' ∧ 7 ∈ s'.root ∧ s'.parent 7 = none := by
  obtain ⟨s', h1, _, _, _, h⟩ := c110_create reached_goes 7 (by decide) (some 9)
  have := h 9 rfl (by decide)
  exact ⟨s', this.1, by rw [h1]; simp, this.2⟩

/-- What is ruled out in `c110_safe`: a pointer to an entry that was given back. -/
example : step (after (after empty (.create 1 none)) (.rm 1)) (.push 0 1 true) = .ub := rfl

end Tup.Refs
