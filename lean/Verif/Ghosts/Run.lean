import Verif.Ghosts.Lemmas

/-! The loop as a whole. -/

namespace Tup.Ghosts

open Db

/-- What holds before every round: the database is the first one without some entries that can go. -/
structure Inv (ex : Nat) (db0 db : Db) (tmp : Nat → Bool) : Prop where
  top : db.top = db0.top
  sub : ∀ j n, db.node j = some n → db0.node j = some n
  gone : ∀ j, (db0.node j).isSome = true → db.node j = none → Dead ex db0 j
  normal : ∀ a b, db.normal a b = true ↔ db0.normal a b = true ∧ (db.node a).isSome = true ∧ (db.node b).isSome = true
  sticky : ∀ a b, db.sticky a b = true ↔ db0.sticky a b = true ∧ (db.node a).isSome = true ∧ (db.node b).isSome = true
  create : ∀ j n, db.node j = some n → db.create j = db0.create j
  modify : ∀ j n, db.node j = some n → db.modify j = db0.modify j
  create' : ∀ j, db.create j = true → db0.create j = true
  modify' : ∀ j, db.modify j = true → db0.modify j = true
  listed : ∀ j, db.ghosts j = true ∨ tmp j = true → db.ghosty j = true
  covered : Covered ex db0 → ∀ i, Placeholder db i → (∀ j, ¬ Needs ex db j i) → db.ghosts i = true ∨ tmp i = true

variable {ex : Nat} {db0 db : Db} {tmp : Nat → Bool}

theorem inv_init (hs : Sound ex db0) : Inv ex db0 db0 (fun _ => false) where
  top := rfl
  sub := fun _ _ h => h
  gone := fun j h h' => by rw [h'] at h; cases h
  normal := fun a b => ⟨fun h => ⟨h, hs.normal a b h⟩, fun h => h.1⟩
  sticky := fun a b => ⟨fun h => ⟨h, (hs.sticky a b h).1, (hs.sticky a b h).2.1⟩, fun h => h.1⟩
  create := fun _ _ _ => rfl
  modify := fun _ _ _ => rfl
  create' := fun _ h => h
  modify' := fun _ h => h
  listed := fun j h => by
    rcases h with h | h
    · exact hs.listed j h
    · cases h
  covered := fun hc i h h' => .inl (hc i h h')

theorem Inv.sound (hs : Sound ex db0) (h : Inv ex db0 db tmp) : Sound ex db where
  bounded := fun i hi => by
    cases hn : db.node i with
    | none => rfl
    | some n =>
      have := h.sub i n hn
      rw [hs.bounded i (by rw [← h.top]; exact hi)] at this
      cases this
  normal := fun a b hab => ((h.normal a b).1 hab).2
  sticky := fun a b hab => by
    obtain ⟨h1, h2, h3⟩ := (h.sticky a b).1 hab
    refine ⟨h2, h3, ?_⟩
    have := (hs.sticky a b h1).2.2
    rw [Bool.eq_false_iff] at this ⊢
    intro hg
    obtain ⟨n, g1, g2⟩ := ghosty_iff.1 hg
    exact this (ghosty_iff.2 ⟨n, h.sub b n g1, g2⟩)
  leaf := fun i n hn hl j m hm => hs.leaf i n (h.sub i n hn) hl j m (h.sub j m hm)
  exclusion := fun i n hn he => hs.exclusion i n (h.sub i n hn) he
  listed := fun i hi => h.listed i (.inl hi)

/-- What needs an entry has always needed it. -/
theorem Inv.needs (h : Inv ex db0 db tmp) {j i : Nat} (hn : Needs ex db j i) : Needs ex db0 j i := by
  cases hn with
  | inDir h1 h2 h3 h4 h5 => exact .inDir (h.sub _ _ h1) h2 h3 (h.sub _ _ h4) h5
  | fromDir h1 h2 h3 h4 h5 => exact .fromDir (h.sub _ _ h1) h2 h3 (h.sub _ _ h4) h5
  | uses h1 h2 h3 => exact .uses (h.sub _ _ h1) h2 ((h.normal _ _).1 h3).1
  | member h1 h2 h3 h4 => exact .member (h.sub _ _ h1) h2 h3 ((h.normal _ _).1 h4).1
  | declares h1 h2 h3 h4 => exact .declares (h.sub _ _ h1) h2 h3 ((h.sticky _ _).1 h4).1
  | excludes h1 h2 h3 => exact .excludes (h.sub _ _ h1) h2 ((h.normal _ _).1 h3).1

/-- What needed an entry still does, unless it is gone. -/
theorem Inv.needs' (hs : Sound ex db0) (h : Inv ex db0 db tmp) {j i : Nat} {n : Node} (hi : db.node i = some n)
    (hn : Needs ex db0 j i) : Needs ex db j i ∨ ((db0.node j).isSome = true ∧ db.node j = none) := by
  have hi0 := h.sub i n hi
  have hii : (db.node i).isSome = true := by rw [hi]; rfl
  have key : ∀ m, db0.node j = some m → db.node j = some m ∨ ((db0.node j).isSome = true ∧ db.node j = none) := by
    intro m hm
    cases hj : db.node j with
    | none => exact .inr ⟨by rw [hm]; rfl, rfl⟩
    | some m' =>
      left
      have := h.sub j m' hj
      rw [hm] at this
      cases this
      rfl
  have key' : (db0.node j).isSome = true → (db.node j).isSome = true ∨ ((db0.node j).isSome = true ∧ db.node j = none) := by
    intro hj
    obtain ⟨m, hm⟩ := Option.isSome_iff_exists.1 hj
    rcases key m hm with k | k
    · exact .inl (by rw [k]; rfl)
    · exact .inr k
  cases hn with
  | inDir h1 h2 h3 h4 h5 =>
    rw [hi0] at h1; cases h1
    rcases key _ h4 with k | k
    · exact .inl (.inDir hi h2 h3 k h5)
    · exact .inr k
  | fromDir h1 h2 h3 h4 h5 =>
    rw [hi0] at h1; cases h1
    rcases key _ h4 with k | k
    · exact .inl (.fromDir hi h2 h3 k h5)
    · exact .inr k
  | uses h1 h2 h3 =>
    rw [hi0] at h1; cases h1
    rcases key' (hs.normal _ _ h3).2 with k | k
    · exact .inl (.uses hi h2 ((h.normal _ _).2 ⟨h3, hii, k⟩))
    · exact .inr k
  | member h1 h2 h3 h4 =>
    rw [hi0] at h1; cases h1
    rcases key' (hs.normal _ _ h4).1 with k | k
    · exact .inl (.member hi h2 h3 ((h.normal _ _).2 ⟨h4, k, hii⟩))
    · exact .inr k
  | declares h1 h2 h3 h4 =>
    rw [hi0] at h1; cases h1
    rcases key' (hs.sticky _ _ h4).2.1 with k | k
    · exact .inl (.declares hi h2 h3 ((h.sticky _ _).2 ⟨h4, hii, k⟩))
    · exact .inr k
  | excludes h1 h2 h3 =>
    rw [hi0] at h1; cases h1
    rcases key' (hs.normal _ _ h3).1 with k | k
    · exact .inl (.excludes hi h2 ((h.normal _ _).2 ⟨h3, k, hii⟩))
    · exact .inr k

/-- The number of entries. -/
def size (db : Db) : Nat := (List.range db.top).countP fun i => (db.node i).isSome

/-- The number of entries on the lists. -/
def work (db : Db) (tmp : Nat → Bool) : Nat := (List.range db.top).countP db.ghosts + (List.range db.top).countP tmp

theorem countP_lt {l : List Nat} {p q : Nat → Bool} (h : ∀ j, q j = true → p j = true) {i : Nat} (hi : i ∈ l) (hp : p i = true)
    (hq : q i = false) : l.countP q < l.countP p := by
  induction l with
  | nil => cases hi
  | cons a l ih =>
    have hle : l.countP q ≤ l.countP p := List.countP_mono_left fun x _ hx => h x hx
    rcases List.mem_cons.1 hi with rfl | hi
    · rw [List.countP_cons_of_neg (by rw [hq]; simp), List.countP_cons_of_pos hp]
      omega
    · have := ih hi
      by_cases ha : q a = true
      · rw [List.countP_cons_of_pos ha, List.countP_cons_of_pos (h a ha)]
        omega
      · rw [List.countP_cons_of_neg ha]
        by_cases ha' : p a = true
        · rw [List.countP_cons_of_pos ha']; omega
        · rw [List.countP_cons_of_neg ha']; exact this

/-- The lists are swapped when the first is empty. -/
theorem inv_swap (h : Inv ex db0 db tmp) (he : ∀ j, db.ghosts j = false) :
    Inv ex db0 { db with ghosts := tmp } (fun _ => false) where
  top := h.top
  sub := h.sub
  gone := h.gone
  normal := h.normal
  sticky := h.sticky
  create := h.create
  modify := h.modify
  create' := h.create'
  modify' := h.modify'
  listed := fun j hj => by
    rcases hj with hj | hj
    · exact h.listed j (.inr hj)
    · cases hj
  covered := fun hc i hi hn => by
    have hn' : ∀ j, ¬ Needs ex db j i := fun j hj => by
      refine hn j ?_
      cases hj with
      | inDir h1 h2 h3 h4 h5 => exact .inDir h1 h2 h3 h4 h5
      | fromDir h1 h2 h3 h4 h5 => exact .fromDir h1 h2 h3 h4 h5
      | uses h1 h2 h3 => exact .uses h1 h2 h3
      | member h1 h2 h3 h4 => exact .member h1 h2 h3 h4
      | declares h1 h2 h3 h4 => exact .declares h1 h2 h3 h4
      | excludes h1 h2 h3 => exact .excludes h1 h2 h3
    rcases h.covered hc i hi hn' with k | k
    · rw [he] at k; cases k
    · exact .inl k

/-- An entry that is not needed or is called `tup.config` is taken off the list. -/
theorem inv_keep (h : Inv ex db0 db tmp) {i : Nat} (hi : Placeholder db i → ∃ j, Needs ex db j i) :
    Inv ex db0 (db.delGhost i) tmp where
  top := h.top
  sub := h.sub
  gone := h.gone
  normal := h.normal
  sticky := h.sticky
  create := h.create
  modify := h.modify
  create' := h.create'
  modify' := h.modify'
  listed := fun j hj => by
    refine h.listed j ?_
    rcases hj with hj | hj
    · exact .inl ((Bool.and_eq_true _ _).mp hj).1
    · exact .inr hj
  covered := fun hc k hk hn => by
    have hn' : ∀ j, ¬ Needs ex db j k := fun j hj => by
      refine hn j ?_
      cases hj with
      | inDir h1 h2 h3 h4 h5 => exact .inDir h1 h2 h3 h4 h5
      | fromDir h1 h2 h3 h4 h5 => exact .fromDir h1 h2 h3 h4 h5
      | uses h1 h2 h3 => exact .uses h1 h2 h3
      | member h1 h2 h3 h4 => exact .member h1 h2 h3 h4
      | declares h1 h2 h3 h4 => exact .declares h1 h2 h3 h4
      | excludes h1 h2 h3 => exact .excludes h1 h2 h3
    rcases h.covered hc k hk hn' with g | g
    · left
      show (db.ghosts k && !decide (k = i)) = true
      rw [g]
      by_cases hki : k = i
      · subst hki
        obtain ⟨j, hj⟩ := hi hk
        exact absurd hj (hn' j)
      · simp [hki]
    · exact .inr g

theorem sound_delGhost (hs : Sound ex db) (i : Nat) : Sound ex (db.delGhost i) where
  bounded := hs.bounded
  normal := hs.normal
  sticky := hs.sticky
  leaf := hs.leaf
  exclusion := hs.exclusion
  listed := fun j hj => hs.listed j ((Bool.and_eq_true _ _).mp hj).1

theorem needs_delGhost {i j k : Nat} : Needs ex (db.delGhost i) j k ↔ Needs ex db j k := by
  constructor
  · intro hj
    cases hj with
    | inDir h1 h2 h3 h4 h5 => exact .inDir h1 h2 h3 h4 h5
    | fromDir h1 h2 h3 h4 h5 => exact .fromDir h1 h2 h3 h4 h5
    | uses h1 h2 h3 => exact .uses h1 h2 h3
    | member h1 h2 h3 h4 => exact .member h1 h2 h3 h4
    | declares h1 h2 h3 h4 => exact .declares h1 h2 h3 h4
    | excludes h1 h2 h3 => exact .excludes h1 h2 h3
  · intro hj
    cases hj with
    | inDir h1 h2 h3 h4 h5 => exact .inDir h1 h2 h3 h4 h5
    | fromDir h1 h2 h3 h4 h5 => exact .fromDir h1 h2 h3 h4 h5
    | uses h1 h2 h3 => exact .uses h1 h2 h3
    | member h1 h2 h3 h4 => exact .member h1 h2 h3 h4
    | declares h1 h2 h3 h4 => exact .declares h1 h2 h3 h4
    | excludes h1 h2 h3 => exact .excludes h1 h2 h3

/-- An entry that nothing needs is deleted. -/
theorem inv_delete (hs : Sound ex db0) (h : Inv ex db0 db tmp) {i : Nat} {n : Node} (hn : db.node i = some n)
    (hp : Placeholder db i) (hnd : ∀ j, ¬ Needs ex db j i) :
    Inv ex db0 (((db.delGhost i).delGhost n.dir).deleteNameFile i)
      (fun j => (tmp j && !decide (j = i)) || (decide (j = n.dir) && ((db.delGhost i).delGhost n.dir).ghosty n.dir)) ∧
    size (((db.delGhost i).delGhost n.dir).deleteNameFile i) < size db := by
  have hsd := h.sound hs
  have hg : db.ghosty i = true := by
    obtain ⟨m, h1, h2, _⟩ := hp
    exact ghosty_iff.2 ⟨m, h1, h2⟩
  generalize hx : (db.delGhost i).delGhost n.dir = x
  have hsx : Sound ex x := by rw [← hx]; exact sound_delGhost (sound_delGhost hsd i) n.dir
  have xnode : x.node = db.node := by rw [← hx]; rfl
  have xnormal : x.normal = db.normal := by rw [← hx]; rfl
  have xsticky : x.sticky = db.sticky := by rw [← hx]; rfl
  have xcreate : x.create = db.create := by rw [← hx]; rfl
  have xmodify : x.modify = db.modify := by rw [← hx]; rfl
  have xtop : x.top = db.top := by rw [← hx]; rfl
  have xghosts : ∀ j, x.ghosts j = true ↔ db.ghosts j = true ∧ j ≠ i ∧ j ≠ n.dir := by
    intro j
    rw [← hx]
    simp [Db.delGhost, and_assoc]
  have xg : ∀ j, x.ghosty j = db.ghosty j := fun j => ghosty_congr (by rw [xnode])
  have xnd : ∀ j k, Needs ex x j k ↔ Needs ex db j k := fun j k => by rw [← hx, needs_delGhost, needs_delGhost]
  obtain ⟨e1, e2, e3, e4, e5, e6, e7⟩ := delete_spec hsx (i := i) (n := n) (by rw [xnode]; exact hn)
    (by rw [xg]; exact hg) (fun j hj => hnd j ((xnd j i).1 hj))
  generalize x.deleteNameFile i = y at e1 e2 e3 e4 e5 e6 e7
  rw [xnode] at e2
  rw [xnormal] at e3
  rw [xsticky] at e4
  rw [xcreate] at e5
  rw [xmodify] at e6
  have hold : ∀ j m, y.node j = some m → j ≠ i ∧ db.node j = some m := by
    intro j m hj
    rw [e2] at hj
    by_cases hji : j = i
    · rw [if_pos hji] at hj; cases hj
    · rw [if_neg hji] at hj; exact ⟨hji, hj⟩
  have hsome : ∀ j, (y.node j).isSome = true ↔ j ≠ i ∧ (db.node j).isSome = true := by
    intro j
    rw [e2]
    by_cases hji : j = i
    · rw [if_pos hji]; simp [hji]
    · rw [if_neg hji]; simp [hji]
  have yg : ∀ j, y.ghosty j = true ↔ j ≠ i ∧ db.ghosty j = true := by
    intro j
    rw [ghosty_iff, ghosty_iff]
    constructor
    · rintro ⟨m, g1, g2⟩
      obtain ⟨g3, g4⟩ := hold j m g1
      exact ⟨g3, m, g4, g2⟩
    · rintro ⟨g1, m, g2, g3⟩
      exact ⟨m, by rw [e2, if_neg g1]; exact g2, g3⟩
  have hdead : Dead ex db0 i := by
    refine .mk ?_ ?_
    · obtain ⟨m, h1, h2⟩ := hp
      exact ⟨m, h.sub i m h1, h2⟩
    · intro j hj
      rcases h.needs' hs hn hj with k | ⟨k, k'⟩
      · exact absurd k (hnd j)
      · exact h.gone j k k'
  refine ⟨⟨?_, ?_, ?_, ?_, ?_, ?_, ?_, ?_, ?_, ?_, ?_⟩, ?_⟩
  · rw [e1, xtop, h.top]
  · intro j m hj
    exact h.sub j m (hold j m hj).2
  · intro j h1 h2
    rw [e2] at h2
    by_cases hji : j = i
    · rw [hji]; exact hdead
    · rw [if_neg hji] at h2
      exact h.gone j h1 h2
  · intro a b
    rw [e3, hsome, hsome]
    simp only [Bool.and_eq_true, Bool.not_eq_true', decide_eq_false_iff_not, h.normal a b]
    constructor
    · rintro ⟨⟨⟨h1, h2, h3⟩, h4⟩, h5⟩
      exact ⟨h1, ⟨h4, h2⟩, h5, h3⟩
    · rintro ⟨h1, ⟨h4, h2⟩, h5, h3⟩
      exact ⟨⟨⟨h1, h2, h3⟩, h4⟩, h5⟩
  · intro a b
    rw [e4, hsome, hsome]
    simp only [Bool.and_eq_true, Bool.not_eq_true', decide_eq_false_iff_not, h.sticky a b]
    constructor
    · rintro ⟨⟨⟨h1, h2, h3⟩, h4⟩, h5⟩
      exact ⟨h1, ⟨h4, h2⟩, h5, h3⟩
    · rintro ⟨h1, ⟨h4, h2⟩, h5, h3⟩
      exact ⟨⟨⟨h1, h2, h3⟩, h4⟩, h5⟩
  · intro j m hj
    obtain ⟨h1, h2⟩ := hold j m hj
    rw [e5, h.create j m h2]
    simp [h1]
  · intro j m hj
    obtain ⟨h1, h2⟩ := hold j m hj
    rw [e6, h.modify j m h2]
    simp [h1]
  · intro j hj
    rw [e5] at hj
    exact h.create' j ((Bool.and_eq_true _ _).mp hj).1
  · intro j hj
    rw [e6] at hj
    exact h.modify' j ((Bool.and_eq_true _ _).mp hj).1
  · intro j hj
    rw [yg]
    rcases hj with hj | hj
    · obtain ⟨hj, hji⟩ := (e7 j).1 hj
      refine ⟨hji, ?_⟩
      rcases hj with hj | hj | hj | hj
      · exact h.listed j (.inl ((xghosts j).1 hj).1)
      · rw [← xg]; exact hj.2
      · rw [← xg]; exact hj.2
      · rw [← xg]; exact hj.2
    · simp only [Bool.or_eq_true, Bool.and_eq_true, Bool.not_eq_true', decide_eq_false_iff_not, decide_eq_true_eq] at hj
      rcases hj with ⟨h1, h2⟩ | ⟨h1, h2⟩
      · exact ⟨h2, h.listed j (.inr h1)⟩
      · subst h1
        rw [xg] at h2
        refine ⟨fun hd => ?_, h2⟩
        -- an entry that is its own directory needs itself
        have hng := no_ghosts hsd hn hnd
        rw [Bool.eq_false_iff, ne_eq, Db.hasGhosts, anyNode_iff hsd.bounded] at hng
        exact hng ⟨i, n, hn, by simp [hd]⟩
  · intro hc k hk hkn
    have hk0 := hk
    obtain ⟨m, g1, g2, g3⟩ := hk
    obtain ⟨hki, g1'⟩ := hold k m g1
    have hkg : db.ghosty k = true := ghosty_iff.2 ⟨m, g1', g2⟩
    have hxkg : x.ghosty k = true := by rw [xg]; exact hkg
    simp only [Bool.or_eq_true, Bool.and_eq_true, Bool.not_eq_true', decide_eq_false_iff_not, decide_eq_true_eq]
    by_cases hkd : k = n.dir
    · subst hkd
      exact .inr (.inr ⟨rfl, hxkg⟩)
    by_cases hne : ∀ j, ¬ Needs ex db j k
    · rcases h.covered hc k ⟨m, g1', g2, g3⟩ hne with c | c
      · exact .inl ((e7 k).2 ⟨.inl ((xghosts k).2 ⟨c, hki, hkd⟩), hki⟩)
      · exact .inr (.inl ⟨c, hki⟩)
    · left
      obtain ⟨j, hj⟩ := Classical.not_forall.1 hne
      have hj := Classical.not_not.1 hj
      rw [e7]
      refine ⟨?_, hki⟩
      by_cases hji : j = i
      · subst hji
        rw [xnormal]
        cases hj with
        | inDir _ _ _ h4 h5 => rw [hn] at h4; cases h4; exact absurd h5.symm hkd
        | fromDir _ _ _ h4 h5 => rw [hn] at h4; cases h4; exact .inr (.inr (.inl ⟨h5, hxkg⟩))
        | uses _ _ h3 => exact .inr (.inl ⟨.inl h3, hxkg⟩)
        | member _ _ _ h4 => exact .inr (.inl ⟨.inr h4, hxkg⟩)
        | declares _ _ _ h4 =>
          have := (hsd.sticky k j h4).2.2
          rw [hg] at this
          cases this
        | excludes _ _ h3 => exact .inr (.inl ⟨.inr h3, hxkg⟩)
      · exfalso
        refine hkn j ?_
        have hyj : ∀ m, db.node j = some m → y.node j = some m := fun m hm => by rw [e2, if_neg hji]; exact hm
        have hyk : ∀ m, db.node k = some m → y.node k = some m := fun m hm => by rw [e2, if_neg hki]; exact hm
        cases hj with
        | inDir h1 h2 h3 h4 h5 => exact .inDir (hyk _ h1) h2 h3 (hyj _ h4) h5
        | fromDir h1 h2 h3 h4 h5 => exact .fromDir (hyk _ h1) h2 h3 (hyj _ h4) h5
        | uses h1 h2 h3 => exact .uses (hyk _ h1) h2 (by rw [e3, h3]; simp [hki, hji])
        | member h1 h2 h3 h4 => exact .member (hyk _ h1) h2 h3 (by rw [e3, h4]; simp [hki, hji])
        | declares h1 h2 h3 h4 => exact .declares (hyk _ h1) h2 h3 (by rw [e4, h4]; simp [hki, hji])
        | excludes h1 h2 h3 => exact .excludes (hyk _ h1) h2 (by rw [e3, h3]; simp [hki, hji])
  · unfold size
    rw [e1, xtop]
    refine countP_lt (i := i) (fun j hj => ((hsome j).1 hj).2) ?_ ?_ ?_
    · exact List.mem_range.2 (lt_top hsd.bounded hn)
    · show (db.node i).isSome = true
      rw [hn]; rfl
    · show (y.node i).isSome = false
      rw [e2, if_pos rfl]; rfl

/-- How many rounds are needed at most. -/
def measure (db : Db) (tmp : Nat → Bool) : Nat := size db * (2 * db.top + 1) + work db tmp

theorem work_le (db : Db) (tmp : Nat → Bool) : work db tmp ≤ 2 * db.top := by
  unfold work
  have h1 := List.countP_le_length (p := db.ghosts) (l := List.range db.top)
  have h2 := List.countP_le_length (p := tmp) (l := List.range db.top)
  rw [List.length_range] at h1 h2
  omega

theorem measure_del {db db' : Db} {tmp tmp' : Nat → Bool} (ht : db'.top = db.top) (h : size db' < size db) :
    measure db' tmp' < measure db tmp := by
  have hw := work_le db' tmp'
  unfold measure
  rw [ht] at hw ⊢
  have : (size db' + 1) * (2 * db.top + 1) ≤ size db * (2 * db.top + 1) := Nat.mul_le_mul_right _ h
  rw [Nat.add_mul] at this
  omega

/-- One round: either the list is empty, or the loop goes on with less to do. -/
theorem round_inv (hs : Sound ex db0) (h : Inv ex db0 db tmp) :
    ((round ex db tmp = .done db ∧ ∀ j, db.ghosts j = false) ∨
      ∃ db' tmp', round ex db tmp = .next db' tmp' ∧ Inv ex db0 db' tmp' ∧ measure db' tmp' < measure db tmp ∧
        ((∀ j, db'.ghosts j = false) → ∀ j, tmp' j = false)) := by
  have hsd := h.sound hs
  have hglt : ∀ j, db.ghosts j = true → j < db.top := fun j hj => by
    obtain ⟨m, h1, _⟩ := ghosty_iff.1 (h.listed j (.inl hj))
    exact lt_top hsd.bounded h1
  unfold round
  cases hf : (List.range db.top).find? db.ghosts with
  | none =>
    left
    refine ⟨rfl, fun j => ?_⟩
    cases hj : db.ghosts j with
    | false => rfl
    | true =>
      have := List.find?_eq_none.1 hf j (List.mem_range.2 (hglt j hj))
      exact absurd hj this
  | some i =>
    right
    have hgi : db.ghosts i = true := List.find?_some hf
    have hyi := h.listed i (.inl hgi)
    obtain ⟨n, hn, hk⟩ := ghosty_iff.1 hyi
    simp only [hn, hyi, if_true]
    -- what the middle part gives
    have key : ∃ x t, (if (reclaimable ex (db.delGhost i) i n && decide (n.name ≠ tupConfig)) = true then
          (((db.delGhost i).delGhost n.dir).deleteNameFile i,
            fun j => (tmp j && !decide (j = i)) || (decide (j = n.dir) && ((db.delGhost i).delGhost n.dir).ghosty n.dir))
        else (db.delGhost i, tmp)) = (x, t) ∧ Inv ex db0 x t ∧ measure x t < measure db tmp ∧
          measure { x with ghosts := t } (fun _ => false) ≤ measure x t := by
      have hsw : ∀ (x : Db) (t : Nat → Bool), measure { x with ghosts := t } (fun _ => false) ≤ measure x t := by
        intro x t
        show size x * (2 * x.top + 1) + ((List.range x.top).countP t + (List.range x.top).countP fun _ => false) ≤
          size x * (2 * x.top + 1) + ((List.range x.top).countP x.ghosts + (List.range x.top).countP t)
        have : (List.range x.top).countP (fun _ => false) = 0 := List.countP_eq_zero.2 (by simp)
        omega
      by_cases hr : (reclaimable ex (db.delGhost i) i n && decide (n.name ≠ tupConfig)) = true
      · rw [if_pos hr]
        rw [Bool.and_eq_true, decide_eq_true_eq] at hr
        have hnd : ∀ j, ¬ Needs ex db j i := fun j hj =>
          (reclaimable_iff (sound_delGhost hsd i) hn (by rw [ghosty_congr (db' := db.delGhost i) (db := db) rfl]; exact hyi)).1
            hr.1 j (needs_delGhost.2 hj)
        obtain ⟨h1, h2⟩ := inv_delete hs h hn ⟨n, hn, hk, hr.2⟩ hnd
        exact ⟨_, _, rfl, h1, measure_del (h1.top.trans h.top.symm) h2, hsw _ _⟩
      · rw [if_neg hr]
        refine ⟨_, _, rfl, inv_keep h ?_, ?_, hsw _ _⟩
        · rintro ⟨m, h1, h2, h3⟩
          rw [hn] at h1
          cases h1
          refine Classical.byContradiction fun hne => hr ?_
          rw [Bool.and_eq_true, decide_eq_true_eq]
          refine ⟨(reclaimable_iff (sound_delGhost hsd i) hn (by rw [ghosty_congr (db' := db.delGhost i) (db := db) rfl]; exact hyi)).2 ?_, h3⟩
          intro j hj
          exact hne ⟨j, needs_delGhost.1 hj⟩
        · show size db * (2 * db.top + 1) + ((List.range db.top).countP (fun j => db.ghosts j && !decide (j = i)) +
            (List.range db.top).countP tmp) < size db * (2 * db.top + 1) + ((List.range db.top).countP db.ghosts +
            (List.range db.top).countP tmp)
          have := countP_lt (l := List.range db.top) (p := db.ghosts) (q := fun j => db.ghosts j && !decide (j = i)) (i := i)
            (fun j hj => ((Bool.and_eq_true _ _).mp hj).1) (List.mem_range.2 (hglt i hgi)) hgi (by simp)
          omega
    obtain ⟨x, t, h1, h2, h3, h4⟩ := key
    rw [h1]
    simp only
    have hxlt : ∀ j, x.ghosts j = true → j < x.top := fun j hj => by
      obtain ⟨m, g1, _⟩ := ghosty_iff.1 (h2.listed j (.inl hj))
      exact lt_top (h2.sound hs).bounded g1
    by_cases he : anyId x x.ghosts = true
    · rw [if_pos he]
      refine ⟨x, t, rfl, h2, h3, fun hall => ?_⟩
      obtain ⟨j, hj⟩ := (anyId_iff hxlt).1 he
      rw [hall] at hj
      cases hj
    · rw [if_neg he]
      rw [Bool.not_eq_true] at he
      refine ⟨_, _, rfl, inv_swap h2 ((anyId_false hxlt).1 he), Nat.lt_of_le_of_lt h4 h3, fun _ _ => rfl⟩

/-- The loop comes to an end, with both lists empty. -/
theorem loop_inv (hs : Sound ex db0) : ∀ (m : Nat) (db : Db) (tmp : Nat → Bool), Inv ex db0 db tmp →
    ((∀ j, db.ghosts j = false) → ∀ j, tmp j = false) → measure db tmp ≤ m →
    ∃ db', loop ex (m + 1) db tmp = some (.done db') ∧ Inv ex db0 db' (fun _ => false) ∧ ∀ j, db'.ghosts j = false := by
  intro m
  induction m with
  | zero =>
    intro db tmp h ht hm
    rcases round_inv hs h with ⟨h1, h2⟩ | ⟨_, _, _, _, h3, _⟩
    · refine ⟨db, by simp only [loop, h1], ?_, h2⟩
      have : tmp = fun _ => false := funext (ht h2)
      rw [← this]
      exact h
    · omega
  | succ m ih =>
    intro db tmp h ht hm
    rcases round_inv hs h with ⟨h1, h2⟩ | ⟨db', tmp', h1, h2, h3, h4⟩
    · refine ⟨db, by simp only [loop, h1], ?_, h2⟩
      have : tmp = fun _ => false := funext (ht h2)
      rw [← this]
      exact h
    · obtain ⟨d, g1, g2⟩ := ih db' tmp' h2 h4 (by omega)
      exact ⟨d, by rw [loop, h1]; exact g1, g2⟩

/-- What a round does to the entries. -/
theorem round_node (hs : Sound ex db) (hl : ∀ j, db.ghosts j = true ∨ tmp j = true → db.ghosty j = true) {db' : Db}
    {tmp' : Nat → Bool} (h : round ex db tmp = .next db' tmp') :
    db'.node = db.node ∨ ∃ i, (∀ j, ¬ Needs ex db j i) ∧ ∀ j, db'.node j = if j = i then none else db.node j := by
  unfold round at h
  cases hf : (List.range db.top).find? db.ghosts with
  | none => rw [hf] at h; cases h
  | some i =>
    have hgi : db.ghosts i = true := List.find?_some hf
    have hyi := hl i (.inl hgi)
    obtain ⟨n, hn, hk⟩ := ghosty_iff.1 hyi
    simp only [hf, hn, hyi, if_true] at h
    have fin : ∀ (x : Db) (t : Nat → Bool), (if anyId x x.ghosts = true then Round.next x t else
        Round.next { x with ghosts := t } fun _ => false) = Round.next db' tmp' → db'.node = x.node := by
      intro x t hx
      split at hx <;> cases hx <;> rfl
    by_cases hr : (reclaimable ex (db.delGhost i) i n && decide (n.name ≠ tupConfig)) = true
    · rw [if_pos hr] at h
      rw [fin _ _ h]
      rw [Bool.and_eq_true] at hr
      have hnd : ∀ j, ¬ Needs ex db j i := fun j hj =>
        (reclaimable_iff (sound_delGhost hs i) hn (by rw [ghosty_congr (db' := db.delGhost i) (db := db) rfl]; exact hyi)).1
          hr.1 j (needs_delGhost.2 hj)
      obtain ⟨_, e2, _⟩ := delete_spec (sound_delGhost (sound_delGhost hs i) n.dir) (i := i) (n := n) hn
        (by rw [ghosty_congr (db' := (db.delGhost i).delGhost n.dir) (db := db) rfl]; exact hyi)
        (fun j hj => hnd j (needs_delGhost.1 (needs_delGhost.1 hj)))
      exact .inr ⟨i, hnd, e2⟩
    · rw [if_neg hr] at h
      exact .inl (fin (db.delGhost i) tmp h)

theorem loop_mono : ∀ (k l : Nat) (db : Db) (tmp : Nat → Bool) (r : Round), loop ex k db tmp = some r →
    loop ex (k + l) db tmp = some r := by
  intro k
  induction k with
  | zero => intro l db tmp r h; cases h
  | succ k ih =>
    intro l db tmp r h
    rw [Nat.succ_add]
    unfold loop at h ⊢
    cases hr : round ex db tmp with
    | done d => rw [hr] at h; exact h
    | internalError => rw [hr] at h; exact h
    | next d t => rw [hr] at h; exact ih l d t r h

end Tup.Ghosts
