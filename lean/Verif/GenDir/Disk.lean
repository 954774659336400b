import Verif.GenDir.Spec
import Verif.Ghosts.Run

/-! Lemmas about the removal of directories from the disk. -/

namespace Tup.GenDir

open Tup.Db

/-- The second disk is the first one with some generated directories made. -/
structure Made (db : Db) (disk disk' : Disk) : Prop where
  other : disk'.other = disk.other
  place : ∀ j, disk'.place j = disk.place j ∨ (disk.place j = none ∧ ∃ n, db.node j = some n ∧ n.kind = .generatedDir ∧ disk'.place j = some n.dir)

theorem Made.refl (db : Db) (disk : Disk) : Made db disk disk := ⟨rfl, fun _ => .inl rfl⟩

theorem Path.made {db : Db} {disk disk' : Disk} (hm : Made db disk disk') {k i : Nat} (h : Path db disk k i) : Path db disk' k i := by
  induction h with
  | top h => exact .top h
  | step h1 h2 h3 _ ih =>
    refine .step h1 h2 ?_ ih
    rcases h3 with h3 | h3
    · rcases hm.place _ with e | ⟨e, _⟩
      · exact .inl (e.trans h3)
      · rw [h3] at e; cases e
    · exact .inr h3

theorem InStep.made {fuel : Nat} {db : Db} {disk disk' : Disk} (h : InStep fuel db disk) (hm : Made db disk disk') : InStep fuel db disk' := by
  refine ⟨fun j p hj => ?_, fun i n hn hk => ?_⟩
  · rcases hm.place j with e | ⟨_, n, e1, e2, e3⟩
    · exact h.known j p (e.symm.trans hj)
    · rw [e3] at hj
      cases hj
      exact ⟨n, e1, rfl, by rw [e2]; decide, by rw [e2]; decide⟩
  · obtain ⟨h1, k, h2, h3⟩ := h.way i n hn hk
    exact ⟨h1, k, h2, h3.made hm⟩

theorem openDir_spec {db : Db} {disk : Disk} : ∀ (fuel k i : Nat), Path db disk k i → k < fuel → ∃ disk', openDir fuel db disk i = some disk' ∧ Made db disk disk' := by
  intro fuel
  induction fuel with
  | zero => intro k i _ h; omega
  | succ fuel ih =>
    intro k i hp hk
    unfold openDir
    cases hp with
    | top h =>
      rw [h]
      exact ⟨disk, by simp, .refl _ _⟩
    | @step k _ n h1 h2 h3 h4 =>
      obtain ⟨d1, e1, e2⟩ := ih k n.dir h4 (by omega)
      rw [h2]
      dsimp only
      rw [if_neg h1, e1]
      dsimp only
      cases hpl : d1.place i with
      | some p => exact ⟨d1, by simp, e2⟩
      | none =>
        rw [if_neg (by simp)]
        have hgd : n.kind = .generatedDir := by
          rcases h3 with h3 | h3
          · rcases e2.place i with e | ⟨e, _⟩
            · rw [hpl, h3] at e; cases e
            · rw [h3] at e; cases e
          · exact h3
        rw [if_pos hgd]
        refine ⟨_, rfl, e2.other, fun j => ?_⟩
        dsimp only
        by_cases hj : j = i
        · rw [if_pos hj, hj]
          right
          refine ⟨?_, n, h2, hgd, rfl⟩
          rcases e2.place i with e | ⟨e, _⟩
          · rw [← e]; exact hpl
          · exact e
        · rw [if_neg hj]
          exact e2.place j

/-- A generated directory with nothing in it is removed. -/
theorem rmDir_spec {fuel : Nat} {db : Db} {disk : Disk} (h : InStep fuel db disk) {i : Nat} {n : Node} (hn : db.node i = some n) (hk : n.kind = .generatedDir) (hne : ∀ j m, ¬ Child db i j m)
    (ho : disk.other i = false) :
    ∃ disk1 disk', rmDir fuel db disk i n = some disk' ∧ Made db disk disk1 ∧ disk'.other = disk.other ∧ ∀ j, disk'.place j = if j = i then none else disk1.place j := by
  obtain ⟨h1, k, h2, h3⟩ := h.way i n hn hk
  have hpar : ∃ k', k' < fuel ∧ Path db disk k' n.dir := by
    cases h3 with
    | top _ => exact absurd rfl h1
    | @step k' _ n' _ g2 _ g4 =>
      rw [hn] at g2
      cases g2
      exact ⟨k', by omega, g4⟩
  obtain ⟨k', h4, h5⟩ := hpar
  obtain ⟨d1, e1, e2⟩ := openDir_spec fuel k' n.dir h5 h4
  have hs1 := h.made e2
  unfold rmDir
  rw [if_pos hk, e1]
  dsimp only
  cases hpl : d1.place i with
  | none =>
    refine ⟨d1, d1, by simp, e2, e2.other, fun j => ?_⟩
    by_cases hj : j = i
    · rw [if_pos hj, hj]; exact hpl
    · rw [if_neg hj]
  | some p =>
    rw [if_pos (by simp)]
    have hany : (Ghosts.anyId db fun j => decide (d1.place j = some i)) = false := by
      unfold Ghosts.anyId
      rw [List.any_eq_false]
      intro j _ hj
      obtain ⟨m, g1, g2, _⟩ := hs1.known j i (of_decide_eq_true hj)
      exact hne j m ⟨g1, g2⟩
    rw [e2.other, ho, hany]
    exact ⟨d1, _, rfl, e2, rfl, fun j => rfl⟩

/-- What a round removes from the database is what it removes from the disk. -/
theorem round_target {ex : Nat} {db : Db} {tmp : Nat → Bool} (hs : Ghosts.Sound ex db) (hl : ∀ j, db.ghosts j = true ∨ tmp j = true → db.ghosty j = true) {db' : Db}
    {tmp' : Nat → Bool} (h : Ghosts.round ex db tmp = .next db' tmp') :
    (target ex db = none ∧ db'.node = db.node) ∨
      ∃ i n, target ex db = some (i, n) ∧ db.node i = some n ∧ (∀ j m, ¬ Child db i j m) ∧ ∀ j, db'.node j = if j = i then none else db.node j := by
  unfold Ghosts.round at h
  unfold target
  cases hf : (List.range db.top).find? db.ghosts with
  | none => rw [hf] at h; cases h
  | some i =>
    have hgi : db.ghosts i = true := List.find?_some hf
    have hyi := hl i (.inl hgi)
    obtain ⟨n, hn, hk⟩ := Ghosts.ghosty_iff.1 hyi
    simp only [hf, hn, hyi, if_true] at h
    have fin : ∀ (x : Db) (t : Nat → Bool), (if Ghosts.anyId x x.ghosts = true then Ghosts.Round.next x t else
        Ghosts.Round.next { x with ghosts := t } fun _ => false) = Ghosts.Round.next db' tmp' → db'.node = x.node := by
      intro x t hx
      split at hx <;> cases hx <;> rfl
    simp only [hn]
    by_cases hr : (Ghosts.reclaimable ex (db.delGhost i) i n && decide (n.name ≠ Ghosts.tupConfig)) = true
    · rw [if_pos hr] at h
      right
      rw [if_pos hr, fin _ _ h]
      rw [Bool.and_eq_true] at hr
      have hnd : ∀ j, ¬ Ghosts.Needs ex db j i := fun j hj =>
        (Ghosts.reclaimable_iff (Ghosts.sound_delGhost hs i) hn (by rw [Ghosts.ghosty_congr (db' := db.delGhost i) (db := db) rfl]; exact hyi)).1
          hr.1 j (Ghosts.needs_delGhost.2 hj)
      obtain ⟨_, e2, _⟩ := Ghosts.delete_spec (Ghosts.sound_delGhost (Ghosts.sound_delGhost hs i) n.dir) (i := i) (n := n) hn
        (by rw [Ghosts.ghosty_congr (db' := (db.delGhost i).delGhost n.dir) (db := db) rfl]; exact hyi)
        (fun j hj => hnd j (Ghosts.needs_delGhost.1 (Ghosts.needs_delGhost.1 hj)))
      refine ⟨i, n, rfl, hn, ?_, e2⟩
      have hng := Ghosts.no_ghosts hs hn hnd
      rw [Bool.eq_false_iff, ne_eq, Db.hasGhosts, anyNode_iff hs.bounded] at hng
      intro j m hc
      exact hng ⟨j, m, hc.1, by simp [hc.2]⟩
    · rw [if_neg hr] at h
      left
      rw [if_neg hr]
      exact ⟨rfl, fin (db.delGhost i) tmp h⟩

theorem Path.remove {db db' : Db} {disk disk' : Disk} {i : Nat} (hdb : ∀ j, db'.node j = if j = i then none else db.node j) (hdisk : ∀ j, disk'.place j = if j = i then none else disk.place j)
    (hne : ∀ j m, ¬ Child db i j m) {k j : Nat} (h : Path db disk k j) (hj : j ≠ i) : Path db' disk' k j := by
  induction h with
  | top h => exact .top (by rw [hdb, if_neg hj]; exact h)
  | step h1 h2 h3 _ ih =>
    refine .step h1 (by rw [hdb, if_neg hj]; exact h2) ?_ (ih fun e => hne _ _ ⟨h2, e⟩)
    rw [hdisk, if_neg hj]
    exact h3

/-- The two loops together: the removal of what is not needed, and of the directories on the disk. -/
structure Both (ex fuel : Nat) (db0 db : Db) (disk0 disk : Disk) (tmp : Nat → Bool) : Prop where
  inv : Ghosts.Inv ex db0 db tmp
  step : InStep fuel db disk
  other : disk.other = disk0.other
  from_ : ∀ j p, disk.place j = some p → disk0.place j = some p ∨ (disk0.place j = none ∧ ∃ n, db.node j = some n ∧ n.kind = .generatedDir ∧ n.dir = p)
  keep : ∀ j p, disk0.place j = some p → (db.node j).isSome = true → disk.place j = some p

theorem Both.made {ex fuel : Nat} {db0 db : Db} {disk0 disk disk' : Disk} {tmp : Nat → Bool} (h : Both ex fuel db0 db disk0 disk tmp) (hm : Made db disk disk') : Both ex fuel db0 db disk0 disk' tmp := by
  refine ⟨h.inv, h.step.made hm, hm.other.trans h.other, fun j p hj => ?_, fun j p hj hs => ?_⟩
  · rcases hm.place j with e | ⟨e, n, e1, e2, e3⟩
    · exact h.from_ j p (e.symm.trans hj)
    · rw [e3] at hj
      cases hj
      cases h0 : disk0.place j with
      | none => exact .inr ⟨rfl, n, e1, e2, rfl⟩
      | some q =>
        have := h.keep j q h0 (by rw [e1]; rfl)
        rw [e] at this
        cases this
  · have := h.keep j p hj hs
    rcases hm.place j with e | ⟨e, _⟩
    · rw [e]; exact this
    · rw [this] at e; cases e

theorem diskRound_both {ex fuel : Nat} {db0 db db' : Db} {disk0 disk : Disk} {tmp tmp' : Nat → Bool} (hs : Ghosts.Sound ex db0) (h : Both ex fuel db0 db disk0 disk tmp)
    (ho : ∀ i n, db0.node i = some n → n.kind = .generatedDir → disk0.other i = false)
    (hr : Ghosts.round ex db tmp = .next db' tmp') (hi : Ghosts.Inv ex db0 db' tmp') : ∃ disk', diskRound ex fuel db disk = some disk' ∧ Both ex fuel db0 db' disk0 disk' tmp' := by
  unfold diskRound
  rcases round_target (h.inv.sound hs) h.inv.listed hr with ⟨h1, h2⟩ | ⟨i, n, h1, h2, h3, h4⟩
  · rw [h1]
    have hpath : ∀ {k j : Nat}, Path db disk k j → Path db' disk k j := by
      intro k j hp
      induction hp with
      | top g => exact .top (by rw [h2]; exact g)
      | step g1 g2 g3 _ ih => exact .step g1 (by rw [h2]; exact g2) g3 ih
    refine ⟨disk, rfl, hi, ⟨fun j p hj => ?_, fun i n hn hk => ?_⟩, h.other, fun j p hj => ?_, fun j p hj hsm => ?_⟩
    · rw [h2]; exact h.step.known j p hj
    · rw [h2] at hn
      obtain ⟨g1, k, g2, g3⟩ := h.step.way i n hn hk
      exact ⟨g1, k, g2, hpath g3⟩
    · rw [h2]; exact h.from_ j p hj
    · rw [h2] at hsm; exact h.keep j p hj hsm
  · rw [h1]
    dsimp only
    by_cases hk : n.kind = .generatedDir
    · obtain ⟨d1, d2, e1, e2, e3, e4⟩ := rmDir_spec h.step h2 hk h3 (by rw [h.other]; exact ho i n (h.inv.sub i n h2) hk)
      have hB := h.made e2
      refine ⟨d2, e1, hi, ⟨fun j p hj => ?_, fun j m hm hkm => ?_⟩, e3.trans h.other, fun j p hj => ?_, fun j p hj hsm => ?_⟩
      · rw [e4] at hj
        by_cases hji : j = i
        · rw [if_pos hji] at hj; cases hj
        · rw [if_neg hji] at hj
          rw [h4, if_neg hji]
          exact hB.step.known j p hj
      · rw [h4] at hm
        by_cases hji : j = i
        · rw [if_pos hji] at hm; cases hm
        · rw [if_neg hji] at hm
          obtain ⟨g1, k, g2, g3⟩ := hB.step.way j m hm hkm
          exact ⟨g1, k, g2, g3.remove h4 e4 h3 hji⟩
      · rw [e4] at hj
        by_cases hji : j = i
        · rw [if_pos hji] at hj; cases hj
        · rw [if_neg hji] at hj
          rw [h4, if_neg hji]
          exact hB.from_ j p hj
      · rw [h4] at hsm
        by_cases hji : j = i
        · rw [if_pos hji] at hsm; cases hsm
        · rw [if_neg hji] at hsm
          rw [e4, if_neg hji]
          exact hB.keep j p hj hsm
    · refine ⟨disk, by unfold rmDir; rw [if_neg hk], hi, ?_, h.other, ?_, ?_⟩
      · have hgone : disk.place i = none := by
          cases hp : disk.place i with
          | none => rfl
          | some p =>
            exfalso
            obtain ⟨m, g1, _, g3, g4⟩ := h.step.known i p hp
            rw [h2] at g1
            cases g1
            have hd : Ghosts.Dead ex db0 i := hi.gone i (by rw [h.inv.sub i n h2]; rfl) (by rw [h4, if_pos rfl])
            cases hd with
            | mk hpl _ =>
              obtain ⟨m, q1, q2, _⟩ := hpl
              rw [h.inv.sub i n h2] at q1
              cases q1
              rcases q2 with q2 | q2 | q2
              · exact g3 q2
              · exact g4 q2
              · exact hk q2
        have hdisk : ∀ j, disk.place j = if j = i then none else disk.place j := by
          intro j
          by_cases hji : j = i
          · rw [if_pos hji, hji]; exact hgone
          · rw [if_neg hji]
        refine ⟨fun j p hj => ?_, fun j m hm hkm => ?_⟩
        · rw [h4]
          by_cases hji : j = i
          · rw [hji, hgone] at hj; cases hj
          · rw [if_neg hji]; exact h.step.known j p hj
        · rw [h4] at hm
          by_cases hji : j = i
          · rw [if_pos hji] at hm; cases hm
          · rw [if_neg hji] at hm
            obtain ⟨g1, k, g2, g3⟩ := h.step.way j m hm hkm
            exact ⟨g1, k, g2, g3.remove h4 hdisk h3 hji⟩
      · intro j p hj
        obtain ⟨m, g1, _⟩ := h.step.known j p hj
        rcases h.from_ j p hj with e | ⟨e, m', e1, e2, e3⟩
        · exact .inl e
        · refine .inr ⟨e, m', ?_, e2, e3⟩
          rw [h4]
          by_cases hji : j = i
          · rw [hji, h2] at e1
            cases e1
            exact absurd e2 hk
          · rw [if_neg hji]; exact e1
      · intro j p hj hsm
        rw [h4] at hsm
        by_cases hji : j = i
        · rw [if_pos hji] at hsm; cases hsm
        · rw [if_neg hji] at hsm
          exact h.keep j p hj hsm

theorem reclaim_both {ex fuel : Nat} {db0 : Db} {disk0 : Disk} (hs : Ghosts.Sound ex db0) (ho : ∀ i n, db0.node i = some n → n.kind = .generatedDir → disk0.other i = false) :
    ∀ (m : Nat) (db : Db) (disk : Disk) (tmp : Nat → Bool), Both ex fuel db0 db disk0 disk tmp → ((∀ j, db.ghosts j = false) → ∀ j, tmp j = false) → Ghosts.measure db tmp ≤ m →
    ∃ db' disk', reclaim ex fuel (m + 1) db disk tmp = some (some (db', disk')) ∧ Ghosts.loop ex (m + 1) db tmp = some (.done db') ∧ Both ex fuel db0 db' disk0 disk' (fun _ => false) := by
  intro m
  induction m with
  | zero =>
    intro db disk tmp h ht hm
    rcases Ghosts.round_inv hs h.inv with ⟨h1, h2⟩ | ⟨_, _, _, _, h3, _⟩
    · refine ⟨db, disk, by simp only [reclaim, h1], by simp only [Ghosts.loop, h1], ?_⟩
      have : tmp = fun _ => false := funext (ht h2)
      rw [← this]
      exact h
    · omega
  | succ m ih =>
    intro db disk tmp h ht hm
    rcases Ghosts.round_inv hs h.inv with ⟨h1, h2⟩ | ⟨db', tmp', h1, h2, h3, h4⟩
    · refine ⟨db, disk, by simp only [reclaim, h1], by simp only [Ghosts.loop, h1], ?_⟩
      have : tmp = fun _ => false := funext (ht h2)
      rw [← this]
      exact h
    · obtain ⟨d', e1, e2⟩ := diskRound_both hs h ho h1 h2
      obtain ⟨x, y, g1, g2, g3⟩ := ih db' d' tmp' e2 h4 (by omega)
      exact ⟨x, y, by rw [reclaim, h1]; dsimp only; rw [e1]; exact g1, by rw [Ghosts.loop, h1]; exact g2, g3⟩

theorem reclaim_mono {ex fuel : Nat} : ∀ (k l : Nat) (db : Db) (disk : Disk) (tmp : Nat → Bool) (r : Option (Db × Disk)), reclaim ex fuel k db disk tmp = some r →
    reclaim ex fuel (k + l) db disk tmp = some r := by
  intro k
  induction k with
  | zero => intro l db disk tmp r h; cases h
  | succ k ih =>
    intro l db disk tmp r h
    rw [Nat.succ_add]
    unfold reclaim at h ⊢
    cases hr : Ghosts.round ex db tmp with
    | done d => rw [hr] at h; exact h
    | internalError => rw [hr] at h; exact h
    | next d t =>
      rw [hr] at h
      dsimp only at h ⊢
      cases hd : diskRound ex fuel db disk with
      | none => rw [hd] at h; exact h
      | some d' => rw [hd] at h; exact ih l d d' t r h

theorem ends_unique {ex fuel : Nat} {db : Db} {disk : Disk} {r r' : Option (Db × Disk)} (h : Ends ex fuel db disk r) (h' : Ends ex fuel db disk r') : r = r' := by
  obtain ⟨k, hk⟩ := h
  obtain ⟨l, hl⟩ := h'
  have a := reclaim_mono k l _ _ _ _ hk
  have b := reclaim_mono l k _ _ _ _ hl
  rw [Nat.add_comm, a] at b
  cases b
  rfl

theorem openDir_made {db : Db} : ∀ (fuel : Nat) (disk : Disk) (i : Nat) (disk' : Disk), openDir fuel db disk i = some disk' → Made db disk disk' := by
  intro fuel
  induction fuel with
  | zero => intro _ _ _ h; cases h
  | succ fuel ih =>
    intro disk i disk' h
    unfold openDir at h
    cases hn : db.node i with
    | none => rw [hn] at h; cases h
    | some n =>
      rw [hn] at h
      dsimp only at h
      by_cases hi : i = 1
      · rw [if_pos hi] at h; cases h; exact .refl _ _
      · rw [if_neg hi] at h
        cases ho : openDir fuel db disk n.dir with
        | none => rw [ho] at h; cases h
        | some d1 =>
          rw [ho] at h
          dsimp only at h
          have e2 := ih disk n.dir d1 ho
          cases hpl : d1.place i with
          | some p => rw [hpl] at h; cases h; exact e2
          | none =>
            rw [hpl] at h
            rw [if_neg (by simp)] at h
            by_cases hgd : n.kind = .generatedDir
            · rw [if_pos hgd] at h
              cases h
              refine ⟨e2.other, fun j => ?_⟩
              dsimp only
              by_cases hj : j = i
              · rw [if_pos hj, hj]
                right
                refine ⟨?_, n, hn, hgd, rfl⟩
                rcases e2.place i with e | ⟨e, _⟩
                · rw [← e]; exact hpl
                · exact e
              · rw [if_neg hj]
                exact e2.place j
            · rw [if_neg hgd] at h; cases h

theorem made_keep {db : Db} {disk disk' : Disk} (h : Made db disk disk') {j p : Nat} (hj : disk.place j = some p) : disk'.place j = some p := by
  rcases h.place j with e | ⟨e, _⟩
  · rw [e]; exact hj
  · rw [hj] at e; cases e

/-- A directory in which there is something unknown is not removed. -/
theorem reclaim_stuck {ex fuel : Nat} {db0 : Db} (hs : Ghosts.Sound ex db0) {i : Nat} {n : Node} (hk : n.kind = .generatedDir) {p : Nat} : ∀ (k : Nat) (db : Db) (disk : Disk) (tmp : Nat → Bool),
    Ghosts.Inv ex db0 db tmp → db.node i = some n → disk.place i = some p → disk.other i = true → ∀ db' disk', reclaim ex fuel k db disk tmp = some (some (db', disk')) → db'.node i = some n := by
  intro k
  induction k with
  | zero => intro _ _ _ _ _ _ _ _ _ h; cases h
  | succ k ih =>
    intro db disk tmp hi hn hp ho db' disk' h
    rw [reclaim] at h
    rcases Ghosts.round_inv hs hi with ⟨h1, h2⟩ | ⟨db1, tmp1, h1, h2, _⟩
    · rw [h1] at h
      cases h
      exact hn
    · rw [h1] at h
      dsimp only at h
      cases hd : diskRound ex fuel db disk with
      | none => rw [hd] at h; cases h
      | some d1 =>
        rw [hd] at h
        have : db1.node i = some n ∧ d1.place i = some p ∧ d1.other i = true := by
          unfold diskRound at hd
          rcases round_target (hi.sound hs) hi.listed h1 with ⟨g1, g2⟩ | ⟨x, m, g1, g2, g3, g4⟩
          · rw [g1] at hd
            cases hd
            exact ⟨by rw [g2]; exact hn, hp, ho⟩
          · rw [g1] at hd
            dsimp only at hd
            unfold rmDir at hd
            by_cases hm : m.kind = .generatedDir
            · rw [if_pos hm] at hd
              cases hop : openDir fuel db disk m.dir with
              | none => rw [hop] at hd; cases hd
              | some d2 =>
                rw [hop] at hd
                dsimp only at hd
                have hmade := openDir_made fuel disk m.dir d2 hop
                have hp2 := made_keep hmade hp
                have ho2 : d2.other i = true := by rw [hmade.other]; exact ho
                by_cases hx : x = i
                · exfalso
                  rw [hx, hp2] at hd
                  rw [if_pos (by rfl), ho2] at hd
                  simp at hd
                · have hx' : ¬ i = x := fun e => hx e.symm
                  refine ⟨by rw [g4, if_neg hx']; exact hn, ?_⟩
                  split at hd
                  · split at hd
                    · cases hd
                    · cases hd
                      exact ⟨by simp only [if_neg hx']; exact hp2, ho2⟩
                  · cases hd
                    exact ⟨hp2, ho2⟩
            · rw [if_neg hm] at hd
              cases hd
              have hx' : ¬ i = x := by
                rintro rfl
                rw [hn] at g2
                cases g2
                exact hm hk
              exact ⟨by rw [g4, if_neg hx']; exact hn, hp, ho⟩
        exact ih db1 d1 tmp1 h2 this.1 this.2.1 this.2.2 db' disk' h

/-- The loop with the disk ends if the other one does, and with the same database. -/
theorem reclaim_ends {ex fuel : Nat} : ∀ (k : Nat) (db : Db) (disk : Disk) (tmp : Nat → Bool) (x : Ghosts.Round), Ghosts.loop ex k db tmp = some x →
    ∃ r, reclaim ex fuel k db disk tmp = some r ∧ ∀ db' disk', r = some (db', disk') → x = .done db' := by
  intro k
  induction k with
  | zero => intro _ _ _ _ h; cases h
  | succ k ih =>
    intro db disk tmp x h
    rw [Ghosts.loop] at h
    rw [reclaim]
    cases hr : Ghosts.round ex db tmp with
    | done d =>
      rw [hr] at h
      cases h
      exact ⟨_, rfl, fun _ _ e => by cases e; rfl⟩
    | internalError =>
      rw [hr] at h
      cases h
      exact ⟨_, rfl, fun _ _ e => by cases e⟩
    | next d t =>
      rw [hr] at h
      dsimp only at h ⊢
      cases hd : diskRound ex fuel db disk with
      | none => exact ⟨_, rfl, fun _ _ e => by cases e⟩
      | some d' => exact ih d d' t x h

end Tup.GenDir
