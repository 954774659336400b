import Verif.FullScan.Grow

/-! One entry of a directory is deleted, with all that is in it. -/

namespace Tup.FullScan

open Tup.Db Tup.Scan

variable {db db' db1 db2 : Db} {d i j k x : Nat} {name : Str}

/-- The result for all bounds that are large enough. -/
def Lim {α : Type} (f : Nat → Option α) (a : α) : Prop := ∃ F, ∀ fuel, F ≤ fuel → f fuel = some a

theorem each_mono {f g : Db → Nat → Kind → Option Db} (hf : ∀ db i k x, f db i k = some x → g db i k = some x) :
    ∀ (l : List (Nat × Kind)) (db x : Db), eachEntry f db l = some x → eachEntry g db l = some x := by
  intro l
  induction l with
  | nil => intro db x h; exact h
  | cons e l ih =>
    obtain ⟨i, k⟩ := e
    intro db x h
    rw [eachEntry] at h ⊢
    cases h1 : f db i k with
    | none => rw [h1] at h; cases h
    | some y =>
      rw [h1] at h
      rw [hf db i k y h1]
      exact ih y x h

theorem del_mono (sort : List (Nat × Kind) → List (Nat × Kind)) (fuel : Nat) : ∀ (db : Db) (i : Nat) (k : Kind) (force : Bool) (x : Db),
    del sort fuel db i k force = some x → del sort (fuel + 1) db i k force = some x := by
  induction fuel with
  | zero => intro _ _ _ _ _ h; cases h
  | succ fuel ih =>
    intro db i k force x h
    rw [del] at h ⊢
    cases hn : db.node i with
    | none => rw [hn] at h; cases h
    | some n =>
      rw [hn] at h
      simp only at h ⊢
      by_cases hx : n.name = tupConfig
      · rw [if_pos hx] at h ⊢; exact h
      rw [if_neg hx] at h ⊢
      cases k with
      | generatedDir =>
        simp only at h ⊢
        exact each_mono (fun db i k x => ih db i k force x) _ _ _ h
      | dir =>
        simp only at h ⊢
        cases he : eachEntry (fun db j k => del sort fuel db j k (force || decide (k ≠ .dir))) (srcidDirFlags db i)
            (sort (entries (srcidDirFlags db i) i)) with
        | none => rw [he] at h; cases h
        | some y =>
          rw [he] at h
          rw [each_mono (fun db i k x => ih db i k _ x) _ _ _ he]
          exact h
      | _ => exact h

theorem del_le {sort : List (Nat × Kind) → List (Nat × Kind)} {fuel fuel' : Nat} (hle : fuel ≤ fuel') {k : Kind} {force : Bool} {x : Db}
    (h : del sort fuel db i k force = some x) : del sort fuel' db i k force = some x := by
  obtain ⟨c, rfl⟩ := Nat.le.dest hle
  induction c with
  | zero => exact h
  | succ c ih => exact del_mono sort (fuel + c) db i k force x (ih (by omega))

theorem rank_bound (r : Nat → Nat) (t : Nat) : ∃ M, ∀ j, j < t → r j < M := by
  induction t with
  | zero => exact ⟨0, fun j h => by omega⟩
  | succ t ih =>
    obtain ⟨M, hM⟩ := ih
    refine ⟨max M (r t + 1), fun j hj => ?_⟩
    by_cases h : j = t
    · rw [h]; omega
    · have := hM j (by omega); omega

/-- What lies above a node that is still there is still there. -/
theorem up (hs : ∀ j n', db'.node j = some n' → ∃ n, db.node j = some n ∧ n'.dir = n.dir ∧ n'.name = n.name) (hr : Rooted db')
    (h0 : db.node 0 = none) {c : Nat} (hb : Below db c j) : ∀ n', db'.node j = some n' → (db.node c).isSome →
      Below db' c j ∧ (db'.node c).isSome := by
  induction hb with
  | refl => intro n' hn' _; exact ⟨.refl, by rw [hn']; rfl⟩
  | step hn hb' ih =>
    intro n' hn' hc
    obtain ⟨m, m1, m2, _⟩ := hs _ n' hn'
    rw [hn] at m1
    cases m1
    rcases hr _ n' hn' with hz | hsome
    · exfalso
      rw [m2] at hz
      rw [hz] at hb'
      cases hb' with
      | refl => rw [h0] at hc; cases hc
      | step hx _ => rw [h0] at hx; cases hx
    · rw [m2] at hsome
      obtain ⟨q, hq⟩ := Option.isSome_iff_exists.1 hsome
      obtain ⟨a, b⟩ := ih q hq hc
      exact ⟨.step hn' (by rw [m2]; exact a), b⟩

theorem path_up (hs : ∀ j n', db'.node j = some n' → ∃ n, db.node j = some n ∧ n'.dir = n.dir ∧ n'.name = n.name) (hr : Rooted db')
    (h0 : db.node 0 = none) {r : Nat} {p : List Str} (ha : At db r p j) : (p ≠ [] → (db'.node j).isSome) → At db' r p j := by
  induction ha with
  | nil => exact fun _ => .nil
  | snoc hp hn hd ih =>
    intro hj
    obtain ⟨n', hn'⟩ := Option.isSome_iff_exists.1 (hj (by simp))
    obtain ⟨m, m1, m2, m3⟩ := hs _ n' hn'
    rw [hn] at m1
    cases m1
    have := At.snoc (db := db') (ih fun hne => ?_) hn' (m2.trans hd)
    · rw [m3] at this; exact this
    · rcases hr _ n' hn' with hz | hsome
      · exfalso
        rw [m2, hd] at hz
        cases hp with
        | nil => exact hne rfl
        | snoc _ hx _ => rw [hz, h0] at hx; cases hx
      · rw [m2, hd] at hsome; exact hsome

theorem path_down (hs : ∀ j n', db'.node j = some n' → ∃ n, db.node j = some n ∧ n'.dir = n.dir ∧ n'.name = n.name) {r : Nat}
    {p : List Str} (ha : At db' r p j) : At db r p j := by
  induction ha with
  | nil => exact .nil
  | snoc _ hn hd ih =>
    obtain ⟨m, m1, m2, m3⟩ := hs _ _ hn
    have := At.snoc ih m1 (m2.symm.trans hd)
    rw [← m3] at this
    exact this

/-- A directory below `i` with no `tup.config` above it is reached by the deletion of `i`. -/
theorem inside_of (hg : Good db) {n : Node} (hn : db.node i = some n) {p : Nat} (hb : Below db i p) :
    ∀ m, db.node p = some m → isDir m → ¬ InConfig db p → ∃ b, Inside db i b p := by
  induction hb with
  | refl => exact fun _ _ _ _ => ⟨false, .refl⟩
  | step hp hb' ih =>
    intro m hm hk hc
    have e := Option.some.inj (hp.symm.trans hm)
    rw [e] at hb' ih
    clear e hp
    have hp := hm
    rcases hg.housed _ m hp (.inr (.inr (.inr hk))) with ⟨_, hz⟩ | h | ⟨q, q1, q2⟩
    · rw [hz] at hb'
      exfalso
      cases hb' with
      | refl => rw [hg.zero] at hn; cases hn
      | step hx _ => rw [hg.zero] at hx; cases hx
    · exact absurd h hc
    · have hc' : ¬ InConfig db m.dir := by
        rintro ⟨y, w, y1, y2, y3⟩
        exact hc ⟨y, w, .step hp y1, y2, y3⟩
      obtain ⟨b, hb1⟩ := ih q q1 q2 hc'
      have hqx : q.name ≠ tupConfig := fun e => hc' ⟨_, q, .refl, q1, e⟩
      rcases q2 with q2 | q2
      · exact ⟨true, .dir hp hb1 q1 q2 hqx⟩
      · exact ⟨b, .generated hp hb1 q1 q2 hqx⟩

/-- The deletion of `i` with all that is in it. -/
theorem del_lim {sort : List (Nat × Kind) → List (Nat × Kind)} (hsort : ∀ l, (sort l).Perm l) (hg : Good db) {n : Node}
    (hn : db.node i = some n) (force : Bool) :
    ∃ db', Lim (fun fuel => del sort fuel db i n.kind force) db' ∧ Good db' ∧ Frame n.dir (fun a => a = n.name) db db' ∧ Since db db' ∧
      Eff (Below db i) db db' ∧ Kept db db' ∧
      ∀ b g m, Inside db i b g → db.node g = some m → m.name ≠ tupConfig → Claim (Below db i) db db' i g m (force || b) := by
  obtain ⟨r, hr⟩ := hg.ranked
  obtain ⟨M, hM⟩ := rank_bound r db.top
  have hM' : ∀ j m, db.node j = some m → r j < M := fun j m h => hM j (lt_top hg.bounded h)
  obtain ⟨db', h1, he, hc⟩ := del_spec hsort (r := r) (M := M) M db i n force hr hg.bounded hM' hn (by omega)
  have hk := kept_del hsort M db i n.kind force db' (fun m hm => by rw [hn] at hm; cases hm; exact .inl rfl) h1
  have hs : ∀ j n', db'.node j = some n' → ∃ n, db.node j = some n ∧ n'.dir = n.dir ∧ n'.name = n.name := by
    intro j n' hj
    obtain ⟨m, a, b, c, _⟩ := he.sub j n' hj
    exact ⟨m, a, b, c⟩
  have hro := he.rooted hg.bounded hg.rooted
  have hcfg : ∀ j n', db'.node j = some n' → InConfig db j → InConfig db' j := by
    rintro j n' hj ⟨y, m, y1, y2, y3⟩
    obtain ⟨a, b⟩ := up hs hro hg.zero y1 n' hj (by rw [y2]; rfl)
    obtain ⟨m', hm'⟩ := Option.isSome_iff_exists.1 b
    obtain ⟨w, w1, _, w2⟩ := hs y m' hm'
    rw [y2] at w1
    cases w1
    exact ⟨y, m', a, hm', w2.trans y3⟩
  have hgood : Good db' := by
    refine ⟨he.bounded hg.bounded, hro, ?_, ⟨r, he.ranked hr⟩, ?_, ?_⟩
    · intro a b x y ha hb hd hnm
      obtain ⟨x', a1, a2, a3⟩ := hs a x ha
      obtain ⟨y', b1, b2, b3⟩ := hs b y hb
      exact hg.unique a b x' y' a1 b1 (by rw [← a2, ← b2]; exact hd) (by rw [← a3, ← b3]; exact hnm)
    · cases h0 : db'.node 0 with
      | none => rfl
      | some q =>
        obtain ⟨w, w1, _⟩ := hs 0 q h0
        rw [hg.zero] at w1
        cases w1
    · intro j n' hj hkj
      have hgh : n'.kind ≠ .ghost := by
        rcases hkj with e | e | e | e | e <;> rw [e] <;> decide
      have hj' := hk.same hj hgh
      rcases hg.housed j n' hj' hkj with h | h | ⟨m, m1, m2⟩
      · exact .inl h
      · exact .inr (.inl (hcfg j n' hj h))
      · by_cases hcj : InConfig db j
        · exact .inr (.inl (hcfg j n' hj hcj))
        rcases hro j n' hj with hz | hsome
        · rw [hz, hg.zero] at m1; cases m1
        · obtain ⟨m', hm'⟩ := Option.isSome_iff_exists.1 hsome
          obtain ⟨w, w1, _, _, _, w2⟩ := hk.row _ m' hm'
          rw [m1] at w1
          cases w1
          rcases w2 with w2 | w2
          · exact .inr (.inr ⟨m', hm', by rw [w2]; exact m2⟩)
          · exfalso
            have hpb : Below db i n'.dir := by
              apply Classical.byContradiction
              intro hnb
              rw [he.outside _ hnb, m1] at hm'
              cases hm'
              rcases m2 with m2 | m2 <;> rw [m2] at w2 <;> cases w2
            have hcp : ¬ InConfig db n'.dir := by
              rintro ⟨y, q, y1, y2, y3⟩
              exact hcj ⟨y, q, .step hj' y1, y2, y3⟩
            have hmx : m.name ≠ tupConfig := fun e => hcp ⟨_, m, .refl, m1, e⟩
            have hjx : n'.name ≠ tupConfig := fun e => hcj ⟨_, n', .refl, hj', e⟩
            obtain ⟨b, hb⟩ := inside_of hg hn hpb m m1 m2 hcp
            have gone : Gone db' j → False := fun hgo => hgh (hgo n' hj)
            have fin : ∀ b', Inside db i b' j → (n'.kind ≠ .generated ∧ n'.kind ≠ .generatedDir) ∨ b' = true ∨ force = true → False := by
              intro b' hin hh
              have cl := hc b' j n' hin hj' hjx
              refine gone (cl.gone ?_)
              have hsoft : n'.kind = .generated ∨ n'.kind = .generatedDir → (force || b') = true := by
                intro e
                rcases hh with hh | hh | hh
                · rcases e with e | e
                  · exact absurd e hh.1
                  · exact absurd e hh.2
                · rw [hh]; simp
                · rw [hh]; simp
              rcases hkj with e | e | e | e | e
              · exact .inl (by rw [e]; decide)
              · exact .inl (by rw [e]; decide)
              · exact .inr ⟨by rw [e]; decide, hsoft (.inl e)⟩
              · exact .inl (by rw [e]; decide)
              · exact .inr ⟨by rw [e]; decide, hsoft (.inr e)⟩
            rcases m2 with m2 | m2
            · exact fin true (.dir hj' hb m1 m2 hmx) (.inr (.inl rfl))
            · by_cases hh : (n'.kind ≠ .generated ∧ n'.kind ≠ .generatedDir) ∨ b = true ∨ force = true
              · exact fin b (.generated hj' hb m1 m2 hmx) hh
              · have hb0 : b = false := by
                  cases b with
                  | false => rfl
                  | true => exact absurd (.inr (.inl rfl)) hh
                have hf0 : force = false := by
                  cases force with
                  | false => rfl
                  | true => exact absurd (.inr (.inr rfl)) hh
                have := (hc b _ m hb m1 hmx).kept (.inr ⟨by rw [hb0, hf0]; rfl, .inr m2⟩)
                rw [this] at hm'
                cases hm'
                rw [m2] at w2
                cases w2
  have hfr : Frame n.dir (fun a => a = n.name) db db' := by
    have hnb : ∀ {j}, ¬ Under db n.dir (fun a => a = n.name) j → ¬ Below db i j := fun hu hb => hu ⟨i, n, hn, rfl, rfl, hb⟩
    refine ⟨fun j m hm hu => .inl (by rw [he.outside j (hnb hu)]; exact hm), ?_, fun j _ _ hu => he.create j (hnb hu),
      fun j _ _ hu => he.modify j (hnb hu)⟩
    intro j m' hm' hu
    obtain ⟨m, m1, _⟩ := hs j m' hm'
    refine ⟨m, m1, ?_⟩
    rintro ⟨y, q, y1, y2, y3, y4⟩
    obtain ⟨a, b⟩ := up hs hro hg.zero y4 m' hm' (by rw [y1]; rfl)
    obtain ⟨q', hq'⟩ := Option.isSome_iff_exists.1 b
    obtain ⟨w, w1, w2, w3⟩ := hs y q' hq'
    rw [y1] at w1
    cases w1
    exact hu ⟨y, q', hq', w2.trans y2, w3.trans y3, a⟩
  have hsince : Since db db' := by
    refine ⟨?_, ?_, ?_, hk.normal, ?_, ?_, ?_, ?_⟩
    · intro j hj
      obtain ⟨m, m1, m2⟩ := isKind_iff.1 hj
      have hgh : m.kind ≠ .ghost := by rw [m2]; decide
      exact ⟨by rw [m1, hk.same m1 hgh], hk.modify j m m1 hgh (by rw [m2]; decide)⟩
    · intro j hj hcj
      obtain ⟨m, m1, _⟩ := isKind_iff.1 hj
      exact hcfg j m m1 hcj
    · intro j m hm hkm
      exact hk.same hm (by rw [hkm]; decide)
    · intro f m j hm hkm hx hj hl
      rcases hk.link f m j hm hkm hx hj hl with a | ⟨a, b⟩
      · exact .inl a
      · refine .inr ⟨b, hk.modify f m a (by rw [hkm]; decide) (by rw [hkm]; decide), fun r p hp => ?_, m, a, hkm, rfl, .inl rfl⟩
        exact path_up hs hro hg.zero hp fun _ => by rw [a]; rfl
    · intro f m hm hkm
      exact ⟨m, hk.same hm (by rw [hkm]; decide), hkm, rfl, rfl, fun r p hp => path_down hs hp⟩
    · intro f m m' hm hm' hkm ht
      rw [hk.same hm' (by rw [hkm]; decide)] at hm
      cases hm
      exact absurd rfl ht
    · intro f m hm hkm hcf
      have hgh : m.kind ≠ .ghost := by rw [hkm]; decide
      refine .inl ⟨m, hk.same hm hgh, hkm, rfl, rfl, (fun r p hp => path_down hs hp), fun h => hcf (hcfg f m hm h), hk.modify f m hm hgh (by rw [hkm]; decide), ?_⟩
      rcases hgood.housed f m hm (.inl hkm) with ⟨e, _⟩ | h | ⟨q, q1, q2⟩
      · rcases e with e | e <;> rw [hkm] at e <;> cases e
      · exact absurd h hcf
      · exact hk.create _ q q1 (by rcases q2 with e | e <;> rw [e] <;> decide)
  exact ⟨db', ⟨M, fun fuel hf => del_le hf h1⟩, hgood, hfr, hsince, he, hk, hc⟩

end Tup.FullScan
