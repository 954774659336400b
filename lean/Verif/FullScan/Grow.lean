import Verif.FullScan.Since

/-! One entry of a directory is recorded. -/

namespace Tup.FullScan

open Tup.Db Tup.Scan

variable {db db' db1 db2 : Db} {d i j k x : Nat} {name : Str}

/-- The node `x` has been recorded as the entry of `d` with this name: it is new, or was a ghost, or had the same type before.
Directories above may have become the user's. -/
structure Grow (d : Nat) (name : Str) (x : Nat) (db db' : Db) : Prop where
  parent : ∃ m, db.node d = some m ∧ isDir m
  pos : x ≠ 0
  bounded : Bounded db'
  others : ∀ j, j ≠ x → db'.node j = db.node j ∨
    ∃ n, Below db j d ∧ db.node j = some n ∧ n.kind = .generatedDir ∧ db'.node j = some { n with kind := .dir }
  here : ∃ n, db'.node x = some n ∧ n.dir = d ∧ n.name = name ∧ (n.kind = .file ∨ n.kind = .generated ∨ isDir n) ∧
    ((db.node x = none ∧ (∀ j m, db.node j = some m → m.dir = d → m.name ≠ name)) ∨
      ∃ m, db.node x = some m ∧ m.dir = d ∧ m.name = name ∧ (m.kind = .ghost ∨ m.kind = n.kind)) ∧
    (n.kind = .generated → db.isKind .generated x = true) ∧
    (n.kind = .file → db.isKind .file x = true ∨ db'.modify x = true ∨ db'.create d = true) ∧
    (∀ m, db.node x = some m → m.kind ≠ .ghost → n.mtime ≠ m.mtime → db'.modify x = true ∧
      (n.kind = .generated → ∀ c, db.normal c x = true → db'.modify c = true))
  normal : db'.normal = db.normal
  create : ∀ j, db.create j = true → db'.create j = true
  modify : ∀ j, db.modify j = true → db'.modify j = true

/-- Every row is still there, with the same directory and name. -/
theorem Grow.row (h : Grow d name x db db') {n : Node} (hn : db.node j = some n) :
    ∃ n', db'.node j = some n' ∧ n'.dir = n.dir ∧ n'.name = n.name := by
  by_cases hj : j = x
  · obtain ⟨m, h1, h2, h3, _, h4, _⟩ := h.here
    rcases h4 with ⟨h4, _⟩ | ⟨q, h4, h5, h6, _⟩
    · rw [hj, h4] at hn; cases hn
    · rw [hj, h4] at hn
      cases hn
      exact ⟨m, by rw [hj]; exact h1, h2.trans h5.symm, h3.trans h6.symm⟩
  · rcases h.others j hj with h1 | ⟨m, _, h1, _, h2⟩
    · exact ⟨n, by rw [h1]; exact hn, rfl, rfl⟩
    · rw [hn] at h1
      cases h1
      exact ⟨_, h2, rfl, rfl⟩

/-- Every row was there before, or is the new one. -/
theorem Grow.row_back (h : Grow d name x db db') {n' : Node} (hn : db'.node j = some n') :
    (∃ n, db.node j = some n ∧ n'.dir = n.dir ∧ n'.name = n.name) ∨ (j = x ∧ db.node x = none ∧ n'.dir = d ∧ n'.name = name) := by
  by_cases hj : j = x
  · obtain ⟨m, h1, h2, h3, _, h4, _⟩ := h.here
    rw [hj, h1] at hn
    cases hn
    rcases h4 with ⟨h4, _⟩ | ⟨q, h4, h5, h6, _⟩
    · exact .inr ⟨hj, h4, h2, h3⟩
    · exact .inl ⟨q, by rw [hj]; exact h4, h2.trans h5.symm, h3.trans h6.symm⟩
  · rcases h.others j hj with h1 | ⟨m, _, h1, _, h2⟩
    · exact .inl ⟨n', by rw [← h1]; exact hn, rfl, rfl⟩
    · rw [hn] at h2
      cases h2
      exact .inl ⟨m, h1, rfl, rfl⟩

/-- The other rows have the same types, except for the directories above. -/
theorem Grow.kind (h : Grow d name x db db') {n' : Node} (hj : j ≠ x) (hn : db'.node j = some n') :
    ∃ n, db.node j = some n ∧ (n' = n ∨ (n.kind = .generatedDir ∧ n' = { n with kind := .dir })) := by
  rcases h.others j hj with h1 | ⟨m, _, h1, hk, h2⟩
  · exact ⟨n', by rw [← h1]; exact hn, .inl rfl⟩
  · rw [hn] at h2
    cases h2
    exact ⟨m, h1, .inr ⟨hk, rfl⟩⟩

theorem Grow.below (h : Grow d name x db db') {c : Nat} (hb : Below db c j) : Below db' c j := by
  induction hb with
  | refl => exact .refl
  | step hn _ ih =>
    obtain ⟨m, m1, m2, _⟩ := h.row hn
    exact .step m1 (by rw [m2]; exact ih)

theorem Grow.below_back (h : Grow d name x db db') (hg : Good db) {c : Nat} (hb : Below db' c j) :
    ∀ n, db.node j = some n → Below db c j := by
  induction hb with
  | refl => exact fun _ _ => .refl
  | step hn' hb' ih =>
    intro n hn
    obtain ⟨m, m1, m2, _⟩ := h.row hn
    rw [hn'] at m1
    cases m1
    rw [m2] at hb' ih
    rcases hg.rooted _ n hn with hz | hs
    · rw [hz] at hb'
      have h0 : db'.node 0 = none := by
        cases h0 : db'.node 0 with
        | none => rfl
        | some q =>
          rcases h.row_back h0 with ⟨w, w1, _⟩ | ⟨w, _⟩
          · rw [hg.zero] at w1; cases w1
          · exact absurd w.symm h.pos
      cases hb' with
      | refl => exact .step hn (by rw [hz]; exact .refl)
      | step hx _ => rw [h0] at hx; cases hx
    · obtain ⟨q, hq⟩ := Option.isSome_iff_exists.1 hs
      exact .step hn (ih q hq)

theorem Grow.config (h : Grow d name x db db') (hc : InConfig db j) : InConfig db' j := by
  obtain ⟨y, m, h2, h3, h4⟩ := hc
  obtain ⟨m', b1, _, b2⟩ := h.row h3
  exact ⟨y, m', h.below h2, b1, b2.trans h4⟩

theorem Grow.path (h : Grow d name x db db') {r : Nat} {p : List Str} (ha : At db r p j) : At db' r p j := by
  induction ha with
  | nil => exact .nil
  | snoc _ hn hd ih =>
    obtain ⟨n', a1, a2, a3⟩ := h.row hn
    have := At.snoc ih a1 (a2.trans hd)
    rw [a3] at this
    exact this

theorem Grow.good (h : Grow d name x db db') (hg : Good db) : Good db' := by
  obtain ⟨nx, x1, x2, x3, xk, x4, _⟩ := h.here
  obtain ⟨md, d1, d2⟩ := h.parent
  have hdx : d ≠ x := by
    rintro rfl
    rcases x4 with ⟨x4, _⟩ | ⟨m, x4, x5, _⟩
    · rw [d1] at x4; cases x4
    · obtain ⟨r, hr⟩ := hg.ranked
      have := hr d m x4
      rw [x5] at this
      omega
  have hdir : ∀ j m, db.node j = some m → isDir m → ∃ m', db'.node j = some m' ∧ isDir m' := by
    intro j m hm hk
    by_cases hj : j = x
    · rcases x4 with ⟨x4, _⟩ | ⟨q, x4, _, _, x6⟩
      · rw [hj, x4] at hm; cases hm
      · rw [hj, x4] at hm
        cases hm
        refine ⟨nx, by rw [hj]; exact x1, ?_⟩
        rcases x6 with x6 | x6
        · rcases hk with hk | hk <;> rw [hk] at x6 <;> cases x6
        · unfold isDir; rw [← x6]; exact hk
    · rcases h.others j hj with h1 | ⟨q, _, h1, _, h2⟩
      · exact ⟨m, by rw [h1]; exact hm, hk⟩
      · exact ⟨_, h2, .inl rfl⟩
  refine ⟨h.bounded, ?_, ?_, ?_, ?_, ?_⟩
  · intro j n' hn'
    rcases h.row_back hn' with ⟨n, a1, a2, _⟩ | ⟨_, _, a, _⟩
    · rw [a2]
      rcases hg.rooted j n a1 with b | b
      · exact .inl b
      · obtain ⟨q, hq⟩ := Option.isSome_iff_exists.1 b
        obtain ⟨q', b1, _⟩ := h.row hq
        right; rw [b1]; rfl
    · obtain ⟨q', b1, _⟩ := h.row d1
      right; rw [a, b1]; rfl
  · intro a b n m ha hb hd hn
    rcases h.row_back ha with ⟨n', a1, a2, a3⟩ | ⟨a0, a1, a2, a3⟩ <;>
      rcases h.row_back hb with ⟨m', b1, b2, b3⟩ | ⟨b0, b1, b2, b3⟩
    · exact hg.unique a b n' m' a1 b1 (by rw [← a2, ← b2]; exact hd) (by rw [← a3, ← b3]; exact hn)
    · rcases x4 with ⟨_, x5⟩ | ⟨q, x4, _⟩
      · exact absurd (by rw [← a3, hn, b3]) (x5 a n' a1 (by rw [← a2, hd, b2]))
      · rw [b1] at x4; cases x4
    · rcases x4 with ⟨_, x5⟩ | ⟨q, x4, _⟩
      · exact absurd (by rw [← b3, ← hn, a3]) (x5 b m' b1 (by rw [← b2, ← hd, a2]))
      · rw [a1] at x4; cases x4
    · rw [a0, b0]
  · obtain ⟨r, hr⟩ := hg.ranked
    rcases x4 with ⟨x4, _⟩ | ⟨q, x4, x5, _⟩
    · refine ⟨fun j => if j = x then r d + 1 else r j, ?_⟩
      intro j n' hn'
      rcases h.row_back hn' with ⟨n, a1, a2, _⟩ | ⟨a0, _, a2, _⟩
      · have hj : j ≠ x := by rintro rfl; rw [x4] at a1; cases a1
        have hnd : n.dir ≠ x := by
          intro hc
          rcases hg.rooted j n a1 with b | b
          · exact h.pos (hc.symm.trans b)
          · rw [hc, x4] at b; cases b
        rw [a2]
        simp only [if_neg hj, if_neg hnd]
        exact hr j n a1
      · rw [a2, a0]
        simp only [if_neg hdx, if_true]
        omega
    · refine ⟨r, ?_⟩
      intro j n' hn'
      rcases h.row_back hn' with ⟨n, a1, a2, _⟩ | ⟨_, a1, _⟩
      · rw [a2]; exact hr j n a1
      · rw [a1] at x4; cases x4
  · cases h0 : db'.node 0 with
    | none => rfl
    | some q =>
      rcases h.row_back h0 with ⟨w, w1, _⟩ | ⟨w, _⟩
      · rw [hg.zero] at w1; cases w1
      · exact absurd w.symm h.pos
  · intro j n' hn' hk
    by_cases hj : j = x
    · rw [hj, x1] at hn'
      cases hn'
      obtain ⟨m', b1, b2⟩ := hdir d md d1 d2
      exact .inr (.inr ⟨m', by rw [x2]; exact b1, b2⟩)
    · obtain ⟨n, a1, a2⟩ := h.kind hj hn'
      have hk' : n.kind = .file ∨ n.kind = .cmd ∨ n.kind = .generated ∨ isDir n := by
        rcases a2 with a2 | ⟨a2, _⟩
        · rw [← a2]; exact hk
        · exact .inr (.inr (.inr (.inr a2)))
      have hdd : n'.dir = n.dir := by
        rcases a2 with a2 | ⟨_, a2⟩ <;> rw [a2]
      rcases hg.housed j n a1 hk' with ⟨b1, b2⟩ | b | ⟨m, b1, b2⟩
      · refine .inl ⟨?_, hdd.trans b2⟩
        rcases a2 with a2 | ⟨_, a2⟩
        · rw [a2]; exact b1
        · rw [a2]; exact .inl rfl
      · exact .inr (.inl (h.config b))
      · obtain ⟨m', c1, c2⟩ := hdir _ m b1 b2
        exact .inr (.inr ⟨m', by rw [hdd]; exact c1, c2⟩)

theorem Grow.path_back (h : Grow d name x db db') (hg : Good db) {r : Nat} {p : List Str} (ha : At db' r p j) :
    (p ≠ [] → (db.node j).isSome) → At db r p j := by
  induction ha with
  | nil => exact fun _ => .nil
  | @snoc p i j n' hp hn hd ih =>
    intro hj
    obtain ⟨n, hn0⟩ := Option.isSome_iff_exists.1 (hj (by simp))
    obtain ⟨q, q1, q2, q3⟩ := h.row hn0
    rw [hn] at q1
    cases q1
    have := At.snoc (db := db) (ih fun hne => ?_) hn0 (q2.symm.trans hd)
    · rw [← q3] at this; exact this
    · rcases hg.rooted j n hn0 with hz | hs
      · exfalso
        rw [← q2, hd] at hz
        cases hp with
        | nil => exact hne rfl
        | snoc _ hx _ => rw [hz, (h.good hg).zero] at hx; cases hx
      · rw [← q2, hd] at hs; exact hs

theorem Grow.frame (h : Grow d name x db db') (hg : Good db) : Frame d (fun a => a = name) db db' := by
  obtain ⟨nx, x1, x2, x3, xk, x4, _⟩ := h.here
  have hux : Under db' d (fun a => a = name) x := ⟨x, nx, x1, x2, x3, .refl⟩
  refine ⟨?_, ?_, fun j _ _ _ => h.create j, fun j _ _ _ => h.modify j⟩
  · intro j n hn hu
    by_cases hj : j = x
    · exfalso
      rcases x4 with ⟨x4, _⟩ | ⟨q, x4, x5, x6, _⟩
      · rw [hj, x4] at hn; cases hn
      · exact hu (by rw [hj]; exact ⟨x, q, x4, x5, x6, .refl⟩)
    · rcases h.others j hj with h1 | ⟨m, hb, h1, hk, h2⟩
      · exact .inl (by rw [h1]; exact hn)
      · rw [hn] at h1
        cases h1
        exact .inr ⟨hb, hk, h2⟩
  · intro j n' hn' hu
    rcases h.row_back hn' with ⟨n, a1, _⟩ | ⟨a0, _⟩
    · refine ⟨n, a1, ?_⟩
      rintro ⟨y, m, y1, y2, y3, y4⟩
      obtain ⟨m', b1, b2, b3⟩ := h.row y1
      exact hu ⟨y, m', b1, b2.trans y2, b3.trans y3, h.below y4⟩
    · exact absurd (by rw [a0]; exact hux) hu

theorem Grow.since (h : Grow d name x db db') (hg : Good db) : Since db db' := by
  obtain ⟨nx, x1, x2, x3, xk, x4, x5, x6, x7⟩ := h.here
  have hxk : nx.kind ≠ .cmd ∧ nx.kind ≠ .group := by
    rcases xk with e | e | e | e <;> rw [e] <;> decide
  have hsame : ∀ j n', j ≠ x → db'.node j = some n' → n'.kind ≠ .dir → db.node j = some n' := by
    intro j n' hj hn' hk
    obtain ⟨n, a1, a2⟩ := h.kind hj hn'
    rcases a2 with a2 | ⟨_, a2⟩
    · rw [a2]; exact a1
    · rw [a2] at hk; exact absurd rfl hk
  refine ⟨?_, fun _ _ => h.config, ?_, ?_, ?_, ?_, ?_, ?_⟩
  · intro j hj
    obtain ⟨m, m1, m2⟩ := isKind_iff.1 hj
    have hjx : j ≠ x := by
      rintro rfl
      rw [x1] at m1
      cases m1
      exact hxk.1 m2
    exact ⟨by rw [m1, hsame j m hjx m1 (by rw [m2]; decide)], h.modify j⟩
  · intro j n hn hk
    have hjx : j ≠ x := by
      rintro rfl
      rw [x1] at hn
      cases hn
      exact hxk.2 hk
    exact hsame j n hjx hn (by rw [hk]; decide)
  · intro a b hl
    rw [← h.normal]; exact hl
  · intro f n j hn hk _ _ hl
    refine .inr ⟨by rw [h.normal]; exact hl, h.modify f, fun r p => h.path, ?_⟩
    by_cases hf : f = x
    · rw [hf] at hn ⊢
      rcases x4 with ⟨x4, _⟩ | ⟨q, y1, y2, y3, y4⟩
      · rw [x4] at hn; cases hn
      · rw [hn] at y1
        cases y1
        have hkk : nx.kind = .file := by
          rcases y4 with y4 | y4
          · rw [hk] at y4; cases y4
          · rw [← y4]; exact hk
        refine ⟨nx, x1, hkk, x3.trans y3.symm, ?_⟩
        by_cases ht : nx.mtime = n.mtime
        · exact .inl ht
        · exact .inr (x7 n hn (by rw [hk]; decide) ht).1
    · rcases h.others f hf with h1 | ⟨m, _, h1, hkm, _⟩
      · exact ⟨n, by rw [h1]; exact hn, hk, rfl, .inl rfl⟩
      · rw [hn] at h1
        cases h1
        rw [hk] at hkm
        cases hkm
  · intro f n' hn' hk
    by_cases hf : f = x
    · rw [hf, x1] at hn'
      cases hn'
      obtain ⟨m, m1, m2⟩ := isKind_iff.1 (x5 hk)
      rcases x4 with ⟨x4, _⟩ | ⟨q, y1, y2, y3, _⟩
      · rw [x4] at m1; cases m1
      · rw [m1] at y1
        cases y1
        exact ⟨m, by rw [hf]; exact m1, m2, y2.trans x2.symm, y3.trans x3.symm, fun r p hp => h.path_back hg hp fun _ => by
          rw [hf, m1]; rfl⟩
    · have := hsame f n' hf hn' (by rw [hk]; decide)
      exact ⟨n', this, hk, rfl, rfl, fun r p hp => h.path_back hg hp fun _ => by rw [this]; rfl⟩
  · intro f n n' hn hn' hk ht c _ hl
    by_cases hf : f = x
    · rw [hf] at hn hn' hl
      rw [x1] at hn'
      cases hn'
      obtain ⟨m, m1, m2⟩ := isKind_iff.1 (x5 hk)
      rw [hn] at m1
      cases m1
      exact (x7 n hn (by rw [m2]; decide) ht).2 hk c (by rw [← h.normal]; exact hl)
    · rw [hsame f n' hf hn' (by rw [hk]; decide)] at hn
      cases hn
      exact absurd rfl ht
  · intro f n' hn' hk hc
    by_cases hf : f = x
    · rw [hf, x1] at hn'
      cases hn'
      rcases x6 hk with a | a | a
      · obtain ⟨m, m1, m2⟩ := isKind_iff.1 a
        rcases x4 with ⟨x4, _⟩ | ⟨q, y1, y2, y3, _⟩
        · rw [x4] at m1; cases m1
        · rw [m1] at y1
          cases y1
          exact .inl ⟨m, by rw [hf]; exact m1, m2, y2.trans x2.symm, y3.trans x3.symm, (fun r p hp => h.path_back hg hp fun _ => by
            rw [hf, m1]; rfl), fun hx => hc (h.config hx), h.modify f,
            h.create m.dir⟩
      · exact .inr (.inl (by rw [hf]; exact a))
      · exact .inr (.inr (by rw [x2]; exact a))
    · have e := hsame f n' hf hn' (by rw [hk]; decide)
      exact .inl ⟨n', e, hk, rfl, rfl, (fun r p hp => h.path_back hg hp fun _ => by rw [e]; rfl), fun hx => hc (h.config hx), h.modify f, h.create n'.dir⟩

end Tup.FullScan
