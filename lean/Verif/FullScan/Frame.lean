import Verif.FullScan.Model
import Verif.Scan.Mod

/-! What lies elsewhere is left alone. -/

namespace Tup.FullScan

open Tup.Db Tup.Scan

variable {db db' db1 db2 : Db} {d i j k : Nat} {name : Str} {N N1 N2 : Str → Prop}

/-- `j` is, or lies below, an entry of `d` whose name is in `N`. -/
def Under (db : Db) (d : Nat) (N : Str → Prop) (j : Nat) : Prop :=
  ∃ i n, db.node i = some n ∧ n.dir = d ∧ N n.name ∧ Below db i j

/-- `j` is a node with the name `tup.config`, or lies below one. -/
def InConfig (db : Db) (j : Nat) : Prop := ∃ x m, Below db x j ∧ db.node x = some m ∧ m.name = tupConfig

/-- A directory, made by the user or by tup. -/
def isDir (n : Node) : Prop := n.kind = .dir ∨ n.kind = .generatedDir

/-- The nodes form a forest, names are unique, and files, directories and commands lie in directories. -/
structure Good (db : Db) : Prop where
  bounded : Bounded db
  rooted : Rooted db
  unique : Unique db
  ranked : ∃ r, Ranked r db
  zero : db.node 0 = none
  housed : ∀ j n, db.node j = some n → n.kind = .file ∨ n.kind = .cmd ∨ n.kind = .generated ∨ isDir n →
    (isDir n ∧ n.dir = 0) ∨ InConfig db j ∨
    ∃ m, db.node n.dir = some m ∧ isDir m

/-- Only what is in `d` under the names `N` has been touched; a directory above may have become the user's. -/
structure Frame (d : Nat) (N : Str → Prop) (db db' : Db) : Prop where
  keep : ∀ j n, db.node j = some n → ¬ Under db d N j → db'.node j = some n ∨
    (Below db j d ∧ n.kind = .generatedDir ∧ db'.node j = some { n with kind := .dir })
  back : ∀ j n', db'.node j = some n' → ¬ Under db' d N j → ∃ n, db.node j = some n ∧ ¬ Under db d N j
  create : ∀ j n, db.node j = some n → ¬ Under db d N j → db.create j = true → db'.create j = true
  modify : ∀ j n, db.node j = some n → ¬ Under db d N j → db.modify j = true → db'.modify j = true

theorem Below.up {n : Node} (hn : db.node i = some n) (h : Below db i j) : Below db n.dir j := by
  have : Below db n.dir i := .step hn .refl
  exact this.trans h

theorem Below.antisymm {r : Nat → Nat} (hr : Ranked r db) (h : Below db i j) (h' : Below db j i) : i = j := by
  rcases h.rank hr with h1 | h1
  · exact h1.symm
  · rcases h'.rank hr with h2 | h2
    · exact h2
    · omega

theorem Frame.refl (d : Nat) (N : Str → Prop) (db : Db) : Frame d N db db where
  keep := fun _ _ h _ => .inl h
  back := fun _ n h hu => ⟨n, h, hu⟩
  create := fun _ _ _ _ h => h
  modify := fun _ _ _ _ h => h

/-- What is kept has the same directory and name. -/
theorem Frame.kept (h : Frame d N db db') {n : Node} (hn : db.node j = some n) (hu : ¬ Under db d N j) :
    ∃ n', db'.node j = some n' ∧ n'.dir = n.dir ∧ n'.name = n.name ∧ n'.mtime = n.mtime ∧
      (n'.kind = n.kind ∨ (n.kind = .generatedDir ∧ n'.kind = .dir)) := by
  rcases h.keep j n hn hu with h1 | ⟨_, h2, h3⟩
  · exact ⟨n, h1, rfl, rfl, rfl, .inl rfl⟩
  · exact ⟨_, h3, rfl, rfl, rfl, .inr ⟨h2, rfl⟩⟩

theorem Under.step {n : Node} (hn : db.node j = some n) (h : Under db d N n.dir) : Under db d N j := by
  obtain ⟨i, m, h1, h2, h3, h4⟩ := h
  exact ⟨i, m, h1, h2, h3, .step hn h4⟩

theorem Under.mono (hN : ∀ a, N1 a → N2 a) (h : Under db d N1 j) : Under db d N2 j := by
  obtain ⟨i, m, h1, h2, h3, h4⟩ := h
  exact ⟨i, m, h1, h2, hN _ h3, h4⟩

/-- The nodes above one that is kept are the same afterwards. -/
theorem Frame.below_back (h : Frame d N db db') (hg : Good db) (h0 : db'.node 0 = none) {c : Nat} (hb : Below db' c j) :
    ∀ n, db.node j = some n → ¬ Under db d N j → Below db c j ∧ (c = 0 ∨ ((db.node c).isSome ∧ ¬ Under db d N c)) := by
  induction hb with
  | refl => exact fun n hn hu => ⟨.refl, .inr ⟨by rw [hn]; rfl, hu⟩⟩
  | step hn' hb' ih =>
    intro n hn hu
    obtain ⟨m, m1, m2, _⟩ := h.kept hn hu
    rw [hn'] at m1
    cases m1
    rw [m2] at hb' ih
    rcases hg.rooted _ n hn with hz | hs
    · rw [hz] at hb'
      cases hb' with
      | refl => exact ⟨.step hn (by rw [hz]; exact .refl), .inl rfl⟩
      | step hx _ => rw [h0] at hx; cases hx
    · obtain ⟨q, hq⟩ := Option.isSome_iff_exists.1 hs
      obtain ⟨a, b⟩ := ih q hq (fun hx => hu (.step hn hx))
      exact ⟨.step hn a, b⟩

theorem Frame.below (h : Frame d N db db') (hg : Good db) {c : Nat} (hb : Below db c j) : ¬ Under db d N j → Below db' c j := by
  induction hb with
  | refl => exact fun _ => .refl
  | step hn hb' ih =>
    intro hu
    obtain ⟨m, m1, m2, _⟩ := h.kept hn hu
    exact .step m1 (by rw [m2]; exact ih fun hx => hu (.step hn hx))

/-- What has not been touched is still elsewhere. -/
theorem Frame.elsewhere (h : Frame d N db db') (hg : Good db) (h0 : db'.node 0 = none) {n : Node} (hn : db.node j = some n)
    (hu : ¬ Under db d N j) : ¬ Under db' d N j := by
  rintro ⟨i, m, h1, h2, h3, h4⟩
  obtain ⟨a, b⟩ := h.below_back hg h0 h4 n hn hu
  rcases b with b | ⟨b, b'⟩
  · rw [b, h0] at h1
    cases h1
  · obtain ⟨q, hq⟩ := Option.isSome_iff_exists.1 b
    obtain ⟨m', m1, m2, m3, _⟩ := h.kept hq b'
    rw [h1] at m1
    cases m1
    exact hu ⟨i, q, hq, by rw [← m2]; exact h2, by rw [← m3]; exact h3, a⟩

theorem not_under_or (h : ¬ Under db d (fun a => N1 a ∨ N2 a) j) : ¬ Under db d N1 j ∧ ¬ Under db d N2 j :=
  ⟨fun hx => h (hx.mono fun _ => .inl), fun hx => h (hx.mono fun _ => .inr)⟩

/-- If nothing under `N1` is touched, what is not under `N2` is not under it afterwards. -/
theorem Frame.other (h : Frame d N1 db db') (hg : Good db) (h0 : db'.node 0 = none) {n : Node} (hn : db.node j = some n)
    (hu : ¬ Under db d N1 j) (hu2 : ¬ Under db d N2 j) : ¬ Under db' d N2 j := by
  rintro ⟨i, m, h1, h2, h3, h4⟩
  obtain ⟨a, b⟩ := h.below_back hg h0 h4 n hn hu
  rcases b with b | ⟨b, b'⟩
  · rw [b, h0] at h1
    cases h1
  · obtain ⟨q, hq⟩ := Option.isSome_iff_exists.1 b
    obtain ⟨m', m1, m2, m3, _⟩ := h.kept hq b'
    rw [h1] at m1
    cases m1
    exact hu2 ⟨i, q, hq, by rw [← m2]; exact h2, by rw [← m3]; exact h3, a⟩

theorem Frame.trans (h : Frame d N1 db db1) (h' : Frame d N2 db1 db2) (hg : Good db) (hg1 : Good db1) (hrow : (db.node d).isSome) :
    Frame d (fun a => N1 a ∨ N2 a) db db2 where
  keep := fun j n hn hu => by
    obtain ⟨u1, u2⟩ := not_under_or hu
    have e := h.other hg hg1.zero hn u1 u2
    rcases h.keep j n hn u1 with k | ⟨k1, k2, k3⟩
    · rcases h'.keep j n k e with k' | ⟨k1', k2', k3'⟩
      · exact .inl k'
      · by_cases hd : Under db d N1 d
        · exfalso
          obtain ⟨i, m, q1, q2, _, q4⟩ := hd
          obtain ⟨r, hr⟩ := hg.ranked
          have := hr i m q1
          rw [q2] at this
          rcases q4.rank hr with e | e
          · rw [e] at this; omega
          · omega
        · refine .inr ⟨?_, k2', k3'⟩
          cases hdn : db.node d with
          | none => rw [hdn] at hrow; cases hrow
          | some q => exact (h.below_back hg hg1.zero k1' q hdn hd).1
    · rcases h'.keep j _ k3 e with k' | ⟨_, k2', _⟩
      · exact .inr ⟨k1, k2, k'⟩
      · cases k2'
  back := fun j n' hn' hu => by
    obtain ⟨u1, u2⟩ := not_under_or hu
    obtain ⟨m, hm, hmu⟩ := h'.back j n' hn' u2
    have hm1 : ¬ Under db1 d N1 j := by
      rintro ⟨i, q, q1, q2, q3, q4⟩
      have hi : ¬ Under db1 d N2 i := by
        rintro ⟨x, y, y1, y2, y3, y4⟩
        exact hmu ⟨x, y, y1, y2, y3, y4.trans q4⟩
      obtain ⟨q', a1, a2, a3, _⟩ := h'.kept q1 hi
      exact u1 ⟨i, q', a1, by rw [a2]; exact q2, by rw [a3]; exact q3, h'.below hg1 q4 hmu⟩
    obtain ⟨l, hl, hlu⟩ := h.back j m hm hm1
    refine ⟨l, hl, ?_⟩
    rintro ⟨i, q, q1, q2, q3, q4⟩
    rcases q3 with q3 | q3
    · exact hlu ⟨i, q, q1, q2, q3, q4⟩
    · have hi : ¬ Under db d N1 i := by
        rintro ⟨x, y, y1, y2, y3, y4⟩
        exact hlu ⟨x, y, y1, y2, y3, y4.trans q4⟩
      obtain ⟨q', a1, a2, a3, _⟩ := h.kept q1 hi
      exact hmu ⟨i, q', a1, by rw [a2]; exact q2, by rw [a3]; exact q3, h.below hg q4 hlu⟩
  create := fun j n hn hu hc => by
    obtain ⟨u1, u2⟩ := not_under_or hu
    obtain ⟨m, m1, _⟩ := h.kept hn u1
    exact h'.create j m m1 (h.other hg hg1.zero hn u1 u2) (h.create j n hn u1 hc)
  modify := fun j n hn hu hc => by
    obtain ⟨u1, u2⟩ := not_under_or hu
    obtain ⟨m, m1, _⟩ := h.kept hn u1
    exact h'.modify j m m1 (h.other hg hg1.zero hn u1 u2) (h.modify j n hn u1 hc)

theorem Frame.mono (h : Frame d N1 db db') (hN : ∀ a, N1 a → N2 a) (hg : Good db) (h0 : db'.node 0 = none) :
    Frame d N2 db db' where
  keep := fun j n hn hu => h.keep j n hn fun hx => hu (hx.mono hN)
  back := fun j n' hn' hu => by
    obtain ⟨n, hn, hnu⟩ := h.back j n' hn' fun hx => hu (hx.mono hN)
    refine ⟨n, hn, ?_⟩
    rintro ⟨i, q, q1, q2, q3, q4⟩
    have hi : ¬ Under db d N1 i := by
      rintro ⟨x, y, y1, y2, y3, y4⟩
      exact hnu ⟨x, y, y1, y2, y3, y4.trans q4⟩
    obtain ⟨q', a1, a2, a3, _⟩ := h.kept q1 hi
    exact hu ⟨i, q', a1, by rw [a2]; exact q2, by rw [a3]; exact q3, h.below hg q4 hnu⟩
  create := fun j n hn hu => h.create j n hn fun hx => hu (hx.mono hN)
  modify := fun j n hn hu => h.modify j n hn fun hx => hu (hx.mono hN)

theorem not_under_self (hg : Good db) (d : Nat) (N : Str → Prop) : ¬ Under db d N d := by
  rintro ⟨i, m, q1, q2, _, q4⟩
  obtain ⟨r, hr⟩ := hg.ranked
  have := hr i m q1
  rw [q2] at this
  rcases q4.rank hr with e | e
  · rw [e] at this; omega
  · omega

/-- What has been touched only in an entry of `d` has been touched only in `d`. -/
theorem Frame.lift (h : Frame k N db db') (hg : Good db) (h0 : db'.node 0 = none) {n : Node} (hk : db.node k = some n) :
    Frame n.dir (fun a => a = n.name) db db' := by
  have hsub : ∀ {j}, Under db k N j → Under db n.dir (fun a => a = n.name) j := by
    rintro j ⟨i, m, h1, h2, _, h4⟩
    refine ⟨k, n, hk, rfl, rfl, ?_⟩
    have := Below.up h1 h4
    rw [h2] at this
    exact this
  have hkk := not_under_self hg k N
  obtain ⟨n', k1, k2, k3, _⟩ := h.kept hk hkk
  refine ⟨fun j m hm hu => ?_, fun j m' hm' hu => ?_, fun j m hm hu => h.create j m hm fun hx => hu (hsub hx),
    fun j m hm hu => h.modify j m hm fun hx => hu (hsub hx)⟩
  · rcases h.keep j m hm (fun hx => hu (hsub hx)) with h1 | ⟨h1, h2, h3⟩
    · exact .inl h1
    · refine .inr ⟨?_, h2, h3⟩
      cases h1 with
      | refl =>
        rw [hm] at hk
        cases hk
        exact absurd ⟨_, _, hm, rfl, rfl, .refl⟩ hu
      | step hx h4 => rw [hk] at hx; cases hx; exact h4
  · have hu' : ¬ Under db' k N j := by
      rintro ⟨i, q, q1, q2, _, q4⟩
      have := Below.up q1 q4
      rw [q2] at this
      exact hu ⟨k, n', k1, k2, k3, this⟩
    obtain ⟨m, hm, hmu⟩ := h.back j m' hm' hu'
    refine ⟨m, hm, ?_⟩
    rintro ⟨i, q, q1, q2, q3, q4⟩
    have : i = k := hg.unique i k q n q1 hk q2 q3
    rw [this] at q4
    exact hu ⟨k, n', k1, k2, k3, h.below hg q4 hmu⟩

/-- An entry with another name is the same afterwards. -/
theorem Frame.entry (h : Frame d N db db') (hg : Good db) {n : Node} (hn : db.node j = some n) (hd : n.dir = d) (ha : ¬ N n.name) :
    db'.node j = some n ∧ ¬ Under db d N j := by
  obtain ⟨r, hr⟩ := hg.ranked
  have hu : ¬ Under db d N j := by
    rintro ⟨i, m, q1, q2, q3, q4⟩
    have := Below.disjoint hr q1 q2 hn hd q4 .refl
    rw [this, hn] at q1
    cases q1
    exact ha q3
  refine ⟨?_, hu⟩
  rcases h.keep j n hn hu with h1 | ⟨h1, _, _⟩
  · exact h1
  · exfalso
    have := hr j n hn
    rw [hd] at this
    rcases h1.rank hr with e | e
    · rw [e] at this; omega
    · omega

/-- An entry with another name was there before. -/
theorem Frame.entry_back (h : Frame d N db db') (hg : Good db) (hg' : Good db') {n : Node} (hn : db'.node j = some n) (hd : n.dir = d)
    (ha : ¬ N n.name) : db.node j = some n ∧ ¬ Under db d N j := by
  obtain ⟨r, hr⟩ := hg'.ranked
  have hu : ¬ Under db' d N j := by
    rintro ⟨i, m, q1, q2, q3, q4⟩
    have := Below.disjoint hr q1 q2 hn hd q4 .refl
    rw [this, hn] at q1
    cases q1
    exact ha q3
  obtain ⟨m, hm, hmu⟩ := h.back j n hn hu
  obtain ⟨m', m1, m2, m3, _⟩ := h.kept hm hmu
  rw [hn] at m1
  cases m1
  have := (h.entry hg hm (by rw [← m2]; exact hd) (by rw [← m3]; exact ha)).1
  rw [hn] at this
  cases this
  exact ⟨hm, hmu⟩

theorem Frame.select (h : Frame d N db db') (hg : Good db) (hg' : Good db') (ha : ¬ N name) : db'.select d name = db.select d name := by
  cases hs : db.select d name with
  | some j =>
    obtain ⟨n, h1, h2, h3⟩ := select_some hs
    have := (h.entry hg h1 h2 (by rw [h3]; exact ha)).1
    rw [← h2, ← h3]
    exact select_eq hg'.bounded hg'.unique this
  | none =>
    cases hs' : db'.select d name with
    | none => rfl
    | some j =>
      obtain ⟨n, h1, h2, h3⟩ := select_some hs'
      have := (h.entry_back hg hg' h1 h2 (by rw [h3]; exact ha)).1
      exact absurd h3 (select_none hg.bounded hs this h2)

end Tup.FullScan
