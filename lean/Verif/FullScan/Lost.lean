import Verif.FullScan.Ops

/-! Entries that are not on the disk. -/

namespace Tup.FullScan

open Tup.Db Tup.Scan

variable {db db' db1 db2 : Db} {d i j k x : Nat} {name : Str} {N : Str → Prop}

/-- Nothing that is in `i` is taken for a file or a directory of the user, and the commands that make the generated files that
are in it are going to run. -/
def LostAt (db : Db) (i : Nat) : Prop :=
  ∀ b j m, Inside db i b j → db.node j = some m → m.name ≠ tupConfig →
    m.kind ≠ .file ∧ m.kind ≠ .dir ∧ (m.kind = .generated → m.name ≠ gitignore →
      ∀ c, db.isKind .cmd c = true → ¬ InConfig db c → db.normal c j = true → db.modify c = true)

theorem inside_below {b : Bool} (h : Inside db i b j) : Below db i j := by
  induction h with
  | refl => exact .refl
  | dir h1 _ _ _ _ ih => exact .step h1 ih
  | generated h1 _ _ _ _ ih => exact .step h1 ih

/-- The rows in an entry of `d` that is not touched are the same. -/
theorem Frame.inner (h : Frame d N db db') (hg : Good db) {n : Node} (hn : db.node i = some n) (hd : n.dir = d) (ha : ¬ N n.name)
    (hb : Below db i j) {m : Node} (hm : db.node j = some m) : db'.node j = some m ∧ ¬ Under db d N j := by
  obtain ⟨r, hr⟩ := hg.ranked
  have hu : ¬ Under db d N j := by
    rintro ⟨y, q, q1, q2, q3, q4⟩
    have := Below.disjoint hr q1 q2 hn hd q4 hb
    rw [this, hn] at q1
    cases q1
    exact ha q3
  refine ⟨?_, hu⟩
  rcases h.keep j m hm hu with h1 | ⟨h1, _, _⟩
  · exact h1
  · exfalso
    have := hr i n hn
    rw [hd] at this
    rcases (hb.trans h1).rank hr with e | e
    · rw [e] at this; omega
    · omega

theorem Frame.inner_back (h : Frame d N db db') (hg : Good db) (hg' : Good db') {n : Node} (hn : db'.node i = some n) (hd : n.dir = d)
    (ha : ¬ N n.name) (hb : Below db' i j) : ∀ m, db'.node j = some m → Below db i j ∧ db.node j = some m := by
  have hi := (h.entry_back hg hg' hn hd ha).1
  obtain ⟨r, hr⟩ := hg'.ranked
  induction hb with
  | refl => intro m hm; rw [hn] at hm; cases hm; exact ⟨.refl, hi⟩
  | @step j q hq hb' ih =>
    intro m hm
    rw [hq] at hm
    cases hm
    have hu : ¬ Under db' d N j := by
      rintro ⟨y, w, q1, q2, q3, q4⟩
      have := Below.disjoint hr q1 q2 hn hd q4 (.step hq hb')
      rw [this, hn] at q1
      cases q1
      exact ha q3
    obtain ⟨n0, n1, n2⟩ := h.back j q hq hu
    obtain ⟨q', a1, a2, _⟩ := h.kept n1 n2
    rw [hq] at a1
    cases a1
    have hbd : Below db i j := by
      refine .step n1 ?_
      rw [← a2]
      rcases hg'.rooted j q hq with hz | hs
      · rw [hz] at hb'
        cases hb' with
        | refl => rw [hg'.zero] at hn; cases hn
        | step hx _ => rw [hg'.zero] at hx; cases hx
      · obtain ⟨w, hw⟩ := Option.isSome_iff_exists.1 hs
        exact (ih w hw).1
    have := (h.inner hg hi hd ha hbd n1).1
    rw [hq] at this
    cases this
    exact ⟨hbd, n1⟩

/-- What is in `i` is the same before and after. -/
structure Same (i : Nat) (db db' : Db) : Prop where
  to : ∀ j m, Below db i j → db.node j = some m → Below db' i j ∧ db'.node j = some m
  back : ∀ j m, Below db' i j → db'.node j = some m → Below db i j ∧ db.node j = some m

theorem Frame.same (h : Frame d N db db') (hg : Good db) (hg' : Good db') {n : Node} (hn : db.node i = some n) (hd : n.dir = d)
    (ha : ¬ N n.name) : Same i db db' where
  to := fun j m hb hm => by
    obtain ⟨a, b⟩ := h.inner hg hn hd ha hb hm
    exact ⟨h.below hg hb b, a⟩
  back := fun j m hb hm => h.inner_back hg hg' (h.entry hg hn hd ha).1 hd ha hb m hm

/-- What is lost is still lost after other things have changed. -/
theorem LostAt.keep {f : Nat} (h : LostAt db i) (hs : Same f db db') (hc : Since db db') {n : Node} (hn : db.node i = some n) (hf : Below db f i) : LostAt db' i := by
  have hf' : Below db' f i := (hs.to i n hf hn).1
  have hin : ∀ b j, Inside db' i b j → (db'.node j).isSome → Inside db i b j := by
    intro b j hi
    induction hi with
    | refl => exact fun _ => .refl
    | @dir b j m q hm hi' hq hk hx ih =>
      intro _
      have hbj : Below db' f m.dir := hf'.trans (inside_below hi')
      obtain ⟨a1, a2⟩ := hs.back _ q hbj hq
      obtain ⟨b1, b2⟩ := hs.back j m (.step hm hbj) hm
      exact .dir b2 (ih (by rw [hq]; rfl)) a2 hk hx
    | @generated b j m q hm hi' hq hk hx ih =>
      intro _
      have hbj : Below db' f m.dir := hf'.trans (inside_below hi')
      obtain ⟨a1, a2⟩ := hs.back _ q hbj hq
      obtain ⟨b1, b2⟩ := hs.back j m (.step hm hbj) hm
      exact .generated b2 (ih (by rw [hq]; rfl)) a2 hk hx
  intro b j m hi hm hx
  obtain ⟨a, b'⟩ := hs.back j m (hf'.trans (inside_below hi)) hm
  obtain ⟨h1, h2, h3⟩ := h b j m (hin b j hi (by rw [hm]; rfl)) b' hx
  refine ⟨h1, h2, fun hk hgi c hcc hnc hl => ?_⟩
  obtain ⟨c1, c2⟩ := hc.cmd c hcc
  refine c2 (h3 hk hgi c (hc.isCmd hcc) (fun hic => hnc (hc.config c hcc hic)) (hc.normal c j hl))

theorem inside_of' (hg : Good db) {n : Node} (hn : db.node i = some n) (hb : Below db i j) {m : Node} (hm : db.node j = some m)
    (hk : m.kind = .file ∨ m.kind = .cmd ∨ m.kind = .generated ∨ isDir m) (hc : ¬ InConfig db j) : ∃ b, Inside db i b j := by
  cases hb with
  | refl => exact ⟨_, .refl⟩
  | step hj hb' =>
    rw [hm] at hj
    cases hj
    rcases hg.housed j m hm hk with ⟨_, hz⟩ | h | ⟨q, q1, q2⟩
    · rw [hz] at hb'
      exfalso
      cases hb' with
      | refl => rw [hg.zero] at hn; cases hn
      | step hx _ => rw [hg.zero] at hx; cases hx
    · exact absurd h hc
    · have hc' : ¬ InConfig db m.dir := by
        rintro ⟨y, w, y1, y2, y3⟩
        exact hc ⟨y, w, .step hm y1, y2, y3⟩
      obtain ⟨b, hb1⟩ := inside_of hg hn hb' q q1 q2 hc'
      have hqx : q.name ≠ tupConfig := fun e => hc' ⟨_, q, .refl, q1, e⟩
      rcases q2 with q2 | q2
      · exact ⟨true, .dir hm hb1 q1 q2 hqx⟩
      · exact ⟨b, .generated hm hb1 q1 q2 hqx⟩

/-- An entry that is not on the disk. -/
theorem missing_one {sort : List (Nat × Kind) → List (Nat × Kind)} (hsort : ∀ l, (sort l).Perm l) (hg : Good db) {n : Node}
    (hn : db.node i = some n) :
    ∃ db', Lim (fun fuel => fileMissing sort fuel db i) db' ∧ Step n.dir (fun a => a = n.name) db db' ∧
      ∀ i' n', db'.node i' = some n' → n'.dir = n.dir → n'.name = n.name → LostAt db' i' := by
  obtain ⟨db', ⟨F, hF⟩, h2, h3, h4, h5, h6, h7⟩ := del_lim hsort hg hn false
  have hs : ∀ j n', db'.node j = some n' → ∃ n, db.node j = some n ∧ n'.dir = n.dir ∧ n'.name = n.name := by
    intro j n' hj
    obtain ⟨m, a, b, c, _⟩ := h5.sub j n' hj
    exact ⟨m, a, b, c⟩
  have hcfg : ∀ c, InConfig db c → (db'.node c).isSome → InConfig db' c := by
    rintro c ⟨y, m, y1, y2, y3⟩ hc
    obtain ⟨q, hq⟩ := Option.isSome_iff_exists.1 hc
    obtain ⟨a, b⟩ := up hs h2.rooted hg.zero y1 q hq (by rw [y2]; rfl)
    obtain ⟨m', hm'⟩ := Option.isSome_iff_exists.1 b
    obtain ⟨w, w1, _, w2⟩ := hs y m' hm'
    rw [y2] at w1
    cases w1
    exact ⟨y, m', a, hm', w2.trans y3⟩
  refine ⟨db', ⟨F, fun fuel hf => ?_⟩, ⟨h2, h3, h4⟩, ?_⟩
  · have := hF fuel hf
    simp only at this
    simp only [fileMissing, hn, this]
  · intro i' n' hi' hd hnm
    obtain ⟨q, q1, q2, q3⟩ := hs i' n' hi'
    have : i' = i := hg.unique i' i q n q1 hn (q2.symm.trans hd) (q3.symm.trans hnm)
    subst this
    have hin : ∀ b j, Inside db' i' b j → Inside db i' b j := by
      intro b j hi
      induction hi with
      | refl => exact .refl
      | @dir b j m q hm hi' hq hk hx ih =>
        obtain ⟨m0, a1, a2, _⟩ := hs j m hm
        have hq0 := h6.same hq (by rw [hk]; decide)
        rw [a2] at ih hq0
        exact .dir a1 ih hq0 hk hx
      | @generated b j m q hm hi' hq hk hx ih =>
        obtain ⟨m0, a1, a2, _⟩ := hs j m hm
        have hq0 := h6.same hq (by rw [hk]; decide)
        rw [a2] at ih hq0
        exact .generated a1 ih hq0 hk hx
    intro b j m hi hm hx
    by_cases hgh : m.kind = .ghost
    · rw [hgh]
      exact ⟨by decide, by decide, fun h => by cases h⟩
    have hm0 := h6.same hm hgh
    have cl := h7 b j m (hin b j hi) hm0 hx
    refine ⟨fun hk => ?_, fun hk => ?_, fun hk hgi c hc hnc hl => ?_⟩
    · exact hgh (cl.gone (.inl (by rw [hk]; decide)) m hm)
    · exact hgh (cl.gone (.inl (by rw [hk]; decide)) m hm)
    · cases hb : b with
      | true => exact absurd (cl.gone (.inr ⟨by rw [hk]; decide, by rw [hb]; rfl⟩) m hm) hgh
      | false =>
        obtain ⟨w, w1, w2⟩ := isKind_iff.1 hc
        have hc0 := h6.same w1 (by rw [w2]; decide)
        refine cl.again hk (by rw [hb]; rfl) hgi c (fun hbc => ?_) (h6.normal c j hl)
        have hnc0 : ¬ InConfig db c := fun hic => hnc (hcfg c hic (by rw [w1]; rfl))
        obtain ⟨b', hb'⟩ := inside_of' hg q1 hbc hc0 (.inr (.inl w2)) hnc0
        have hwx : w.name ≠ tupConfig := fun e => hnc0 ⟨c, w, .refl, hc0, e⟩
        have := (h7 b' c w hb' hc0 hwx).gone (.inl (by rw [w2]; decide)) w w1
        rw [w2] at this
        cases this

end Tup.FullScan
