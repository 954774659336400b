import Verif.GenDir.Lemmas

/-! Lemmas about the directories of outputs, and about new files of the user. -/

namespace Tup.GenDir

open Tup.Db Tup.Scan

/-- What the search needs to know about the database. -/
structure Good (db : Db) (d : Nat) : Prop where
  bounded : Bounded db
  unique : Unique db
  rooted : Rooted db
  here : (db.node d).isSome = true

theorem fresh_ne_zero (node : Nat → Option Node) (t : Nat) : fresh node t ≠ 0 := by
  induction t with
  | zero => exact Nat.one_ne_zero
  | succ t ih => unfold fresh; split <;> omega

theorem insert_node {db : Db} {n : Node} (j : Nat) : (db.insertNode n).1.node j = if j = (db.insertNode n).2 then some n else db.node j := rfl

theorem insert_fresh {db : Db} (hb : Bounded db) {n : Node} : db.node (db.insertNode n).2 = none := fresh_node hb

theorem insert_bounded {db : Db} (hb : Bounded db) {n : Node} : Bounded (db.insertNode n).1 := by
  intro i hi
  have hi : max db.top ((db.insertNode n).2 + 1) ≤ i := hi
  rw [insert_node, if_neg (by omega)]
  exact hb i (by omega)

theorem set_node {db : Db} {i : Nat} {k : Kind} (j : Nat) : ((db.setKind i k).addModify i).node j = if j = i then (db.node j).map fun n => { n with kind := k } else db.node j := rfl

theorem good_insert {db : Db} {d : Nat} (h : Good db d) {a : Str} (hs : db.select d a = none) {n : Node} (hd : n.dir = d) (ha : n.name = a) : Good (db.insertNode n).1 (db.insertNode n).2 := by
  have hfr := insert_fresh h.bounded (n := n)
  refine ⟨insert_bounded h.bounded, ?_, ?_, by rw [insert_node, if_pos rfl]; rfl⟩
  · intro i j x y hi hj e1 e2
    rw [insert_node] at hi hj
    by_cases h1 : i = (db.insertNode n).2
    · by_cases h2 : j = (db.insertNode n).2
      · rw [h1, h2]
      · rw [if_pos h1] at hi; rw [if_neg h2] at hj
        cases hi
        exact absurd (by rw [← e2, ha]) (select_none h.bounded hs hj (by rw [← e1, hd]))
    · by_cases h2 : j = (db.insertNode n).2
      · rw [if_neg h1] at hi; rw [if_pos h2] at hj
        cases hj
        exact absurd (by rw [e2, ha]) (select_none h.bounded hs hi (by rw [e1, hd]))
      · rw [if_neg h1] at hi; rw [if_neg h2] at hj
        exact h.unique i j x y hi hj e1 e2
  · intro i x hi
    rw [insert_node] at hi
    by_cases h1 : i = (db.insertNode n).2
    · rw [if_pos h1] at hi
      cases hi
      right
      rw [insert_node]
      split
      · rfl
      · rw [hd]; exact h.here
    · rw [if_neg h1] at hi
      rcases h.rooted i x hi with e | e
      · exact .inl e
      · right
        rw [insert_node]
        split
        · rfl
        · exact e

theorem good_set {db : Db} {d i : Nat} {n : Node} (h : Good db d) (hn : db.node i = some n) (k : Kind) : Good ((db.setKind i k).addModify i) i := by
  have hsub : ∀ j x, ((db.setKind i k).addModify i).node j = some x → ∃ y, db.node j = some y ∧ x.dir = y.dir ∧ x.name = y.name := by
    intro j x hx
    rw [set_node] at hx
    by_cases h1 : j = i
    · rw [if_pos h1, h1, hn] at hx
      cases hx
      rw [h1]
      exact ⟨n, hn, rfl, rfl⟩
    · rw [if_neg h1] at hx
      exact ⟨x, hx, rfl, rfl⟩
  have hsome : ∀ j, (((db.setKind i k).addModify i).node j).isSome = (db.node j).isSome := by
    intro j
    rw [set_node]
    split
    · rw [Option.isSome_map]
    · rfl
  refine ⟨fun j hj => ?_, fun a b x y ha hb e1 e2 => ?_, fun j x hj => ?_, by rw [hsome, hn]; rfl⟩
  · rw [set_node, h.bounded j hj]
    split <;> rfl
  · obtain ⟨x', p1, p2, p3⟩ := hsub a x ha
    obtain ⟨y', q1, q2, q3⟩ := hsub b y hb
    exact h.unique a b x' y' p1 q1 (by rw [← p2, ← q2, e1]) (by rw [← p3, ← q3, e2])
  · obtain ⟨x', p1, p2, p3⟩ := hsub j x hj
    rw [hsome, p2]
    exact h.rooted j x' p1

/-- One step down, in both cases in which it goes on: the next database and directory. -/
inductive Next (db : Db) (d : Nat) (a : Str) : Db → Nat → Prop
  | old {j n} : db.node j = some n → n.dir = d → n.name = a → n.kind = .dir ∨ n.kind = .generatedDir → Next db d a db j
  | ghost {j n} : db.node j = some n → n.dir = d → n.name = a → n.kind = .ghost → Next db d a ((db.setKind j .generatedDir).addModify j) j
  | new : (∀ j n, db.node j = some n → ¬ (n.dir = d ∧ n.name = a)) →
      Next db d a (db.insertNode { dir := d, kind := .generatedDir, name := a }).1 (db.insertNode { dir := d, kind := .generatedDir, name := a }).2

theorem isKind_false {db : Db} {i : Nat} {n : Node} (hn : db.node i = some n) {k : Kind} (h : n.kind ≠ k) : db.isKind k i = false := by
  rw [Bool.eq_false_iff]
  intro e
  obtain ⟨m, e1, e2⟩ := isKind_iff.1 e
  rw [hn] at e1
  cases e1
  exact h e2

theorem outDir_cons {db : Db} {d : Nat} (hb : Bounded db) {a : Str} (ha : a ≠ dotdot) (path : List Str) :
    (∃ db1 d1, Next db d a db1 d1 ∧ outDir db d (a :: path) = outDir db1 d1 path ∧ (db.select d a = none ∨ db.select d a = some d1)) ∨
      ∃ c m, Child db d c m ∧ m.name = a ∧ m.kind ≠ .dir ∧ m.kind ≠ .generatedDir ∧ m.kind ≠ .ghost ∧ outDir db d (a :: path) = none ∧ db.select d a = some c := by
  rw [outDir, if_neg ha]
  cases hs : db.select d a with
  | none =>
    left
    exact ⟨_, _, .new fun j n hn e => select_none hb hs hn e.1 e.2, rfl, .inl rfl⟩
  | some j =>
    obtain ⟨n, hn, h1, h2⟩ := select_some hs
    dsimp only
    by_cases hg : n.kind = .ghost
    · left
      rw [if_pos (isKind_iff.2 ⟨n, hn, hg⟩)]
      exact ⟨_, _, .ghost hn h1 h2 hg, rfl, .inr rfl⟩
    · rw [if_neg (by rw [isKind_false hn hg]; simp)]
      by_cases hk : n.kind = .dir ∨ n.kind = .generatedDir
      · left
        rw [if_pos (by rw [Bool.or_eq_true]; exact hk.imp (fun e => isKind_iff.2 ⟨n, hn, e⟩) fun e => isKind_iff.2 ⟨n, hn, e⟩)]
        exact ⟨_, _, .old hn h1 h2 hk, rfl, .inr rfl⟩
      · right
        rw [if_neg (by rw [isKind_false hn fun e => hk (.inl e), isKind_false hn fun e => hk (.inr e)]; simp)]
        exact ⟨j, n, ⟨hn, h1⟩, h2, fun e => hk (.inl e), fun e => hk (.inr e), hg, rfl, rfl⟩

theorem Next.good {db db1 : Db} {d d1 : Nat} {a : Str} (h : Next db d a db1 d1) (hg : Good db d) (hs : db.select d a = none ∨ db.select d a = some d1) : Good db1 d1 := by
  cases h with
  | old h1 => exact ⟨hg.bounded, hg.unique, hg.rooted, by rw [h1]; rfl⟩
  | ghost h1 => exact good_set hg h1 _
  | new h1 =>
    refine good_insert hg ?_ rfl rfl
    rcases hs with e | e
    · exact e
    · obtain ⟨n, g1, g2, g3⟩ := select_some e
      exact absurd ⟨g2, g3⟩ (h1 _ n g1)

/-- What is there stays as it is, but for ghosts that become directories; what is new is a directory. -/
structure Grows (db db' : Db) : Prop where
  keep : ∀ j n, db.node j = some n → db'.node j = some n ∨ (n.kind = .ghost ∧ db'.node j = some { n with kind := .generatedDir })
  new : ∀ j n, db.node j = none → db'.node j = some n → n.kind = .generatedDir ∧ n.src = none

theorem Grows.refl (db : Db) : Grows db db := ⟨fun _ _ h => .inl h, fun _ _ h h' => by rw [h] at h'; cases h'⟩

theorem Grows.trans {a b c : Db} (h : Grows a b) (h' : Grows b c) : Grows a c := by
  refine ⟨fun j n hn => ?_, fun j n hn hn' => ?_⟩
  · rcases h.keep j n hn with e | ⟨e1, e2⟩
    · exact h'.keep j n e
    · rcases h'.keep j _ e2 with e | ⟨e, _⟩
      · exact .inr ⟨e1, e⟩
      · cases e
  · cases hb : b.node j with
    | none => exact h'.new j n hb hn'
    | some m =>
      obtain ⟨e1, e2⟩ := h.new j m hn hb
      rcases h'.keep j m hb with e | ⟨e, _⟩
      · rw [hn'] at e
        cases e
        exact ⟨e1, e2⟩
      · rw [e1] at e; cases e

theorem Next.grows {db db1 : Db} {d d1 : Nat} {a : Str} (hb : Bounded db) (h : Next db d a db1 d1) : Grows db db1 := by
  cases h with
  | old => exact .refl _
  | @ghost _ n h1 h2 h3 h4 =>
    refine ⟨fun j m hm => ?_, fun j m hm hm' => ?_⟩
    · rw [set_node]
      by_cases hj : j = d1
      · rw [hj, h1] at hm
        cases hm
        right
        rw [if_pos hj, hj, h1]
        exact ⟨h4, rfl⟩
      · rw [if_neg hj]; exact .inl hm
    · rw [set_node, hm] at hm'
      split at hm' <;> cases hm'
  | new h1 =>
    refine ⟨fun j m hm => ?_, fun j m hm hm' => ?_⟩
    · rw [insert_node]
      by_cases hj : j = (db.insertNode { dir := d, kind := .generatedDir, name := a }).2
      · rw [hj, insert_fresh hb] at hm; cases hm
      · rw [if_neg hj]; exact .inl hm
    · rw [insert_node] at hm'
      by_cases hj : j = (db.insertNode { dir := d, kind := .generatedDir, name := a }).2
      · rw [if_pos hj] at hm'
        cases hm'
        exact ⟨rfl, rfl⟩
      · rw [if_neg hj, hm] at hm'; cases hm'

theorem Next.child {db db1 : Db} {d d1 : Nat} {a : Str} (h : Next db d a db1 d1) : ∃ m, Child db1 d d1 m ∧ m.name = a ∧ (m.kind = .dir ∨ m.kind = .generatedDir) := by
  cases h with
  | old h1 h2 h3 h4 => exact ⟨_, ⟨h1, h2⟩, h3, h4⟩
  | @ghost _ n h1 h2 h3 h4 => exact ⟨{ n with kind := .generatedDir }, ⟨by rw [set_node, if_pos rfl, h1]; rfl, h2⟩, h3, .inr rfl⟩
  | new h1 => exact ⟨_, ⟨by rw [insert_node, if_pos rfl], rfl⟩, rfl, .inr rfl⟩

theorem Next.other {db db1 : Db} {d d1 : Nat} {a : Str} (h : Next db d a db1 d1) {j : Nat} (hj : j ≠ d1) : db1.node j = db.node j := by
  cases h with
  | old => rfl
  | ghost => rw [set_node, if_neg hj]
  | new => rw [insert_node, if_neg hj]

theorem outDir_up {db : Db} {names : List Str} : ∀ (k d : Nat),
    (∃ e, Up db k d e ∧ outDir db d (List.replicate k dotdot ++ names) = outDir db e names) ∨ ((∀ e, ¬ Up db k d e) ∧ outDir db d (List.replicate k dotdot ++ names) = none) := by
  intro k
  induction k with
  | zero => intro d; exact .inl ⟨d, .zero, rfl⟩
  | succ k ih =>
    intro d
    rw [List.replicate_succ, List.cons_append, outDir, if_pos rfl]
    cases hn : db.node d with
    | none =>
      right
      refine ⟨fun e h => ?_, rfl⟩
      cases h with
      | succ h1 => rw [hn] at h1; cases h1
    | some n =>
      dsimp only
      by_cases hp : (db.node n.dir).isSome = true
      · rw [if_pos hp]
        rcases ih n.dir with ⟨e, h1, h2⟩ | ⟨h1, h2⟩
        · exact .inl ⟨e, .succ hn hp h1, h2⟩
        · right
          refine ⟨fun e h => ?_, h2⟩
          cases h with
          | succ g1 _ g3 =>
            rw [hn] at g1
            cases g1
            exact h1 e g3
      · rw [if_neg hp]
        right
        refine ⟨fun e h => ?_, rfl⟩
        cases h with
        | succ g1 g2 _ =>
          rw [hn] at g1
          cases g1
          exact hp g2

/-- The way down, in the database at the end. -/
theorem outDir_down : ∀ (names : List Str), dotdot ∉ names → ∀ (db : Db) (d : Nat), Good db d →
    (∀ db' e, outDir db d names = some (db', e) → Good db' e ∧ Grows db db' ∧ Down db' d names e ∧ ∀ j, db'.node j ≠ db.node j → ∃ pre, pre ≠ [] ∧ pre <+: names ∧ Down db' d pre j) ∧
      (outDir db d names = none ↔ Blocked db d names) := by
  intro names
  induction names with
  | nil =>
    intro _ db d hg
    refine ⟨fun db' e h => ?_, fun h => (by cases h), fun h => (by cases h)⟩
    cases h
    exact ⟨hg, .refl _, .nil, fun j hj => absurd rfl hj⟩
  | cons a names ih =>
    intro hdd db d hg
    obtain ⟨ha, hdd'⟩ : a ≠ dotdot ∧ dotdot ∉ names := by
      rw [List.mem_cons, not_or] at hdd
      exact ⟨fun e => hdd.1 e.symm, hdd.2⟩
    rcases outDir_cons hg.bounded ha names (d := d) with ⟨db1, d1, h1, h2, h3⟩ | ⟨c, m, h1, h2, h3, h4, h5, h6, h7⟩
    · have hg1 := h1.good hg h3
      obtain ⟨i1, i2⟩ := ih hdd' db1 d1 hg1
      rw [h2]
      refine ⟨fun db' e he => ?_, i2.trans ?_⟩
      · obtain ⟨g1, g2, g3, g4⟩ := i1 db' e he
        obtain ⟨m, c1, c2, c3⟩ := h1.child
        have hm : db'.node d1 = some m := by
          rcases g2.keep d1 m c1.1 with e | ⟨e, _⟩
          · exact e
          · rw [e] at c3; rcases c3 with c3 | c3 <;> cases c3
        have hstep : ∀ {l x}, Down db' d1 l x → Down db' d (a :: l) x := fun hx => .cons ⟨hm, c1.2⟩ c2 c3 hx
        refine ⟨g1, (h1.grows hg.bounded).trans g2, hstep g3, fun j hj => ?_⟩
        by_cases hj1 : db'.node j = db1.node j
        · have : j = d1 := by
            cases Nat.decEq j d1 with
            | isTrue e => exact e
            | isFalse e => exact absurd (hj1.trans (h1.other e)) hj
          rw [this]
          exact ⟨[a], by simp, ⟨names, rfl⟩, hstep .nil⟩
        · obtain ⟨pre, p1, p2, p3⟩ := g4 j hj1
          obtain ⟨t, ht⟩ := p2
          exact ⟨a :: pre, by simp, ⟨t, by rw [List.cons_append, ht]⟩, hstep p3⟩
      · -- what blocks the way is the same before and after the step
        have hgr := h1.grows hg.bounded
        constructor
        · intro hbl
          have hold : ∀ {x l}, Blocked db1 x l → (x = d1 → (db.node d1).isSome = true) → x ≠ d1 ∨ (db.node d1).isSome = true → Blocked db x l := by
            intro x l hb
            induction hb with
            | @here d' a' l' c m q1 q2 q3 q4 q5 =>
              intro _ _
              have hcm : db.node c = some m := by
                cases hdc : db.node c with
                | none => exact absurd (hgr.new c m hdc q1.1).1 q4
                | some m0 =>
                  rcases hgr.keep c m0 hdc with e | ⟨_, e⟩
                  · rw [q1.1] at e; exact e.symm
                  · rw [q1.1] at e
                    cases e
                    exact absurd rfl q4
              exact .here ⟨hcm, q1.2⟩ q2 q3 q4 q5
            | @deeper d' a' l' c m q1 q2 q3 ihh =>
              intro hx1 hx2
              -- the child was there: a new one has nothing in it
              cases hdc : db.node c with
              | some m0 =>
                have hm0 : m0.dir = m.dir ∧ m0.name = m.name := by
                  rcases hgr.keep c m0 hdc with e | ⟨_, e⟩
                  · rw [q1.1] at e; cases e; exact ⟨rfl, rfl⟩
                  · rw [q1.1] at e; cases e; exact ⟨rfl, rfl⟩
                refine .deeper ⟨hdc, hm0.1.trans q1.2⟩ (hm0.2.trans q2) (ihh (fun e => by rw [← e, hdc]; rfl) ?_)
                by_cases e : c = d1
                · right; rw [← e, hdc]; rfl
                · exact .inl e
              | none =>
                exfalso
                have hcd : c = d1 := by
                  cases Nat.decEq c d1 with
                  | isTrue e => exact e
                  | isFalse e =>
                    have := h1.other e
                    rw [q1.1, hdc] at this
                    cases this
                have hkid : ∃ c' m', Child db1 c c' m' := by
                  cases q3 with
                  | here w _ _ _ _ => exact ⟨_, _, w⟩
                  | deeper w _ _ => exact ⟨_, _, w⟩
                obtain ⟨c', m', w⟩ := hkid
                exact no_kids hg h1 hcd hdc w
          rcases Option.isSome_iff_exists.1 hg1.here with ⟨m1, hm1⟩
          obtain ⟨m, c1, c2, c3⟩ := h1.child
          cases hd1 : db.node d1 with
          | none =>
            exfalso
            have hkid : ∃ c' m', Child db1 d1 c' m' := by
              cases hbl with
              | here w _ _ _ _ => exact ⟨_, _, w⟩
              | deeper w _ _ => exact ⟨_, _, w⟩
            obtain ⟨c', m', w⟩ := hkid
            exact no_kids hg h1 rfl hd1 w
          | some m0 =>
            have hm0 : m0.dir = m.dir ∧ m0.name = m.name := by
              rcases hgr.keep d1 m0 hd1 with e | ⟨_, e⟩
              · rw [c1.1] at e; cases e; exact ⟨rfl, rfl⟩
              · rw [c1.1] at e; cases e; exact ⟨rfl, rfl⟩
            exact .deeper ⟨hd1, hm0.1.trans c1.2⟩ (hm0.2.trans c2) (hold hbl (fun _ => by rw [hd1]; rfl) (.inr (by rw [hd1]; rfl)))
        · intro hbl
          have hnew : ∀ {x l}, Blocked db x l → Blocked db1 x l := by
            intro x l hb
            induction hb with
            | @here d' a' l' c m q1 q2 q3 q4 q5 =>
              rcases hgr.keep c m q1.1 with e | ⟨e, _⟩
              · exact .here ⟨e, q1.2⟩ q2 q3 q4 q5
              · exact absurd e q5
            | @deeper d' a' l' c m q1 q2 q3 ihh =>
              rcases hgr.keep c m q1.1 with e | ⟨_, e⟩
              · exact .deeper ⟨e, q1.2⟩ q2 ihh
              · exact .deeper ⟨e, q1.2⟩ q2 ihh
          have hsel : ∀ c m, Child db d c m → m.name = a → d1 = c := by
            intro c m hc hna
            have := select_eq hg.bounded hg.unique hc.1
            rw [hc.2, hna] at this
            rcases h3 with e | e
            · rw [e] at this; cases this
            · rw [e] at this; cases this; rfl
          cases hbl with
          | @here _ _ _ c m q1 q2 q3 q4 q5 =>
            exfalso
            have e := hsel c m q1 q2
            subst e
            obtain ⟨m', c1, c2, c3⟩ := h1.child
            rcases hgr.keep d1 m q1.1 with e | ⟨e, _⟩
            · rw [c1.1] at e
              cases e
              rcases c3 with c3 | c3
              · exact q3 c3
              · exact q4 c3
            · exact q5 e
          | @deeper _ _ _ c m q1 q2 q3 =>
            have e := hsel c m q1 q2
            subst e
            exact hnew q3
    · rw [h6]
      exact ⟨fun _ _ e => (by cases e), fun _ => .here h1 h2 h3 h4 h5, fun _ => rfl⟩
where
  no_kids {db db1 : Db} {d d1 : Nat} {a : Str} (hg : Good db d) (h1 : Next db d a db1 d1) {c : Nat} (hcd : c = d1) (hdc : db.node c = none) {c' : Nat} {m' : Node} (w : Child db1 c c' m') : False := by
    have hd : d ≠ c := by
      rintro rfl
      have := hg.here
      rw [hdc] at this
      cases this
    have hc0 : c ≠ 0 := by
      cases h1 with
      | old q => rw [← hcd, hdc] at q; cases q
      | ghost q => rw [← hcd, hdc] at q; cases q
      | new => rw [hcd]; exact fresh_ne_zero _ _
    by_cases e : c' = d1
    · obtain ⟨m, c1, _⟩ := h1.child
      have := w.1
      rw [e, c1.1] at this
      cases this
      exact hd (c1.2.symm.trans w.2)
    · have hw := w.1
      rw [h1.other e] at hw
      rcases hg.rooted c' m' hw with q | q
      · rw [w.2] at q; exact hc0 q
      · rw [w.2, hdc] at q; cases q

theorem anyDir_iff {db : Db} {d : Nat} : AnyDir db d ↔ ∃ n, db.node d = some n ∧ (n.kind = .dir ∨ n.kind = .generatedDir) := by
  unfold AnyDir
  rw [isKind_iff, isKind_iff]
  constructor
  · rintro (⟨n, h1, h2⟩ | ⟨n, h1, h2⟩)
    · exact ⟨n, h1, .inl h2⟩
    · exact ⟨n, h1, .inr h2⟩
  · rintro ⟨n, h1, h2 | h2⟩
    · exact .inl ⟨n, h1, h2⟩
    · exact .inr ⟨n, h1, h2⟩

theorem Next.clean {db db1 : Db} {d d1 : Nat} {a : Str} (hb : Bounded db) (hro : Rooted db) (hd : AnyDir db d) (hc : Clean db) (h : Next db d a db1 d1) : Clean db1 := by
  have hgr := h.grows hb
  obtain ⟨nd, hnd, hndk⟩ := anyDir_iff.1 hd
  obtain ⟨m1, c1, c2, c3⟩ := h.child
  refine ⟨fun x c m n hcm hk hn => ?_, fun x c m n hcm hk hn => ?_⟩
  · have hcm0 : db.node c = some m := by
      cases hdc : db.node c with
      | none =>
        have := (hgr.new c m hdc hcm.1).1
        rw [this] at hk; rcases hk with hk | hk <;> cases hk
      | some m0 =>
        rcases hgr.keep c m0 hdc with e | ⟨_, e⟩
        · rw [hcm.1] at e; exact e.symm
        · rw [hcm.1] at e; cases e; rcases hk with hk | hk <;> cases hk
    cases hdx : db.node x with
    | none =>
      exfalso
      rcases hro c m hcm0 with q | q
      · rw [hcm.2] at q
        have : x = d1 := by
          cases Nat.decEq x d1 with
          | isTrue e => exact e
          | isFalse e =>
            have := h.other e
            rw [hn, hdx] at this
            cases this
        cases h with
        | old p => rw [← this, hdx] at p; cases p
        | ghost p => rw [← this, hdx] at p; cases p
        | new => rw [this] at q; exact fresh_ne_zero _ _ q
      · rw [hcm.2, hdx] at q; cases q
    | some n0 =>
      have hn0 := hc.user x c m n0 ⟨hcm0, hcm.2⟩ hk hdx
      rcases hgr.keep x n0 hdx with e | ⟨e, _⟩
      · rw [hn] at e; cases e; exact hn0
      · rw [hn0] at e; cases e
  · have hup : ∀ n0, db.node x = some n0 → n0.kind = .dir ∨ n0.kind = .generatedDir → n.kind = .dir ∨ n.kind = .generatedDir := by
      intro n0 hn0 hk0
      rcases hgr.keep x n0 hn0 with e | ⟨e, _⟩
      · rw [hn] at e; cases e; exact hk0
      · rw [e] at hk0; rcases hk0 with hk0 | hk0 <;> cases hk0
    by_cases hcd : c = d1
    · have e := hcm.1
      rw [hcd, c1.1] at e
      cases e
      have hx : x = d := hcm.2.symm.trans c1.2
      exact hup nd (by rw [hx]; exact hnd) hndk
    · have hcm0 := hcm.1
      rw [h.other hcd] at hcm0
      cases hdx : db.node x with
      | some n0 => exact hup n0 hdx (hc.gen x c m n0 ⟨hcm0, hcm.2⟩ hk hdx)
      | none =>
        have hx : x = d1 := by
          cases Nat.decEq x d1 with
          | isTrue e => exact e
          | isFalse e =>
            have := h.other e
            rw [hn, hdx] at this
            cases this
        rw [hx, c1.1] at hn
        cases hn
        exact c3

/-- Whatever the path is, the user's things stay in directories of the user. -/
theorem outDir_clean : ∀ (path : List Str) (db : Db) (d : Nat), Good db d → AnyDir db d → Clean db → ∀ db' e, outDir db d path = some (db', e) →
    Good db' e ∧ AnyDir db' e ∧ Clean db' ∧ Grows db db' := by
  intro path
  induction path with
  | nil =>
    intro db d hg hd hc db' e h
    cases h
    exact ⟨hg, hd, hc, .refl _⟩
  | cons a path ih =>
    intro db d hg hd hc db' e h
    by_cases ha : a = dotdot
    · rw [outDir, if_pos ha] at h
      obtain ⟨n, hn, hk⟩ := anyDir_iff.1 hd
      rw [hn] at h
      dsimp only at h
      cases hp : db.node n.dir with
      | none => rw [hp] at h; cases h
      | some p =>
        rw [hp] at h
        have hpk : p.kind = .dir ∨ p.kind = .generatedDir := by
          rcases hk with hk | hk
          · exact .inl (hc.user n.dir d n p ⟨hn, rfl⟩ (.inr hk) hp)
          · exact hc.gen n.dir d n p ⟨hn, rfl⟩ hk hp
        exact ih db n.dir ⟨hg.bounded, hg.unique, hg.rooted, by rw [hp]; rfl⟩ (anyDir_iff.2 ⟨p, hp, hpk⟩) hc db' e h
    · rcases outDir_cons hg.bounded ha path (d := d) with ⟨db1, d1, h1, h2, h3⟩ | ⟨c, m, h1, h2, h3, h4, h5, h6, h7⟩
      · rw [h2] at h
        obtain ⟨m, c1, _, c3⟩ := h1.child
        obtain ⟨g1, g2, g3, g4⟩ := ih db1 d1 (h1.good hg h3) (anyDir_iff.2 ⟨m, c1.1, c3⟩) (h1.clean hg.bounded hg.rooted hd hc) db' e h
        exact ⟨g1, g2, g3, (h1.grows hg.bounded).trans g4⟩
      · rw [h6] at h; cases h

/-! ### Files of the user -/

/-- `Clean`, but for what is in directory `d`. -/
structure Almost (db : Db) (d : Nat) : Prop where
  user : ∀ x c m n, Child db x c m → m.kind = .file ∨ m.kind = .dir → x ≠ d → db.node x = some n → n.kind = .dir
  gen : ∀ x c m n, Child db x c m → m.kind = .generatedDir → db.node x = some n → n.kind = .dir ∨ n.kind = .generatedDir
  dir : ∀ n, db.node d = some n → n.kind = .dir ∨ n.kind = .generatedDir

theorem normalLoop_clean {r : Nat → Nat} : ∀ (fuel : Nat) (db : Db) (d : Nat), Ranked r db → Almost db d → ∀ db' e, normalLoop fuel db d = some (db', e) →
    Clean db' ∧ (∀ j, db'.node j ≠ db.node j → j = d ∨ Above db j d) := by
  intro fuel
  induction fuel with
  | zero => intro _ _ _ _ _ _ h; cases h
  | succ fuel ih =>
    intro db d hr ha db' e h
    rw [normalLoop] at h
    cases hn : db.node d with
    | none =>
      rw [hn] at h
      cases h
      refine ⟨⟨fun x c m n h1 h2 h3 => ?_, ha.gen⟩, fun j hj => absurd rfl hj⟩
      refine ha.user x c m n h1 h2 ?_ h3
      rintro rfl
      rw [hn] at h3; cases h3
    | some n =>
      rw [hn] at h
      dsimp only at h
      by_cases hk : n.kind = .generatedDir
      · rw [if_pos hk] at h
        have hnode : ∀ j, ((db.setKind d .dir).delGhost d).node j = if j = d then some { n with kind := .dir } else db.node j := by
          intro j
          show (if j = d then (db.node j).map _ else db.node j) = _
          by_cases h : j = d
          · rw [if_pos h, if_pos h, h, hn]; rfl
          · rw [if_neg h, if_neg h]
        have hr' : Ranked r ((db.setKind d .dir).delGhost d) := by
          intro j m hm
          rw [hnode] at hm
          by_cases h : j = d
          · rw [if_pos h] at hm
            cases hm
            rw [h]
            exact hr d n hn
          · rw [if_neg h] at hm
            exact hr j m hm
        have hne : n.dir ≠ d := by
          intro e
          have := hr d n hn
          rw [e] at this
          omega
        have ha' : Almost ((db.setKind d .dir).delGhost d) n.dir := by
          refine ⟨fun x c m k h1 h2 h3 h4 => ?_, fun x c m k h1 h2 h4 => ?_, fun k h4 => ?_⟩
          · rw [hnode] at h4
            by_cases hx : x = d
            · rw [if_pos hx] at h4; cases h4; rfl
            · rw [if_neg hx] at h4
              have h1' := h1.1
              rw [hnode] at h1'
              by_cases hcd : c = d
              · rw [if_pos hcd] at h1'
                cases h1'
                exact absurd h1.2.symm h3
              · rw [if_neg hcd] at h1'
                exact ha.user x c m k ⟨h1', h1.2⟩ h2 hx h4
          · have h1' := h1.1
            rw [hnode] at h1' h4
            by_cases hcd : c = d
            · rw [if_pos hcd] at h1'
              cases h1'
              cases h2
            · rw [if_neg hcd] at h1'
              by_cases hx : x = d
              · rw [if_pos hx] at h4; cases h4; exact .inl rfl
              · rw [if_neg hx] at h4
                exact ha.gen x c m k ⟨h1', h1.2⟩ h2 h4
          · rw [hnode, if_neg hne] at h4
            exact ha.gen n.dir d n k ⟨hn, rfl⟩ hk h4
        obtain ⟨g1, g2⟩ := ih _ n.dir hr' ha' db' e h
        refine ⟨g1, fun j hj => ?_⟩
        by_cases hjd : j = d
        · exact .inl hjd
        · right
          have := g2 j (by rw [hnode, if_neg hjd]; exact hj)
          rcases this with e | e
          · exact .here hn e.symm
          · refine .up hn ?_
            have key : ∀ {x}, Above ((db.setKind d .dir).delGhost d) j x → Above db j x := by
              intro x hx
              induction hx with
              | @here i m q1 q2 =>
                rw [hnode] at q1
                by_cases hi : i = d
                · rw [if_pos hi] at q1
                  cases q1
                  rw [hi]
                  exact .here hn q2
                · rw [if_neg hi] at q1
                  exact .here q1 q2
              | @up i m q1 _ ihx =>
                rw [hnode] at q1
                by_cases hi : i = d
                · rw [if_pos hi] at q1
                  cases q1
                  rw [hi]
                  exact .up hn ihx
                · rw [if_neg hi] at q1
                  exact .up q1 ihx
            exact key e
      · rw [if_neg hk] at h
        cases h
        refine ⟨⟨fun x c m k h1 h2 h3 => ?_, ha.gen⟩, fun j hj => absurd rfl hj⟩
        by_cases hx : x = d
        · rw [hx, hn] at h3
          cases h3
          rcases ha.dir _ hn with q | q
          · exact q
          · exact absurd q hk
        · exact ha.user x c m k h1 h2 hx h3

theorem above_dir {db : Db} (hc : Clean db) {a i : Nat} (h : Above db a i) : ∀ n, db.node i = some n → n.kind = .file ∨ n.kind = .dir → ∀ m, db.node a = some m → m.kind = .dir := by
  induction h with
  | @here i n' h1 h2 =>
    intro n hn hk m hm
    rw [h1] at hn
    cases hn
    exact hc.user a i n' m ⟨h1, h2⟩ hk hm
  | @up i n' h1 h2 ih =>
    intro n hn hk m hm
    rw [h1] at hn
    cases hn
    have : ∃ p, db.node n'.dir = some p := by
      cases h2 with
      | here q => exact ⟨_, q⟩
      | up q => exact ⟨_, q⟩
    obtain ⟨p, hp⟩ := this
    exact ih p hp (.inr (hc.user n'.dir i n' p ⟨h1, rfl⟩ hk hp)) m hm

theorem createNameFile_clean {r : Nat → Nat} {fuel : Nat} {db db' : Db} {d i : Nat} {file : Str} {t : Int × Int} (hb : Bounded db) (hr : Ranked r db) (hro : Rooted db) (hd : AnyDir db d) (hc : Clean db)
    (h : createNameFile fuel db d file t = some (db', i)) : Clean db' ∧ ∀ j, j ≠ i → db'.node j ≠ db.node j → Above db' j i := by
  obtain ⟨nd, hnd, hndk⟩ := anyDir_iff.1 hd
  unfold createNameFile at h
  generalize hx : db.insertNode { dir := d, kind := .file, name := file, mtime := t } = p at h
  have hfr : db.node p.2 = none := by rw [← hx]; exact insert_fresh hb
  have hp0 : p.2 ≠ 0 := by rw [← hx]; exact fresh_ne_zero _ _
  have hnode : ∀ j, p.1.node j = if j = p.2 then some { dir := d, kind := .file, name := file, mtime := t } else db.node j := by
    intro j; rw [← hx]; rfl
  have hdp : d ≠ p.2 := by rintro e; rw [← e, hnd] at hfr; cases hfr
  dsimp only at h
  cases hm : makeDirsNormal fuel (p.1.addCreate d) d with
  | none => rw [hm] at h; cases h
  | some z =>
    rw [hm] at h
    cases h
    unfold makeDirsNormal at hm
    cases hl : normalLoop fuel (p.1.addCreate d) d with
    | none => rw [hl] at hm; cases hm
    | some q =>
      rw [hl] at hm
      have hzn : db'.node = q.1.node := by
        dsimp only at hm
        cases hs : q.1.select q.2 gitignore with
        | none => rw [hs] at hm; cases hm; rfl
        | some g =>
          rw [hs] at hm
          dsimp only at hm
          split at hm <;> cases hm <;> rfl
      have hr' : Ranked (fun j => if j = p.2 then r d + 1 else r j) (p.1.addCreate d) := by
        intro j m hm
        have hm : p.1.node j = some m := hm
        rw [hnode] at hm
        by_cases hj : j = p.2
        · rw [if_pos hj] at hm
          cases hm
          simp only [if_pos hj, if_neg hdp]
          omega
        · rw [if_neg hj] at hm
          have hlt := hr j m hm
          have hne : m.dir ≠ p.2 := by
            intro e
            rcases hro j m hm with q | q
            · rw [e] at q; exact hp0 q
            · rw [e, hfr] at q; cases q
          simp only [if_neg hj, if_neg hne]
          exact hlt
      have hpar : ∀ x c m, c ≠ p.2 → p.1.node c = some m → m.dir = x → x ≠ p.2 := by
        intro x c m hcp hcm hmx
        rw [hnode, if_neg hcp] at hcm
        intro e
        rcases hro c m hcm with q | q
        · rw [hmx, e] at q; exact hp0 q
        · rw [hmx, e, hfr] at q; cases q
      have hal : Almost (p.1.addCreate d) d := by
        refine ⟨fun x c m n h1 h2 h3 h4 => ?_, fun x c m n h1 h2 h4 => ?_, fun n hn => ?_⟩
        · have h1' : p.1.node c = some m := h1.1
          have h4 : p.1.node x = some n := h4
          by_cases hcp : c = p.2
          · rw [hnode, if_pos hcp] at h1'
            cases h1'
            exact absurd h1.2.symm h3
          · have hxp := hpar x c m hcp h1' h1.2
            rw [hnode, if_neg hcp] at h1'
            rw [hnode, if_neg hxp] at h4
            exact hc.user x c m n ⟨h1', h1.2⟩ h2 h4
        · have h1' : p.1.node c = some m := h1.1
          have h4 : p.1.node x = some n := h4
          by_cases hcp : c = p.2
          · rw [hnode, if_pos hcp] at h1'
            cases h1'
            cases h2
          · have hxp := hpar x c m hcp h1' h1.2
            rw [hnode, if_neg hcp] at h1'
            rw [hnode, if_neg hxp] at h4
            exact hc.gen x c m n ⟨h1', h1.2⟩ h2 h4
        · have hn : p.1.node d = some n := hn
          rw [hnode, if_neg hdp, hnd] at hn
          cases hn
          exact hndk
      obtain ⟨g1, g2⟩ := normalLoop_clean fuel (p.1.addCreate d) d hr' hal q.1 q.2 hl
      obtain ⟨s1, s2, e1, e2, -, e4, e5⟩ := normalLoop_spec (r := fun j => if j = p.2 then r d + 1 else r j) (r d + fuel + 2) (p.1.addCreate d) d hr' (by simp only [if_neg hdp]; omega)
      have hkeep : ∀ j m, p.1.node j = some m → ∃ m', q.1.node j = some m' ∧ m'.dir = m.dir := by
        intro j m hm
        exact normalLoop_keep fuel (p.1.addCreate d) d q.1 q.2 hl j m hm
      refine ⟨⟨fun x c m n h1 h2 h3 => ?_, fun x c m n h1 h2 h3 => ?_⟩, fun j hj1 hj2 => ?_⟩
      · exact g1.user x c m n ⟨by rw [← hzn]; exact h1.1, h1.2⟩ h2 (by rw [← hzn]; exact h3)
      · exact g1.gen x c m n ⟨by rw [← hzn]; exact h1.1, h1.2⟩ h2 (by rw [← hzn]; exact h3)
      · have habove : ∀ {a x}, Above (p.1.addCreate d) a x → Above db' a x := by
          intro a x hx
          induction hx with
          | @here i m q1 q2 =>
            obtain ⟨m', w1, w2⟩ := hkeep i m q1
            exact .here (by rw [hzn]; exact w1) (w2.trans q2)
          | @up i m q1 _ ihx =>
            obtain ⟨m', w1, w2⟩ := hkeep i m q1
            exact .up (by rw [hzn]; exact w1) (by rw [w2]; exact ihx)
        have hi : Above (p.1.addCreate d) d p.2 := .here (show p.1.node p.2 = _ by rw [hnode, if_pos rfl]) rfl
        rw [hzn] at hj2
        rcases g2 j (by show q.1.node j ≠ p.1.node j; rw [hnode, if_neg hj1]; exact hj2) with e | e
        · rw [e]; exact habove hi
        · exact habove (.up (show p.1.node p.2 = _ by rw [hnode, if_pos rfl]) e)
where
  normalLoop_keep : ∀ (fuel : Nat) (db : Db) (d : Nat) (db' : Db) (e : Nat), normalLoop fuel db d = some (db', e) → ∀ j m, db.node j = some m → ∃ m', db'.node j = some m' ∧ m'.dir = m.dir := by
    intro fuel
    induction fuel with
    | zero => intro _ _ _ _ h; cases h
    | succ fuel ih =>
      intro db d db' e h j m hm
      rw [normalLoop] at h
      cases hn : db.node d with
      | none => rw [hn] at h; cases h; exact ⟨m, hm, rfl⟩
      | some n =>
        rw [hn] at h
        dsimp only at h
        by_cases hk : n.kind = .generatedDir
        · rw [if_pos hk] at h
          by_cases hj : j = d
          · obtain ⟨m', w1, w2⟩ := ih _ _ _ _ h j { m with kind := .dir } (by
              show (if j = d then (db.node j).map _ else db.node j) = _
              rw [if_pos hj, hm]; rfl)
            exact ⟨m', w1, w2⟩
          · exact ih _ _ _ _ h j m (by
              show (if j = d then (db.node j).map _ else db.node j) = _
              rw [if_neg hj]; exact hm)
        · rw [if_neg hk] at h
          cases h
          exact ⟨m, hm, rfl⟩

end Tup.GenDir
