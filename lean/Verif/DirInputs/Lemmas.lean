import Verif.DirInputs.Spec
import Verif.Links.OutputsLemmas
import Verif.Links.InputsLemmas
import Verif.Lookup.Lemmas

/-! Lemmas about the inputs of a directory. -/

namespace Tup.DirInputs

open Tup.Db Tup.Links Tup.Lookup

variable {db db' db'' : Db}

theorem Good.bounded (h : Good db) : Bounded db := by
  intro i hi
  cases hn : db.node i with
  | none => rfl
  | some n => have := (h.sound.node i n hn).2; omega

/-- What the first step keeps: the rows but for new ghosts, and everything else. -/
structure Ext (db db' : Db) : Prop where
  ghosts : OnlyGhosts db db'
  normal : db'.normal = db.normal
  sticky : db'.sticky = db.sticky
  create : db'.create = db.create
  gh : db'.ghosts = db.ghosts

theorem Ext.refl (db : Db) : Ext db db :=
  ⟨⟨fun _ _ h => h, fun i n h h' => by rw [h'] at h; cases h⟩, rfl, rfl, rfl, rfl⟩

theorem Ext.trans (h : Ext db db') (g : Ext db' db'') : Ext db db'' := by
  refine ⟨⟨fun i n hn => g.ghosts.kept i n (h.ghosts.kept i n hn), fun i n hn hz => ?_⟩, g.normal.trans h.normal,
    g.sticky.trans h.sticky, g.create.trans h.create, g.gh.trans h.gh⟩
  cases hm : db'.node i with
  | some m =>
    have := g.ghosts.kept i m hm
    rw [hn] at this; cases this
    exact h.ghosts.new i n hm hz
  | none =>
    obtain ⟨h1, h2, h3⟩ := g.ghosts.new i n hn hm
    refine ⟨h1, h2, fun j hj => h3 j ?_⟩
    obtain ⟨m, a, b⟩ := hj
    exact ⟨m, h.ghosts.kept j m a, b⟩

theorem fresh_pos (node : Nat → Option Node) (t : Nat) : 0 < fresh node t := by
  induction t with
  | zero => simp [fresh]
  | succ n ih => unfold fresh; split <;> omega

theorem insert_ok (h : Good db) {d : Nat} {name : Str} (hn : db.select d name = none) :
    Good (db.insertNode { dir := d, kind := .ghost, name := name }).1 ∧
      Ext db (db.insertNode { dir := d, kind := .ghost, name := name }).1 ∧
      At (db.insertNode { dir := d, kind := .ghost, name := name }).1 d name
        (db.insertNode { dir := d, kind := .ghost, name := name }).2 := by
  have hb := h.bounded
  have hno := (select_none_iff hb).1 hn
  obtain ⟨a1, a2, a3⟩ := adds_insert hb ({ dir := d, kind := .ghost, name := name } : Node)
  have hbd := insert_bounded hb ({ dir := d, kind := .ghost, name := name } : Node)
  have hu := insert_unique hb h.unique (n := { dir := d, kind := .ghost, name := name }) hno
  have hpos : 0 < (db.insertNode ({ dir := d, kind := .ghost, name := name } : Node)).2 := fresh_pos _ _
  have hkept : ∀ i n, db.node i = some n →
      (db.insertNode ({ dir := d, kind := .ghost, name := name } : Node)).1.node i = some n := by
    intro i n hi
    rw [a3 i (fun he => by rw [← he, hi] at a1; cases a1)]
    exact hi
  have hsome : ∀ i, (db.node i).isSome = true →
      ((db.insertNode ({ dir := d, kind := .ghost, name := name } : Node)).1.node i).isSome = true := by
    intro i hi
    obtain ⟨n, hn⟩ := Option.isSome_iff_exists.1 hi
    rw [hkept i n hn]; rfl
  generalize hN : ({ dir := d, kind := .ghost, name := name } : Node) = N at *
  have hnorm : (db.insertNode N).1.normal = db.normal := rfl
  have hst : (db.insertNode N).1.sticky = db.sticky := rfl
  refine ⟨⟨⟨?_, ?_, ?_⟩, hu⟩, ⟨⟨hkept, ?_⟩, rfl, rfl, rfl, rfl⟩, ⟨N, a2, by rw [← hN], by rw [← hN]⟩⟩
  · intro a n ha
    refine ⟨?_, lt_top hbd ha⟩
    by_cases hi : a = (db.insertNode N).2
    · rw [hi]; exact hpos
    · rw [a3 a hi] at ha
      exact (h.sound.node a n ha).1
  · intro a b hab
    rw [hnorm] at hab
    obtain ⟨x, y⟩ := h.sound.normal a b hab
    exact ⟨hsome a x, hsome b y⟩
  · intro a b hab
    rw [hst] at hab
    obtain ⟨x, y⟩ := h.sound.sticky a b hab
    exact ⟨hsome a x, hsome b y⟩
  · intro i n hi hz
    by_cases he : i = (db.insertNode N).2
    · rw [he, a2] at hi
      cases hi
      rw [← hN]
      exact ⟨rfl, rfl, hno⟩
    · rw [a3 i he, hz] at hi; cases hi

theorem at_mono (h : Ext db db') {d i : Nat} {name : Str} (ha : At db d name i) : At db' d name i := by
  obtain ⟨n, h1, h2⟩ := ha
  exact ⟨n, h.ghosts.kept i n h1, h2⟩

theorem leads_mono (h : Ext db db') {d a : Nat} {p : List Str} (hl : Leads db d p a) : Leads db' d p a := by
  induction hl with
  | here d => exact .here d
  | down h1 _ ih => exact .down (at_mono h h1) ih

theorem leads_unique (h : Unique db) {d a b : Nat} {p : List Str} (hl : Leads db d p a) (hm : Leads db d p b) : a = b := by
  induction hl with
  | here d => cases hm; rfl
  | down h1 _ ih =>
    cases hm with
    | down g1 g2 =>
      obtain ⟨n, x1, x2, x3⟩ := h1
      obtain ⟨m, y1, y2, y3⟩ := g1
      have := h _ _ n m x1 y1 (x2.trans y2.symm) (x3.trans y3.symm)
      subst this
      exact ih g2

/-- The walk makes the path, and leads to its end. -/
theorem walk_ok (p : List Str) : ∀ {db : Db} (d : Nat), Good db →
    Good (walk db d p).1 ∧ Ext db (walk db d p).1 ∧ Leads (walk db d p).1 d p (walk db d p).2 := by
  induction p with
  | nil => intro db d h; exact ⟨h, .refl db, .here d⟩
  | cons name p ih =>
    intro db d h
    unfold walk
    cases hs : db.select d name with
    | some j =>
      dsimp only
      obtain ⟨h1, h2, h3⟩ := ih j h
      exact ⟨h1, h2, .down (at_mono h2 (select_some hs)) h3⟩
    | none =>
      dsimp only
      obtain ⟨g1, g2, g3⟩ := insert_ok h hs
      obtain ⟨h1, h2, h3⟩ := ih (db.insertNode { dir := d, kind := .ghost, name := name }).2 g1
      exact ⟨h1, g2.trans h2, .down (at_mono h2 g3) h3⟩

/-- The node at the end of a path with at least one name has a row. -/
theorem leads_node {d a : Nat} {p : List Str} (hl : Leads db d p a) (hp : p ≠ []) : ∃ n, db.node a = some n := by
  induction hl with
  | here d => exact absurd rfl hp
  | down h1 h2 ih =>
    rename_i path
    cases path with
    | nil =>
      cases h2
      obtain ⟨n, h, _⟩ := h1
      exact ⟨n, h⟩
    | cons _ _ => exact ih (by simp)

/-- What `skipped` lets through. -/
def Plain (db : Db) (a : Nat) : Prop := ∃ n, db.node a = some n ∧ n.kind ≠ .dir ∧ n.kind ≠ .generatedDir ∧ n.mtime.1 ≠ 0

theorem plain_iff {a : Nat} : skipped db a = false ↔ Plain db a := by
  unfold skipped Plain
  cases hn : db.node a with
  | none => simp
  | some n => simp [and_assoc]

theorem plain_ext (h : Ext db db') {a : Nat} {n : Node} (hn : db.node a = some n) : Plain db' a ↔ Plain db a := by
  have := h.ghosts.kept a n hn
  unfold Plain
  rw [hn, this]

/-- One list of paths. -/
theorem fold_ok (d : Nat) (ps : List (List Str)) : ∀ (s : Db × List Nat), Good s.1 → Asc s.2 → (∀ a ∈ s.2, (s.1.node a).isSome) →
    Good (ps.foldl (addNode d) s).1 ∧ Ext s.1 (ps.foldl (addNode d) s).1 ∧ Asc (ps.foldl (addNode d) s).2 ∧
      (∀ a ∈ (ps.foldl (addNode d) s).2, ((ps.foldl (addNode d) s).1.node a).isSome) ∧
      (∀ a, a ∈ (ps.foldl (addNode d) s).2 ↔ a ∈ s.2 ∨ ∃ p ∈ ps, p ≠ [] ∧ Leads (ps.foldl (addNode d) s).1 d p a ∧
        Plain (ps.foldl (addNode d) s).1 a) ∧
      ∀ p ∈ ps, ∃ a, Leads (ps.foldl (addNode d) s).1 d p a := by
  induction ps with
  | nil => intro s h1 h2 h3; exact ⟨h1, .refl _, h2, h3, by simp, by simp⟩
  | cons p ps ih =>
    intro s h1 h2 h3
    rw [List.foldl_cons]
    by_cases hp : p = []
    · have hs : addNode d s p = s := by unfold addNode; rw [if_pos hp]
      rw [hs]
      obtain ⟨i1, i2, i3, i4, i5, i6⟩ := ih s h1 h2 h3
      refine ⟨i1, i2, i3, i4, fun a => ?_, fun q hq => ?_⟩
      · rw [i5 a]
        constructor
        · rintro (h | ⟨q, hq, hr⟩)
          · exact .inl h
          · exact .inr ⟨q, List.mem_cons_of_mem _ hq, hr⟩
        · rintro (h | ⟨q, hq, hr, hr'⟩)
          · exact .inl h
          · rcases List.mem_cons.1 hq with rfl | hq
            · exact absurd hp hr
            · exact .inr ⟨q, hq, hr, hr'⟩
      · rcases List.mem_cons.1 hq with rfl | hq
        · rw [hp]; exact ⟨d, .here d⟩
        · exact i6 q hq
    · obtain ⟨w1, w2, w3⟩ := walk_ok p d h1
      have hs : addNode d s p = ((walk s.1 d p).1, if skipped (walk s.1 d p).1 (walk s.1 d p).2 then s.2
          else addId (walk s.1 d p).2 s.2) := by unfold addNode; rw [if_neg hp]
      rw [hs]
      obtain ⟨n, hn⟩ := leads_node w3 hp
      generalize walk s.1 d p = r at *
      have hm : ∀ a, a ∈ (if skipped r.1 r.2 then s.2 else addId r.2 s.2) ↔ a ∈ s.2 ∨ (a = r.2 ∧ Plain r.1 r.2) := by
        intro a
        cases hk : skipped r.1 r.2 with
        | true =>
          have : ¬ Plain r.1 r.2 := fun h => by rw [plain_iff.2 h] at hk; cases hk
          simp [this]
        | false =>
          have := plain_iff.1 hk
          simp only [Bool.false_eq_true, if_false, mem_addId]
          grind
      have ha : Asc (if skipped r.1 r.2 then s.2 else addId r.2 s.2) := by
        split
        · exact h2
        · exact asc_addId h2
      generalize (if skipped r.1 r.2 then s.2 else addId r.2 s.2) = t at *
      have ht : ∀ a ∈ t, (r.1.node a).isSome := by
        intro a hat
        rcases (hm a).1 hat with h | ⟨rfl, _⟩
        · obtain ⟨m, hm⟩ := Option.isSome_iff_exists.1 (h3 a h)
          rw [w2.ghosts.kept a m hm]; rfl
        · rw [hn]; rfl
      obtain ⟨i1, i2, i3, i4, i5, i6⟩ := ih (r.1, t) w1 ha ht
      refine ⟨i1, w2.trans i2, i3, i4, fun a => ?_, fun q hq => ?_⟩
      · rw [i5 a]
        constructor
        · rintro (h | ⟨q, hq, hr⟩)
          · rcases (hm a).1 h with h | ⟨rfl, hpl⟩
            · exact .inl h
            · exact .inr ⟨p, List.mem_cons_self, hp, leads_mono i2 w3, (plain_ext i2 hn).2 hpl⟩
          · exact .inr ⟨q, List.mem_cons_of_mem _ hq, hr⟩
        · rintro (h | ⟨q, hq, hr, hl, hpl⟩)
          · exact .inl ((hm a).2 (.inl h))
          · rcases List.mem_cons.1 hq with rfl | hq
            · have : a = r.2 := leads_unique i1.unique hl (leads_mono i2 w3)
              subst this
              exact .inl ((hm _).2 (.inr ⟨rfl, (plain_ext i2 hn).1 hpl⟩))
            · exact .inr ⟨q, hq, hr, hl, hpl⟩
      · rcases List.mem_cons.1 hq with rfl | hq
        · exact ⟨r.2, leads_mono i2 w3⟩
        · exact i6 q hq

theorem touched_ok (h : Good db) (v : Nat) (reads vars : List (List Str)) :
    Good (touched db v reads vars).1 ∧ Ext db (touched db v reads vars).1 ∧
      (∀ a ∈ (touched db v reads vars).2, ((touched db v reads vars).1.node a).isSome) ∧
      (∀ a, a ∈ (touched db v reads vars).2 ↔ Used (touched db v reads vars).1 v reads vars a ∧ Plain (touched db v reads vars).1 a) ∧
      (∀ p ∈ reads, ∃ a, Leads (touched db v reads vars).1 1 p a) ∧ ∀ p ∈ vars, ∃ a, Leads (touched db v reads vars).1 v p a := by
  unfold touched
  obtain ⟨a1, a2, a3, a4, a5, a6⟩ := fold_ok 1 reads (db, []) h List.Pairwise.nil (by simp)
  obtain ⟨b1, b2, b3, b4, b5, b6⟩ := fold_ok v vars _ a1 a3 a4
  refine ⟨b1, a2.trans b2, b4, fun a => ?_, fun p hp => ?_, b6⟩
  · rw [b5 a, a5 a]
    unfold Used
    constructor
    · rintro ((h | ⟨p, hp, hne, hl, hpl⟩) | ⟨p, hp, hne, hl, hpl⟩)
      · cases h
      · obtain ⟨n, hn⟩ := leads_node hl hne
        exact ⟨.inl ⟨p, hp, hne, leads_mono b2 hl⟩, (plain_ext b2 hn).2 hpl⟩
      · exact ⟨.inr ⟨p, hp, hne, hl⟩, hpl⟩
    · rintro ⟨⟨p, hp, hne, hl⟩ | ⟨p, hp, hne, hl⟩, hpl⟩
      · obtain ⟨a', hl'⟩ := a6 p hp
        have := leads_unique b1.unique hl (leads_mono b2 hl')
        subst this
        obtain ⟨n, hn⟩ := leads_node hl' hne
        exact .inl (.inr ⟨p, hp, hne, hl', (plain_ext b2 hn).1 hpl⟩)
      · exact .inr ⟨p, hp, hne, hl, hpl⟩
  · obtain ⟨a, hl⟩ := a6 p hp
    exact ⟨a, leads_mono b2 hl⟩

theorem gather_ok (db : Db) (tmp : List Nat) : ∀ root : List Nat, Asc root →
    Asc (gather db root tmp) ∧ ∀ a, a ∈ gather db root tmp ↔ a ∈ root ∨ (a ∈ tmp ∧ gitignore db a = false) := by
  unfold gather
  induction tmp with
  | nil => intro root h; exact ⟨h, by simp⟩
  | cons i tmp ih =>
    intro root h
    rw [List.foldl_cons]
    cases hg : gitignore db i with
    | true =>
      simp only [if_true]
      obtain ⟨h1, h2⟩ := ih root h
      refine ⟨h1, fun a => ?_⟩
      rw [h2 a, List.mem_cons]
      grind
    | false =>
      simp only [Bool.false_eq_true, if_false]
      obtain ⟨h1, h2⟩ := ih (addId i root) (asc_addId h)
      refine ⟨h1, fun a => ?_⟩
      rw [h2 a, List.mem_cons, mem_addId]
      grind

theorem known_iff (h : Good db) {p : List Str} : ∀ {d : Nat}, known db d p = true ↔ ∃ a, Leads db d p a := by
  induction p with
  | nil => intro d; exact ⟨fun _ => ⟨d, .here d⟩, fun _ => rfl⟩
  | cons name p ih =>
    intro d
    unfold known
    cases hs : db.select d name with
    | none =>
      dsimp only
      constructor
      · intro h; cases h
      · rintro ⟨a, hl⟩
        cases hl with
        | down h1 _ => exact absurd h1 ((select_none_iff h.bounded).1 hs _)
    | some j =>
      dsimp only
      rw [ih]
      constructor
      · rintro ⟨a, hl⟩; exact ⟨a, .down (select_some hs) hl⟩
      · rintro ⟨a, hl⟩
        cases hl with
        | down h1 h2 =>
          have := (select_iff h.bounded h.unique).2 h1
          rw [hs] at this; cases this
          exact ⟨a, h2⟩

/-! ### The new rows -/

theorem OnWay.mono (h : Ext db db') {d i : Nat} {ps : List (List Str)} (hw : OnWay db d ps i) : OnWay db' d ps i := by
  obtain ⟨p, hp, q, r, h1, h2, h3⟩ := hw
  exact ⟨p, hp, q, r, h1, h2, leads_mono h h3⟩

theorem walk_way (p : List Str) : ∀ {db : Db} (d : Nat), Good db → ∀ i, ((walk db d p).1.node i).isSome → db.node i = none →
    ∃ q r, p = q ++ r ∧ q ≠ [] ∧ Leads (walk db d p).1 d q i := by
  induction p with
  | nil => intro db d h i hi hz; rw [walk, hz] at hi; cases hi
  | cons name p ih =>
    intro db d h i hi hz
    unfold walk at hi ⊢
    cases hs : db.select d name with
    | some j =>
      rw [hs] at hi
      dsimp only at hi ⊢
      obtain ⟨q, r, h1, h2, h3⟩ := ih j h i hi hz
      obtain ⟨w1, w2, w3⟩ := walk_ok p j h
      exact ⟨name :: q, r, by rw [h1]; rfl, by simp, .down (at_mono w2 (select_some hs)) h3⟩
    | none =>
      rw [hs] at hi
      dsimp only at hi ⊢
      obtain ⟨g1, g2, g3⟩ := insert_ok h hs
      obtain ⟨w1, w2, w3⟩ := walk_ok p (db.insertNode { dir := d, kind := .ghost, name := name }).2 g1
      have ha := at_mono w2 g3
      by_cases hj : i = (db.insertNode { dir := d, kind := .ghost, name := name }).2
      · exact ⟨[name], p, rfl, by simp, .down ha (by rw [hj]; exact .here _)⟩
      · have hz' : (db.insertNode { dir := d, kind := .ghost, name := name }).1.node i = none := by
          rw [(adds_insert h.bounded _).2.2 i hj]; exact hz
        obtain ⟨q, r, h1, h2, h3⟩ := ih _ g1 i hi hz'
        exact ⟨name :: q, r, by rw [h1]; rfl, by simp, .down ha h3⟩

theorem addNode_ok (d : Nat) (s : Db × List Nat) (p : List Str) (h : Good s.1) :
    Good (addNode d s p).1 ∧ Ext s.1 (addNode d s p).1 ∧
      ∀ i, ((addNode d s p).1.node i).isSome → s.1.node i = none →
        ∃ q r, p = q ++ r ∧ q ≠ [] ∧ Leads (addNode d s p).1 d q i := by
  by_cases hp : p = []
  · have hs : addNode d s p = s := by unfold addNode; rw [if_pos hp]
    rw [hs]
    exact ⟨h, .refl _, fun i h1 h2 => by rw [h2] at h1; cases h1⟩
  · have hs : (addNode d s p).1 = (walk s.1 d p).1 := by unfold addNode; rw [if_neg hp]
    rw [hs]
    exact ⟨(walk_ok p d h).1, (walk_ok p d h).2.1, walk_way p d h⟩

theorem fold_way (d : Nat) (ps : List (List Str)) : ∀ (s : Db × List Nat), Good s.1 →
    Good (ps.foldl (addNode d) s).1 ∧ Ext s.1 (ps.foldl (addNode d) s).1 ∧
      ∀ i, ((ps.foldl (addNode d) s).1.node i).isSome → s.1.node i = none → OnWay (ps.foldl (addNode d) s).1 d ps i := by
  induction ps with
  | nil => intro s h; exact ⟨h, .refl _, fun i h1 h2 => by rw [List.foldl_nil, h2] at h1; cases h1⟩
  | cons p ps ih =>
    intro s h
    rw [List.foldl_cons]
    obtain ⟨a1, a2, a3⟩ := addNode_ok d s p h
    obtain ⟨b1, b2, b3⟩ := ih _ a1
    refine ⟨b1, a2.trans b2, fun i hi hz => ?_⟩
    cases hm : (addNode d s p).1.node i with
    | none =>
      obtain ⟨q, hq, hr⟩ := b3 i hi hm
      exact ⟨q, List.mem_cons_of_mem _ hq, hr⟩
    | some m =>
      obtain ⟨q, r, h1, h2, h3⟩ := a3 i (by rw [hm]; rfl) hz
      exact ⟨p, List.mem_cons_self, q, r, h1, h2, leads_mono b2 h3⟩

theorem touched_made (h : Good db) (v : Nat) (reads vars : List (List Str)) :
    Made db v reads vars (touched db v reads vars).1 := by
  obtain ⟨t1, t2, t3, t4, t5, t6⟩ := touched_ok h v reads vars
  refine ⟨t2.ghosts, t5, t6, fun i hi hz => ?_⟩
  obtain ⟨a1, a2, a3⟩ := fold_way 1 reads (db, []) h
  obtain ⟨b1, b2, b3⟩ := fold_way v vars _ a1
  cases hm : (reads.foldl (addNode 1) (db, [])).1.node i with
  | none => exact .inr (b3 i hi hm)
  | some m => exact .inl ((a3 i (by rw [hm]; rfl) hz).mono b2)

/-- The last name of a path that leads somewhere is the name of the node. -/
theorem leads_name {d a : Nat} {p : List Str} (hl : Leads db d p a) (hp : p ≠ []) :
    ∃ n, db.node a = some n ∧ n.name ∈ p := by
  induction hl with
  | here d => exact absurd rfl hp
  | down h1 h2 ih =>
    rename_i path
    cases path with
    | nil =>
      cases h2
      obtain ⟨n, h, _, h3⟩ := h1
      exact ⟨n, h, by rw [h3]; exact List.mem_cons_self⟩
    | cons _ _ =>
      obtain ⟨n, h, h3⟩ := ih (by simp)
      exact ⟨n, h, List.mem_cons_of_mem _ h3⟩

/-- Each name on a path that leads somewhere has a row. -/
theorem leads_rows {d a : Nat} {p : List Str} (hl : Leads db d p a) : ∀ name ∈ p, ∃ i n, db.node i = some n ∧ n.name = name := by
  induction hl with
  | here d => intro _ h; cases h
  | down h1 h2 ih =>
    intro name hn
    rcases List.mem_cons.1 hn with rfl | hn
    · obtain ⟨n, h, _, h3⟩ := h1
      exact ⟨_, n, h, h3⟩
    · exact ih name hn

/-- A path that leads to an old row was there before. -/
theorem leads_old (hr : Rooted db) (h : OnlyGhosts db db') (h0 : db'.node 0 = none) {d a : Nat} {p : List Str} (hl : Leads db' d p a) :
    p ≠ [] → ∀ n, db.node a = some n → Leads db d p a := by
  have old : ∀ {d i : Nat} {name : Str} {n : Node}, At db' d name i → db.node i = some n → At db d name i := by
    rintro d i name n ⟨m, h1, h2⟩ hn
    have := h.kept i n hn
    rw [h1] at this; cases this
    exact ⟨n, hn, h2⟩
  induction hl with
  | here d => intro hp; exact absurd rfl hp
  | down h1 h2 ih =>
    rename_i path
    intro _ n hn
    cases hpa : path with
    | nil =>
      subst hpa
      cases h2
      exact .down (old h1 hn) (.here _)
    | cons x y =>
      subst hpa
      have g := ih (by simp) n hn
      refine .down ?_ g
      cases g with
      | down g1 _ =>
        obtain ⟨mm, m1, m2, _⟩ := g1
        rcases hr _ mm m1 with hz | hs
        · obtain ⟨k, k1, _⟩ := h1
          rw [m2] at hz
          rw [hz, h0] at k1; cases k1
        · rw [m2] at hs
          obtain ⟨k, hk⟩ := Option.isSome_iff_exists.1 hs
          exact old h1 hk

/-! ### The links -/

theorem diff_disj {as bs : List Nat} (ha : Asc as) (hb : Asc bs) (a : Nat) (h : .left a ∈ diff as bs) :
    ¬ .right a ∈ diff as bs :=
  fun h' => (((mem_diff ha hb).1 a).1 h).2 (((mem_diff ha hb).2 a).1 h').1

/-- The tables while the links of `d` are being changed from those in `db`; `D` says what has been dealt with. -/
structure Mid (db : Db) (d : Nat) (W : Ev → Prop) (D : Ev → Prop) (s : Db) : Prop where
  sub : ∀ e, D e → W e
  node : s.node = db.node
  create : s.create = db.create
  sticky : s.sticky = db.sticky
  normal : ∀ a b, s.normal a b = true ↔ (b ≠ d ∧ db.normal a b = true) ∨
    (b = d ∧ ((db.normal a b = true ∧ ¬ D (.right a)) ∨ D (.left a)))
  ghosts : ∀ a, s.ghosts a = true ↔ db.ghosts a = true ∨ (D (.right a) ∧ db.ghosty a = true)

theorem mem_inputs (h : Sound db) {a d : Nat} : a ∈ normalInputs db d ↔ db.normal a d = true := by
  unfold normalInputs
  rw [List.mem_filter, List.mem_range]
  constructor
  · exact fun h => h.2
  · intro hn
    obtain ⟨n, hx⟩ := Option.isSome_iff_exists.1 (h.normal a d hn).1
    exact ⟨(h.node a n hx).2, hn⟩

theorem mid_start (db : Db) (d : Nat) (W : Ev → Prop) : Mid db d W (fun _ => False) db :=
  ⟨fun _ h => h.elim, rfl, rfl, rfl, fun a b => by grind, fun a => by simp⟩

theorem mid_step {d : Nat} {W D : Ev → Prop} {e : Ev} {s s' : Db} (hW : ∀ a, W (.left a) → ¬ W (.right a)) (he : W e)
    (hp : Mid db d W D s) (hs : step1 (addDirLink d) (rmDirLink d) s e = some s') : Mid db d W (fun x => x = e ∨ D x) s' := by
  obtain ⟨h0, h1, h2, h3, h4, h5⟩ := hp
  have h0' : ∀ x, (x = e ∨ D x) → W x := by
    rintro x (rfl | h)
    · exact he
    · exact h0 x h
  cases e with
  | left a =>
    simp only [step1, addDirLink] at hs
    split at hs
    · cases hs
    · unfold insertLink at hs
      split at hs
      · cases hs
      · cases hs
        refine ⟨h0', h1, h2, h3, fun x y => ?_, fun x => ?_⟩
        · simp only [Bool.or_eq_true, Bool.and_eq_true, decide_eq_true_eq, h4, Ev.left.injEq, reduceCtorEq, false_or]
          grind
        · simp only [h5, reduceCtorEq, false_or]
  | right a =>
    simp only [step1, rmDirLink, Option.some.injEq] at hs
    subst hs
    have hg : s.ghosty a = db.ghosty a := by unfold Db.ghosty Db.isKind; rw [h1]
    refine ⟨h0', h1, h2, h3, fun x y => ?_, fun x => ?_⟩
    · simp only [removeLink, Db.addGhost, Bool.and_eq_true, Bool.not_eq_true', Bool.and_eq_false_iff, decide_eq_false_iff_not, h4,
        Ev.right.injEq, reduceCtorEq, false_or]
      have hx : x = a → ¬ D (.left x) := fun h hd => hW x (h0 _ hd) (h ▸ he)
      grind
    · simp only [removeLink, Db.addGhost, Bool.or_eq_true, Bool.and_eq_true, decide_eq_true_eq, h5, Ev.right.injEq, hg]
      grind

/-- A generated file that is new among the inputs. -/
def NewGenerated (db : Db) (d : Nat) (root : List Nat) (a : Nat) : Prop :=
  a ∈ root ∧ db.isKind .generated a = true ∧ db.normal a d = false

theorem write_ok (h : Sound db) {d : Nat} {root : List Nat} (hr : Asc root) (hw : writeDirInputs db d root = some db') :
    db'.node = db.node ∧ db'.create = db.create ∧ db'.sticky = db.sticky ∧
      (∀ a b, db'.normal a b = true ↔ (b ≠ d ∧ db.normal a b = true) ∨ (b = d ∧ a ∈ root)) ∧
      (∀ a, db'.ghosts a = true ↔ db.ghosts a = true ∨ (db.normal a d = true ∧ a ∉ root ∧ db.ghosty a = true)) ∧
      (∀ a, ¬ NewGenerated db d root a) ∧ ∀ a, db.sticky a d = false := by
  unfold writeDirInputs at hw
  split at hw
  · cases hw
  · rename_i hst
    have hn : Asc (normalInputs db d) := asc_filter _ (asc_range _)
    have hm := compare_inv hr hn (Mid db d (· ∈ diff root (normalInputs db d))) (mid_start db d _)
      (fun D e s s' _ he hp hs => mid_step (diff_disj hr hn) he hp hs) hw
    have hg := compare_inv hr hn (fun D s => s.node = db.node ∧ ∀ a, D (.left a) → db.isKind .generated a = false)
      ⟨rfl, fun a h => h.elim⟩ (fun D e s s' _ _ hp hs => by
        obtain ⟨h1, h2⟩ := hp
        cases e with
        | left a =>
          simp only [step1, addDirLink] at hs
          split at hs
          · cases hs
          · rename_i hk
            unfold insertLink at hs
            split at hs
            · cases hs
            · cases hs
              refine ⟨h1, fun x hx => ?_⟩
              rcases hx with hx | hx
              · cases hx
                rw [← isKind_congr (congrFun h1 a) .generated]
                simpa using hk
              · exact h2 x hx
        | right a =>
          simp only [step1, rmDirLink, Option.some.injEq] at hs
          subst hs
          refine ⟨h1, fun x hx => ?_⟩
          rcases hx with hx | hx
          · cases hx
          · exact h2 x hx) hw
    obtain ⟨_, m1, m2, m3, m4, m5⟩ := hm
    have hl := (mem_diff hr hn).1
    have hrr := (mem_diff hr hn).2
    refine ⟨m1, m2, m3, fun a b => ?_, fun a => ?_, fun a ha => ?_, fun a => ?_⟩
    · rw [m4 a b]
      simp only [hl, hrr, mem_inputs h]
      by_cases hb : b = d
      · subst hb; grind
      · simp [hb]
    · rw [m5 a]
      simp only [hrr, mem_inputs h]
      grind
    · obtain ⟨x, y, z⟩ := ha
      have := hg.2 a ((hl a).2 ⟨x, fun hc => by rw [(mem_inputs h).1 hc] at z; cases z⟩)
      rw [this] at y; cases y
    · cases hs : db.sticky a d with
      | false => rfl
      | true =>
        obtain ⟨n, hx⟩ := Option.isSome_iff_exists.1 (h.sticky a d hs).1
        have : a ∈ stickyInputs db d := List.mem_filter.2 ⟨List.mem_range.2 (h.node a n hx).2, hs⟩
        rw [Decidable.not_not.1 hst] at this
        cases this

theorem write_total (h : Sound db) {d : Nat} {root : List Nat} (hr : Asc root) (hd : d ≠ 0) (hdr : d ∉ root)
    (hroot : ∀ a ∈ root, (db.node a).isSome) (hst : ∀ a, db.sticky a d = false) (hg : ∀ a, ¬ NewGenerated db d root a) :
    ∃ db', writeDirInputs db d root = some db' := by
  unfold writeDirInputs
  have hs : stickyInputs db d = [] := by
    unfold stickyInputs
    rw [List.filter_eq_nil_iff]
    intro a _
    rw [hst a]; simp
  rw [if_neg (by rw [hs]; simp)]
  have hn : Asc (normalInputs db d) := asc_filter _ (asc_range _)
  refine compare_progress hr hn (Mid db d (· ∈ diff root (normalInputs db d))) (mid_start db d _)
    (fun D e s s' _ he hp hs => mid_step (diff_disj hr hn) he hp hs) ?_
  intro D e s hD he hp
  cases e with
  | right a => exact ⟨_, rfl⟩
  | left a =>
    obtain ⟨ha, hna⟩ := ((mem_diff hr hn).1 a).1 he
    rw [mem_inputs h] at hna
    have hk : s.isKind .generated a = false := by
      rw [isKind_congr (congrFun hp.node a) .generated]
      cases hc : db.isKind .generated a with
      | false => rfl
      | true => exact absurd ⟨ha, hc, by simpa using hna⟩ (hg a)
    have hnn : ¬ s.normal a d = true := by
      rw [hp.normal a d]
      grind
    obtain ⟨n, hx⟩ := Option.isSome_iff_exists.1 (hroot a ha)
    have h0 := (h.node a n hx).1
    have hi : ¬ (a = d ∨ a = 0 ∨ d = 0 ∨ s.normal a d = true) := by
      rintro (h | h | h | h)
      · exact hdr (h ▸ ha)
      · omega
      · exact hd h
      · exact hnn h
    simp only [step1, addDirLink, hk, Bool.false_eq_true, if_false]
    unfold insertLink
    rw [if_neg hi]
    exact ⟨_, rfl⟩

end Tup.DirInputs
