import Verif.External.Spec

/-! Lemmas about paths, and about what the scan changes. -/

namespace Tup.External

open Tup.Db

variable {d : Disk}

theorem leads_snoc (i : Nat) (p : List Str) (name : Str) :
    d.leads i (p ++ [name]) = (d.leads i p).bind fun k => d.enter k name := by
  induction p generalizing i with
  | nil =>
    simp only [List.nil_append, Disk.leads, Option.bind_some]
    cases d.enter i name <;> rfl
  | cons m p ih =>
    simp only [List.cons_append, Disk.leads]
    cases d.enter i m with
    | none => rfl
    | some k => exact ih k

theorem timeAt_snoc (i : Nat) (p : List Str) (name : Str) :
    d.timeAt i (p ++ [name]) = match d.leads i p with
      | none => gone
      | some k => match d.lookup k name with
        | none => gone
        | some j => (d.obj j).time := by
  induction p generalizing i with
  | nil => rfl
  | cons m p ih =>
    have : d.timeAt i (m :: p ++ [name]) = match d.enter i m with
        | none => gone
        | some k => d.timeAt k (p ++ [name]) := by
      cases p <;> rfl
    rw [this]
    simp only [Disk.leads]
    cases d.enter i m with
    | none => rfl
    | some k => exact ih k

theorem dirAt_snoc (i : Nat) (p : List Str) (name : Str) :
    d.dirAt i (p ++ [name]) = match d.leads i p with
      | none => false
      | some k => d.isDir k name := by
  induction p generalizing i with
  | nil => rfl
  | cons m p ih =>
    have : d.dirAt i (m :: p ++ [name]) = match d.enter i m with
        | none => false
        | some k => d.dirAt k (p ++ [name]) := by
      cases p <;> rfl
    rw [this]
    simp only [Disk.leads]
    cases d.enter i m with
    | none => rfl
    | some k => exact ih k

/-- The code finds out about an entry what is there. -/
theorem look_eq (p : List Str) (name : Str) :
    look d (d.leads d.root p) name = (d.time (p ++ [name]), d.leads d.root (p ++ [name]), d.dir (p ++ [name])) := by
  unfold Disk.time Disk.dir
  rw [timeAt_snoc, leads_snoc, dirAt_snoc]
  unfold look
  cases d.leads d.root p with
  | none => rfl
  | some i =>
    simp only [Option.bind_some]
    cases hl : d.lookup i name with
    | none =>
      have : d.isDir i name = false := by unfold Disk.isDir; rw [hl]
      simp [Disk.enter, this]
    | some j =>
      have hdir : d.obj j = .dir → d.isDir i name = true := by
        intro h
        unfold Disk.isDir Disk.follow
        simp [hl, h]
      simp only
      by_cases h : d.isDir i name = true
      · rw [if_pos (Or.inr h)]
        simp only [Disk.enter, h, if_true]
        rfl
      · rw [if_neg fun h' => h (h'.elim hdir id)]
        have h : d.isDir i name = false := by simpa using h
        simp [Disk.enter, h]

/-- If the time of a path is recorded as that of something that is not a directory, nothing is below it. -/
theorem below_gone {p q : List Str} (hd : d.dir p = false) (hq : q ≠ []) : d.time (p ++ q) = gone := by
  have hp : p ≠ [] := by rintro rfl; cases hd
  obtain ⟨p', name, rfl⟩ : ∃ p' name, p = p' ++ [name] := ⟨_, _, (List.dropLast_concat_getLast hp).symm⟩
  have hl : d.leads d.root (p' ++ [name]) = none := by
    rw [leads_snoc]
    unfold Disk.dir at hd
    rw [dirAt_snoc] at hd
    cases h : d.leads d.root p' with
    | none => rfl
    | some k =>
      rw [h] at hd
      simp only at hd
      simp [Disk.enter, hd]
  have hmore : ∀ r, d.leads d.root ((p' ++ [name]) ++ r) = none := by
    intro r
    suffices h : ∀ i (s : List Str), d.leads i s = none → d.leads i (s ++ r) = none from h _ _ hl
    intro i s
    induction s generalizing i with
    | nil => intro h; cases h
    | cons m s ih =>
      intro h
      simp only [List.cons_append, Disk.leads] at h ⊢
      cases hm : d.enter i m with
      | none => rfl
      | some k => rw [hm] at h; exact ih k h
  obtain ⟨q', last, rfl⟩ : ∃ q' last, q = q' ++ [last] := ⟨_, _, (List.dropLast_concat_getLast hq).symm⟩
  unfold Disk.time
  rw [← List.append_assoc, timeAt_snoc, hmore]

/-- `i` lies in the directory `a`, at some depth. -/
inductive Under (db : Db) (a : Nat) : Nat → Prop
  | refl : Under db a a
  | sub {i n} : Under db a n.dir → db.node i = some n → Under db a i

theorem Under.le {db : Db} (hw : Wf db) {a i : Nat} (h : Under db a i) : a ≤ i := by
  induction h with
  | refl => exact Nat.le_refl _
  | sub _ hn ih => have := hw.down _ _ hn; omega

theorem Under.trans {db : Db} {a b i : Nat} (h : Under db a b) (h' : Under db b i) : Under db a i := by
  induction h' with
  | refl => exact h
  | sub _ hn ih => exact .sub ih hn

theorem Under.comparable {db : Db} {a b i : Nat} (h : Under db a i) (h' : Under db b i) : Under db a b ∨ Under db b a := by
  induction h with
  | refl => exact .inr h'
  | @sub i n h hn ih =>
    cases h' with
    | refl => exact .inl (.sub h hn)
    | @sub _ m h' hm =>
      rw [hn] at hm
      cases hm
      exact ih h'

theorem Under.disjoint {db : Db} (hw : Wf db) {a b i : Nat} {n m : Node} (ha : db.node a = some n) (hb : db.node b = some m)
    (he : n.dir = m.dir) (hne : a ≠ b) (h : Under db a i) (h' : Under db b i) : False := by
  have key : ∀ {a b : Nat} {n m : Node}, db.node a = some n → db.node b = some m → n.dir = m.dir → a ≠ b →
      ¬ Under db a b := by
    intro a b n m ha hb he hne h
    cases h with
    | refl => exact hne rfl
    | @sub _ m' h hm =>
      rw [hb] at hm
      cases hm
      have h1 := h.le hw
      have h2 := hw.down _ _ ha
      omega
  rcases h.comparable h' with h | h
  · exact key ha hb he hne h
  · exact key hb ha he.symm (Ne.symm hne) h

/-- The nodes that the scan of directory `dt`, which stands for the path `p`, looks at. -/
inductive Seen (db : Db) (d : Disk) (dt : Nat) (p : List Str) : Nat → List Str → Prop
  | child {i n} : db.node i = some n → n.dir = dt → Seen db d dt p i (p ++ [n.name])
  | sub {i a n m q} : Seen db d dt p a q → db.node a = some m → d.dir q = true ∨ m.mtime ≠ d.time q →
      db.node i = some n → n.dir = a → Seen db d dt p i (q ++ [n.name])

theorem Seen.node {db : Db} {dt : Nat} {p q : List Str} {i : Nat} (h : Seen db d dt p i q) : ∃ n, db.node i = some n := by
  cases h with
  | child hn _ => exact ⟨_, hn⟩
  | sub _ _ _ hn _ => exact ⟨_, hn⟩

theorem Seen.under {db : Db} {dt : Nat} {p q : List Str} {i : Nat} (h : Seen db d dt p i q) : Under db dt i := by
  induction h with
  | child hn hd => exact .sub (hd ▸ .refl) hn
  | sub _ _ _ hn hd ih => exact .sub (by rw [hd]; exact ih) hn

/-- What is seen because of the entry `c` of the directory with path `p`. -/
def Part (db : Db) (d : Disk) (p : List Str) (c : Nat) (i : Nat) (q : List Str) : Prop :=
  ∃ n, db.node c = some n ∧ ((i = c ∧ q = p ++ [n.name]) ∨
    ((d.dir (p ++ [n.name]) = true ∨ n.mtime ≠ d.time (p ++ [n.name])) ∧ Seen db d c (p ++ [n.name]) i q))

theorem seen_iff {db : Db} {dt : Nat} {p q : List Str} {i : Nat} :
    Seen db d dt p i q ↔ ∃ c n, db.node c = some n ∧ n.dir = dt ∧ Part db d p c i q := by
  constructor
  · intro h
    induction h with
    | @child i n hn hd => exact ⟨i, n, hn, hd, n, hn, .inl ⟨rfl, rfl⟩⟩
    | @sub i a n m q h ha ho hn hd ih =>
      obtain ⟨c, nc, hc, hcd, n', hn', hp⟩ := ih
      rw [hc] at hn'
      cases hn'
      refine ⟨c, nc, hc, hcd, nc, hc, .inr ?_⟩
      rcases hp with ⟨rfl, rfl⟩ | ⟨hop, hs⟩
      · rw [hc] at ha
        cases ha
        exact ⟨ho, .child hn hd⟩
      · exact ⟨hop, .sub hs ha ho hn hd⟩
  · rintro ⟨c, n, hc, hcd, n', hn', hp⟩
    rw [hc] at hn'
    cases hn'
    rcases hp with ⟨rfl, rfl⟩ | ⟨hop, hs⟩
    · exact .child hc hcd
    · induction hs with
      | child hn hd => exact .sub (.child hc hcd) hc hop hn hd
      | sub _ ha ho hn hd ih => exact .sub ih ha ho hn hd

theorem Part.node {db : Db} {p q : List Str} {c i : Nat} (h : Part db d p c i q) : ∃ n, db.node i = some n := by
  obtain ⟨n, hn, ⟨rfl, _⟩ | ⟨_, hs⟩⟩ := h
  · exact ⟨n, hn⟩
  · exact hs.node

theorem Part.under {db : Db} {p q : List Str} {c i : Nat} (h : Part db d p c i q) : Under db c i := by
  obtain ⟨n, hn, ⟨rfl, _⟩ | ⟨_, hs⟩⟩ := h
  · exact .refl
  · exact hs.under

/-- The times of a set of nodes are brought up to date, and what depends on the changed ones is scheduled. -/
structure Effect (db db' : Db) (d : Disk) (S : Nat → List Str → Prop) : Prop where
  hit : ∀ i q n, S i q → db.node i = some n → db'.node i = some { n with mtime := d.time q }
  miss : ∀ i, db.node i = .none ∨ (∀ q, ¬ S i q) → db'.node i = db.node i
  modify : ∀ j, db'.modify j = true ↔ db.modify j = true ∨
    ((db.isKind .cmd j = true ∨ db.isKind .group j = true) ∧
      ∃ i q n, S i q ∧ db.node i = some n ∧ n.mtime ≠ d.time q ∧ db.normal i j = true)
  create : ∀ j, db'.create j = true ↔ db.create j = true ∨
    (db.isKind .dir j = true ∧ ∃ i q n, S i q ∧ db.node i = some n ∧ n.mtime ≠ d.time q ∧ db.normal i j = true)
  config : ∀ j, db'.config j = true ↔ db.config j = true ∨
    (db.isKind .file j = true ∧ ∃ i q n, S i q ∧ db.node i = some n ∧ n.mtime ≠ d.time q ∧ db.normal i j = true)
  top : db'.top = db.top
  normal : db'.normal = db.normal
  sticky : db'.sticky = db.sticky
  group : db'.group = db.group
  vars : db'.vars = db.vars
  variant : db'.variant = db.variant
  transient : db'.transient = db.transient
  ghosts : db'.ghosts = db.ghosts

theorem Effect.congr {db db' : Db} {S T : Nat → List Str → Prop} (h : Effect db db' d S) (he : ∀ i q, S i q ↔ T i q) :
    Effect db db' d T := by
  have : S = T := by funext i q; exact propext (he i q)
  exact this ▸ h

theorem Effect.none {db : Db} {S : Nat → List Str → Prop} (h : ∀ i q, ¬ S i q) : Effect db db d S := by
  refine ⟨fun i q _ hs => absurd hs (h i q), fun _ _ => rfl, ?_, ?_, ?_, rfl, rfl, rfl, rfl, rfl, rfl, rfl, rfl⟩ <;>
  · intro j
    constructor
    · exact .inl
    · rintro (hj | ⟨_, i, q, _, hs, _⟩)
      · exact hj
      · exact absurd hs (h i q)

/-- A row after the scan is the row before it, up to the time. -/
theorem Effect.row {db db' : Db} {S : Nat → List Str → Prop} (h : Effect db db' d S) (i : Nat) :
    (db.node i = .none ∧ db'.node i = .none) ∨ ∃ n t, db.node i = some n ∧ db'.node i = some { n with mtime := t } := by
  cases hn : db.node i with
  | none => exact .inl ⟨rfl, by rw [h.miss i (.inl hn), hn]⟩
  | some n =>
    right
    by_cases hs : ∃ q, S i q
    · obtain ⟨q, hq⟩ := hs
      exact ⟨n, _, rfl, h.hit i q n hq hn⟩
    · exact ⟨n, n.mtime, rfl, by rw [h.miss i (.inr fun q hq => hs ⟨q, hq⟩), hn]⟩

/-- Rows agree up to the time. -/
def Alike (db db' : Db) : Prop :=
  ∀ i, (db.node i = .none ∧ db'.node i = .none) ∨ ∃ n t, db.node i = some n ∧ db'.node i = some { n with mtime := t }

theorem Alike.symm {db db' : Db} (h : Alike db db') : Alike db' db := by
  intro i
  rcases h i with ⟨h1, h2⟩ | ⟨n, t, h1, h2⟩
  · exact .inl ⟨h2, h1⟩
  · exact .inr ⟨_, n.mtime, h2, h1⟩

theorem Alike.to {db db' : Db} (h : Alike db db') {i : Nat} {n : Node} (hn : db.node i = some n) :
    ∃ n', db'.node i = some n' ∧ n'.dir = n.dir ∧ n'.name = n.name ∧ n'.kind = n.kind := by
  rcases h i with ⟨h1, h2⟩ | ⟨n', t, h1, h2⟩
  · rw [hn] at h1; cases h1
  · rw [hn] at h1
    cases h1
    exact ⟨_, h2, rfl, rfl, rfl⟩

theorem Alike.isKind {db db' : Db} (h : Alike db db') (k : Kind) (i : Nat) : db'.isKind k i = db.isKind k i := by
  unfold Db.isKind
  rcases h i with ⟨h1, h2⟩ | ⟨n', t, h1, h2⟩ <;> rw [h1, h2]

theorem Alike.wf {db db' : Db} (h : Alike db db') (ht : db'.top = db.top) (hw : Wf db) : Wf db' := by
  constructor
  · intro i hi
    rw [ht] at hi
    rcases h i with ⟨_, h2⟩ | ⟨n', t, h1, h2⟩
    · exact h2
    · rw [hw.bounded i hi] at h1; cases h1
  · intro i n hn
    obtain ⟨m, hm, h1, _, _⟩ := h.symm.to hn
    rw [← h1]
    exact hw.down i m hm

theorem Alike.under {db db' : Db} (h : Alike db db') {a i : Nat} (hu : Under db a i) : Under db' a i := by
  induction hu with
  | refl => exact .refl
  | sub _ hn ih =>
    obtain ⟨m, hm, h1, _, _⟩ := h.to hn
    exact .sub (h1 ▸ ih) hm

theorem Alike.below {db db' : Db} (h : Alike db db') {s i : Nat} {p : List Str} (hu : Below db s i p) : Below db' s i p := by
  induction hu with
  | top => exact .top
  | @sub i a p n _ hn hd ih =>
    obtain ⟨m, hm, h1, h2, _⟩ := h.to hn
    exact h2 ▸ .sub ih hm (h1.trans hd)

/-- What is seen below a directory depends only on the rows below it. -/
theorem seen_congr {db db' : Db} (h : Alike db db') {dt : Nat} {p : List Str}
    (hs : ∀ i, Under db dt i → i ≠ dt → db'.node i = db.node i) (hw : Wf db) {i : Nat} {q : List Str} :
    Seen db d dt p i q → Seen db' d dt p i q := by
  intro hseen
  have hne : ∀ {i q}, Seen db d dt p i q → i ≠ dt := by
    intro i q hi
    have : ∃ n, db.node i = some n ∧ Under db dt n.dir := by
      cases hi with
      | child hn hd => exact ⟨_, hn, hd ▸ .refl⟩
      | sub h1 _ _ hn hd => exact ⟨_, hn, by rw [hd]; exact h1.under⟩
    obtain ⟨n, hn, hu⟩ := this
    have h1 := hu.le hw
    have h2 := hw.down _ _ hn
    omega
  induction hseen with
  | @child i n hn hd =>
    obtain ⟨m, hm, h1, h2, _⟩ := h.to hn
    exact h2 ▸ .child hm (h1.trans hd)
  | @sub i a n m q ha hna ho hn hd ih =>
    obtain ⟨n', hn', h1, h2, _⟩ := h.to hn
    refine h2 ▸ .sub ih ?_ ho hn' (h1.trans hd)
    rw [hs a ha.under (hne ha), hna]

theorem Effect.alike {db db' : Db} {S : Nat → List Str → Prop} (h : Effect db db' d S) : Alike db db' := h.row

theorem part_congr {db db' : Db} (h : Alike db db') (hw : Wf db) {c : Nat} {p : List Str}
    (hs : ∀ i, Under db c i → db'.node i = db.node i) {i : Nat} {q : List Str} :
    Part db d p c i q → Part db' d p c i q := by
  rintro ⟨n, hn, hp⟩
  refine ⟨n, by rw [hs c .refl, hn], hp.imp id fun ⟨h1, h2⟩ => ⟨h1, seen_congr h (fun i hi _ => hs i hi) hw h2⟩⟩

/-- One after the other. -/
theorem Effect.trans {db db₁ db₂ : Db} {S T : Nat → List Str → Prop} (h : Effect db db₁ d S) (h' : Effect db₁ db₂ d T)
    (hst : ∀ i q q', S i q → ¬ T i q') : Effect db db₂ d fun i q => S i q ∨ T i q := by
  have hmem : ∀ j, (∃ i q n, (S i q ∨ T i q) ∧ db.node i = some n ∧ n.mtime ≠ d.time q ∧ db.normal i j = true) ↔
      (∃ i q n, S i q ∧ db.node i = some n ∧ n.mtime ≠ d.time q ∧ db.normal i j = true) ∨
      (∃ i q n, T i q ∧ db₁.node i = some n ∧ n.mtime ≠ d.time q ∧ db₁.normal i j = true) := by
    intro j
    constructor
    · rintro ⟨i, q, n, hs | ht, hn, hm, hl⟩
      · exact .inl ⟨i, q, n, hs, hn, hm, hl⟩
      · refine .inr ⟨i, q, n, ht, ?_, hm, by rw [h.normal]; exact hl⟩
        rw [h.miss i (.inr fun q' hs => hst i q' q hs ht), hn]
    · rintro (⟨i, q, n, hs, hn, hm, hl⟩ | ⟨i, q, n, ht, hn, hm, hl⟩)
      · exact ⟨i, q, n, .inl hs, hn, hm, hl⟩
      · refine ⟨i, q, n, .inr ht, ?_, hm, by rw [← h.normal]; exact hl⟩
        rw [← h.miss i (.inr fun q' hs => hst i q' q hs ht), hn]
  refine ⟨?_, ?_, ?_, ?_, ?_, h'.top.trans h.top, h'.normal.trans h.normal, h'.sticky.trans h.sticky,
    h'.group.trans h.group, h'.vars.trans h.vars, h'.variant.trans h.variant, h'.transient.trans h.transient,
    h'.ghosts.trans h.ghosts⟩
  · rintro i q n (hs | ht) hn
    · rw [h'.miss i (.inr fun q' ht => hst i q q' hs ht), h.hit i q n hs hn]
    · refine h'.hit i q n ht ?_
      rw [h.miss i (.inr fun q' hs => hst i q' q hs ht), hn]
  · rintro i (hn | hq)
    · rw [h'.miss i (.inl (by rw [h.miss i (.inl hn), hn])), h.miss i (.inl hn)]
    · rw [h'.miss i (.inr fun q ht => hq q (.inr ht)), h.miss i (.inr fun q hs => hq q (.inl hs))]
  · intro j
    rw [h'.modify, h.modify, hmem, h.alike.isKind, h.alike.isKind]
    grind
  · intro j
    rw [h'.create, h.create, hmem, h.alike.isKind]
    grind
  · intro j
    rw [h'.config, h.config, hmem, h.alike.isKind]
    grind

theorem isKind_of_node {db db' : Db} (h : db'.node = db.node) (k : Kind) (i : Nat) : db'.isKind k i = db.isKind k i := by
  unfold Db.isKind; rw [h]

/-- One entry. -/
theorem Effect.one {db : Db} {i : Nat} {n : Node} {q : List Str} (hn : db.node i = some n) :
    Effect db (if decide (n.mtime ≠ d.time q) = true then touch db i (d.time q) else db) d fun j r => j = i ∧ r = q := by
  by_cases hm : n.mtime = d.time q
  · rw [if_neg (by simpa using hm)]
    have hno : ∀ j, ¬ ∃ i' q' n', (i' = i ∧ q' = q) ∧ db.node i' = some n' ∧ n'.mtime ≠ d.time q' ∧ db.normal i' j = true := by
      rintro j ⟨i', q', n', ⟨rfl, rfl⟩, hn', hm', _⟩
      rw [hn] at hn'
      cases hn'
      exact hm' hm
    refine ⟨?_, fun _ _ => rfl, ?_, ?_, ?_, rfl, rfl, rfl, rfl, rfl, rfl, rfl, rfl⟩
    · rintro j r m ⟨rfl, rfl⟩ hm'
      rw [hn] at hm'
      cases hm'
      rw [hn, ← hm]
    all_goals
      intro j
      constructor
      · exact .inl
      · rintro (h | ⟨_, h⟩)
        · exact h
        · exact absurd h (hno j)
  · rw [if_pos (by simpa using hm)]
    have hyes : ∀ j, (∃ i' q' n', (i' = i ∧ q' = q) ∧ db.node i' = some n' ∧ n'.mtime ≠ d.time q' ∧ db.normal i' j = true) ↔
        db.normal i j = true := by
      intro j
      constructor
      · rintro ⟨i', q', n', ⟨rfl, rfl⟩, _, _, h⟩
        exact h
      · intro h
        exact ⟨i, q, n, ⟨rfl, rfl⟩, hn, hm, h⟩
    refine ⟨?_, ?_, ?_, ?_, ?_, rfl, rfl, rfl, rfl, rfl, rfl, rfl, rfl⟩
    · rintro j r m ⟨rfl, rfl⟩ hm'
      show (if j = j then (db.node j).map _ else db.node j) = _
      rw [if_pos rfl, hm']
      rfl
    · rintro j (hj | hj)
      · show (if j = i then (db.node j).map _ else db.node j) = _
        split
        · rw [hj]; rfl
        · rfl
      · show (if j = i then (db.node j).map _ else db.node j) = _
        rw [if_neg fun h => hj q ⟨h, rfl⟩]
    · intro j
      rw [hyes]
      show (db.modify j || (db.normal i j && (db.isKind .cmd j || db.isKind .group j))) = true ↔ _
      simp only [Bool.or_eq_true, Bool.and_eq_true]
      grind
    · intro j
      rw [hyes]
      show (db.create j || (db.normal i j && db.isKind .dir j)) = true ↔ _
      simp only [Bool.or_eq_true, Bool.and_eq_true]
      grind
    · intro j
      rw [hyes]
      show (db.config j || (db.normal i j && db.isKind .file j)) = true ↔ _
      simp only [Bool.or_eq_true, Bool.and_eq_true]
      grind

end Tup.External
