import Verif.GenDir.Out
import Verif.GenDir.Disk
import Verif.Ghosts.Props

/-! Directories that are there only for outputs come and go with them (C83). -/

namespace Tup.GenDir

open Tup.Db Tup.Scan

/-! ### Examples -/

/-- A database with these nodes. -/
def mkDb (l : List (Nat × Node)) (top : Nat) (links : List (Nat × Nat) := []) (ghosts : Nat → Bool := fun _ => false) : Db where
  node := fun i => (l.find? fun p => decide (p.1 = i)).map fun p => p.2
  top := top
  normal := fun a b => links.contains (a, b)
  sticky := fun _ _ => false
  group := fun _ _ _ => false
  vars := fun _ => none
  config := fun _ => false
  create := fun _ => false
  modify := fun _ => false
  variant := fun _ => false
  transient := fun _ => false
  ghosts := ghosts

/-- A project with `src/Tupfile`, the user's directories `build/obj`, an output `build/obj/a.o` of the rule in `src`, and a `.gitignore` in `build/obj` that tup made. -/
def exNodes : List (Nat × Node) :=
  [(1, { dir := 0, kind := .dir, name := ".".toList }), (2, { dir := 1, kind := .dir, name := "$".toList }), (3, { dir := 1, kind := .dir, name := "src".toList }),
   (4, { dir := 3, kind := .file, name := "Tupfile".toList }), (5, { dir := 1, kind := .dir, name := "build".toList }), (6, { dir := 5, kind := .dir, name := "obj".toList }),
   (7, { dir := 6, kind := .generated, name := "a.o".toList, src := some 3 }), (8, { dir := 6, kind := .generated, name := ".gitignore".toList, src := some 6 })]

def exDb : Db := mkDb exNodes 9 [(6, 6), (4, 3)]

/-- How deep a node lies, in that project. -/
def exRank : Nat → Nat
  | 0 => 0
  | 1 => 1
  | 2 => 2
  | 3 => 2
  | 4 => 3
  | 5 => 2
  | 6 => 3
  | _ => 4

theorem mkDb_cases {l : List (Nat × Node)} {top : Nat} {links : List (Nat × Nat)} {gs : Nat → Bool} {P : Nat → Node → Prop} (h : ∀ p ∈ l, P p.1 p.2) :
    ∀ i n, (mkDb l top links gs).node i = some n → P i n := by
  intro i n hn
  change (l.find? fun p => decide (p.1 = i)).map (fun p => p.2) = some n at hn
  cases hf : l.find? fun p => decide (p.1 = i) with
  | none => rw [hf] at hn; cases hn
  | some p =>
    rw [hf] at hn
    cases hn
    have := h p (List.mem_of_find?_eq_some hf)
    have e : decide (p.1 = i) = true := List.find?_some (p := fun p : Nat × Node => decide (p.1 = i)) hf
    rw [of_decide_eq_true e] at this
    exact this

theorem mkDb_bounded {l : List (Nat × Node)} {top : Nat} {links : List (Nat × Nat)} {gs : Nat → Bool} (h : ∀ p ∈ l, p.1 < top) : Bounded (mkDb l top links gs) := by
  intro i hi
  cases hn : (mkDb l top links gs).node i with
  | none => rfl
  | some n =>
    have h1 := mkDb_cases (P := fun i _ => i < top) h i n hn
    have h2 : top ≤ i := hi
    omega

theorem exDb_tree : Tree exRank exDb where
  bounded := mkDb_bounded (by decide)
  ranked := mkDb_cases (P := fun i n => exRank n.dir < exRank i) (by decide)
  rooted := mkDb_cases (P := fun _ n => n.dir = 0 ∨ (exDb.node n.dir).isSome = true) (by decide)
  zero := by decide
  one := fun i n h => mkDb_cases (P := fun i n => n.dir = 0 → i = 1) (by decide) i n h

theorem mkDb_clean {l : List (Nat × Node)} {top : Nat} {links : List (Nat × Nat)} {gs : Nat → Bool}
    (h : ∀ p ∈ l, ((p.2.kind = .file ∨ p.2.kind = .dir) → ∀ n ∈ (mkDb l top links gs).node p.2.dir, n.kind = .dir) ∧
      (p.2.kind = .generatedDir → ∀ n ∈ (mkDb l top links gs).node p.2.dir, n.kind = .dir ∨ n.kind = .generatedDir)) : Clean (mkDb l top links gs) := by
  have key := mkDb_cases (top := top) (links := links) (gs := gs) (P := fun _ m => ((m.kind = .file ∨ m.kind = .dir) → ∀ n ∈ (mkDb l top links gs).node m.dir, n.kind = .dir) ∧
      (m.kind = .generatedDir → ∀ n ∈ (mkDb l top links gs).node m.dir, n.kind = .dir ∨ n.kind = .generatedDir)) h
  refine ⟨fun d c m n hc hk hn => ?_, fun d c m n hc hk hn => ?_⟩
  · exact (key c m hc.1).1 hk n (by rw [hc.2]; exact hn)
  · exact (key c m hc.1).2 hk n (by rw [hc.2]; exact hn)

theorem exDb_clean : Clean exDb := mkDb_clean (by decide)

theorem exDb_unique : Unique exDb := by
  intro i j a b ha hb e1 e2
  have h1 := mkDb_cases (top := 9) (links := [(6, 6), (4, 3)]) (gs := fun _ => false) (l := exNodes)
    (P := fun i n => ∀ q ∈ exNodes, n.dir = q.2.dir → n.name = q.2.name → i = q.1) (by decide) i a ha
  have h2 := mkDb_cases (top := 9) (links := [(6, 6), (4, 3)]) (gs := fun _ => false) (l := exNodes) (P := fun i n => (i, n) ∈ exNodes) (by intro p hp; exact hp) j b hb
  exact h1 (j, b) h2 e1 e2

/-! ### Directories of the user that become generated -/

/-- The top directory is safe: the directory `$` for variables of the environment is in it, and rules put nothing there. -/
theorem c83_top_safe {db : Db} {parsed : Nat → Bool} {c : Nat} {m : Node} (h : Child db 1 c m) (hk : m.kind = .dir) (hf : ¬ Foreign db c) : ¬ OnlyOutputs db parsed 1 :=
  fun ho => hf (ho.foreign c (.sub .self h hk))

theorem exDb_safe (parsed : Nat → Bool) : ¬ OnlyOutputs exDb parsed 1 := by
  refine c83_top_safe (c := 2) (m := { dir := 1, kind := .dir, name := "$".toList }) ⟨by decide, rfl⟩ rfl ?_
  rintro ⟨c, m, h, _⟩
  exact mkDb_cases (P := fun _ m => m.dir ≠ 2) (by decide) c m h.1 h.2

/-- Without it the program crashes: a top directory with nothing but outputs of other Tupfiles. -/
theorem c83_top_crash :
    let db := mkDb [(1, { dir := 0, kind := .dir, name := ".".toList }), (2, { dir := 1, kind := .generated, name := "x".toList, src := some 3 })] 3
    loop 5 ⟨db, fun j => decide (j = 1), fun _ => false, fun _ => false⟩ = some .crash := rfl

/-- After the Tupfiles have been parsed, exactly the directories of the user that are there only for outputs become generated ones; nothing else about the nodes changes, and nothing is scheduled.  The links of such a directory are dropped,
what they came from is examined; the `.gitignore` of the directory above is written anew, and the one that tup made in it is deleted. -/
theorem c83_convert {r : Nat → Nat} {db : Db} {parsed : Nat → Bool} (ht : Tree r db) (hu : Unique db) (hc : Clean db) (hp : ∀ j, parsed j = true → db.isKind .dir j = true)
    (htop : ¬ OnlyOutputs db parsed 1) :
    ∃ s, Converts db parsed s ∧ (∀ s', Converts db parsed s' → s' = s) ∧
      (∀ j, OnlyOutputs db parsed j → ∃ n, db.node j = some n ∧ n.kind = .dir ∧ s.db.node j = some { n with kind := .generatedDir }) ∧
      (∀ j, ¬ OnlyOutputs db parsed j → s.db.node j = db.node j) ∧
      (∀ a b, s.db.normal a b = true ↔ db.normal a b = true ∧ ¬ OnlyOutputs db parsed a ∧ ¬ OnlyOutputs db parsed b) ∧
      s.db.sticky = db.sticky ∧ s.db.create = db.create ∧ s.db.modify = db.modify ∧
      (∀ j, s.db.ghosts j = true ↔ db.ghosts j = true ∨ (db.ghosty j = true ∧ ∃ d, OnlyOutputs db parsed d ∧ db.normal j d = true)) ∧
      (∀ j, s.ignores j = true ↔ ∃ c m, Child db j c m ∧ OnlyOutputs db parsed c) ∧
      (∀ g, s.deletes g = true ↔ ∃ j m, OnlyOutputs db parsed j ∧ Child db j g m ∧ m.name = gitignore ∧ m.kind = .generated) ∧ Clean s.db := by
  have hiff : ∀ j, Becomes db parsed j ↔ OnlyOutputs db parsed j := fun j => becomes_iff ht.bounded ht.ranked
  obtain ⟨C, s, h1, h2, h3⟩ := loop_inv ht hc (fun h => htop ((hiff 1).1 h)) _ _ _ (inv_init hp) (Nat.le_refl _)
  have hC : ∀ j, C j = true ↔ OnlyOutputs db parsed j := fun j => ⟨fun h => (hiff j).1 (h2.becomes j h), fun h => h2.complete ht.bounded h3 ((hiff j).2 h)⟩
  have hCf : ∀ j, C j = false ↔ ¬ OnlyOutputs db parsed j := by
    intro j
    rw [← hC j]
    simp
  refine ⟨s, ⟨_, h1⟩, ?_, fun j hj => ?_, fun j hj => ?_, fun a b => ?_, h2.sticky, h2.create, h2.modify, fun j => ?_, fun j => ?_, fun g => ?_, ?_⟩
  · rintro s' ⟨k, hk⟩
    have a := loop_mono _ k _ _ h1
    have b := loop_mono _ (measure ⟨db, parsed, fun _ => false, fun _ => false⟩ + 1) _ _ hk
    rw [Nat.add_comm, a] at b
    cases b
    rfl
  · obtain ⟨n, e1, e2⟩ := isKind_iff.1 hj.dir
    refine ⟨n, e1, e2, ?_⟩
    rw [h2.node, (hC j).2 hj, e1]; rfl
  · rw [h2.node, (hCf j).2 hj]; rfl
  · rw [h2.normal]
    simp only [Bool.and_eq_true, Bool.not_eq_true', hCf]
    exact and_assoc
  · rw [h2.ghosts]
    simp only [hC]
  · rw [h2.ignores]
    simp only [hC]
  · rw [h2.deletes]
    simp only [hC]
    constructor
    · rintro ⟨j, e1, e2⟩
      unfold madeIgnore at e2
      cases hs : db.select j gitignore with
      | none => rw [hs] at e2; cases e2
      | some x =>
        rw [hs] at e2
        dsimp only at e2
        obtain ⟨m, g1, g2, g3⟩ := select_some hs
        split at e2
        · rename_i hk
          cases e2
          obtain ⟨m', q1, q2⟩ := isKind_iff.1 hk
          rw [g1] at q1
          cases q1
          exact ⟨j, m, e1, ⟨g1, g2⟩, g3, q2⟩
        · cases e2
    · rintro ⟨j, m, e1, e2, e3, e4⟩
      refine ⟨j, e1, ?_⟩
      have := select_eq ht.bounded hu e2.1
      rw [e2.2, e3] at this
      unfold madeIgnore
      rw [this]
      dsimp only
      rw [if_pos (isKind_iff.2 ⟨m, e2.1, e4⟩)]
  · refine ⟨fun d c m n h4 h5 h6 => ?_, fun d c m n h4 h5 h6 => ?_⟩
    · obtain ⟨m0, g1, g2⟩ := h2.child.1 h4
      cases hCc : C c with
      | true =>
        rw [hCc] at g2
        rw [g2] at h5
        rcases h5 with h5 | h5 <;> cases h5
      | false =>
        rw [hCc, if_neg (by simp)] at g2
        subst g2
        rw [h2.node] at h6
        cases hCd : C d with
        | false =>
          rw [hCd] at h6
          exact hc.user d c m n g1 h5 h6
        | true =>
          exfalso
          have ho := (hC d).1 hCd
          rcases h5 with h5 | h5
          · exact ho.noFile d .self c m g1 h5
          · have := h2.done d c m hCd g1 h5
            rw [hCc] at this
            cases this
    · obtain ⟨m0, g1, g2⟩ := h2.child.1 h4
      rw [h2.node] at h6
      cases hCd : C d with
      | true =>
        rw [hCd, if_pos rfl] at h6
        cases hn : db.node d with
        | none => rw [hn] at h6; cases h6
        | some x => rw [hn] at h6; cases h6; exact .inr rfl
      | false =>
        rw [hCd, if_neg (by simp)] at h6
        cases hCc : C c with
        | true =>
          obtain ⟨x, q1, q2⟩ := isKind_iff.1 (h2.was_dir hCc)
          rw [g1.1] at q1
          cases q1
          exact .inl (hc.user d c m0 n g1 (.inr q2) h6)
        | false =>
          rw [hCc, if_neg (by simp)] at g2
          subst g2
          exact hc.gen d c m n g1 h5 h6

/-- In the example both `build/obj`, which was parsed, and then `build` become generated. -/
example : OnlyOutputs exDb (fun j => decide (j = 6)) 5 ∧ OnlyOutputs exDb (fun j => decide (j = 6)) 6 ∧ ¬ OnlyOutputs exDb (fun j => decide (j = 6)) 3 := by
  have hiff : ∀ j, Becomes exDb (fun j => decide (j = 6)) j ↔ OnlyOutputs exDb (fun j => decide (j = 6)) j := fun j => becomes_iff exDb_tree.bounded exDb_tree.ranked
  have h6 : Becomes exDb (fun j => decide (j = 6)) 6 := by
    refine .mk (n := { dir := 5, kind := .dir, name := "obj".toList }) (by decide) rfl (.inl (by decide)) ?_ ?_ ?_
    · exact fun c m h => mkDb_cases (P := fun _ m => m.dir = 6 → m.kind ≠ .file) (by decide) c m h.1 h.2
    · exact fun c m h hk => absurd hk (mkDb_cases (P := fun _ m => m.dir = 6 → m.kind ≠ .dir) (by decide) c m h.1 h.2)
    · exact ⟨7, { dir := 6, kind := .generated, name := "a.o".toList, src := some 3 }, ⟨by decide, rfl⟩, by decide, .inl rfl⟩
  refine ⟨(hiff 5).1 ?_, (hiff 6).1 h6, fun h => ?_⟩
  · refine .mk (n := { dir := 1, kind := .dir, name := "build".toList }) (by decide) rfl (.inr ⟨6, { dir := 5, kind := .dir, name := "obj".toList }, ⟨by decide, rfl⟩, rfl⟩) ?_ ?_ ?_
    · exact fun c m h => mkDb_cases (P := fun _ m => m.dir = 5 → m.kind ≠ .file) (by decide) c m h.1 h.2
    · intro c m h _
      have := mkDb_cases (P := fun c m => m.dir = 5 → c = 6) (by decide) c m h.1 h.2
      rw [this]; exact h6
    · exact ⟨6, { dir := 5, kind := .dir, name := "obj".toList }, ⟨by decide, rfl⟩, by decide, .inr (.inr rfl)⟩
  · exact h.noFile 3 .self 4 { dir := 3, kind := .file, name := "Tupfile".toList } ⟨by decide, rfl⟩ rfl

example : ∃ s, Converts exDb (fun j => decide (j = 6)) s ∧ s.db.isKind .generatedDir 5 = true ∧ s.deletes 8 = true ∧ s.ignores 1 = true ∧ s.db.normal 6 6 = false ∧ s.db.isKind .dir 3 = true :=
  ⟨_, ⟨5, rfl⟩, by decide, by decide, by decide, by decide, by decide⟩

/-! ### The directories of outputs -/

theorem up_some {db : Db} {k d e : Nat} (h : Up db k d e) (hd : (db.node d).isSome = true) : (db.node e).isSome = true := by
  induction h with
  | zero => exact hd
  | succ _ h2 _ ih => exact ih h2

/-- The directory of an output, with a path that goes up and then down: it is found or made, unless the path leads out of the project or something on the way is not a directory.  What is there stays as it is; missing directories on the way,
also those that had been looked for before, become generated ones; and nothing else changes. -/
theorem c83_outputs {db : Db} {d : Nat} (hb : Bounded db) (hu : Unique db) (hr : Rooted db) (hd : (db.node d).isSome = true) (k : Nat) (names : List Str) (hn : dotdot ∉ names) :
    (outDir db d (List.replicate k dotdot ++ names) = none ↔ ∀ e, Up db k d e → Blocked db e names) ∧
    ∀ db' e', outDir db d (List.replicate k dotdot ++ names) = some (db', e') →
      ∃ e, Up db k d e ∧ Down db' e names e' ∧
        (∀ j n, db.node j = some n → db'.node j = some n ∨ (n.kind = .ghost ∧ db'.node j = some { n with kind := .generatedDir })) ∧
        (∀ j n, db.node j = none → db'.node j = some n → n.kind = .generatedDir ∧ n.src = none) ∧
        (∀ j, db'.node j ≠ db.node j → ∃ pre, pre ≠ [] ∧ pre <+: names ∧ Down db' e pre j) := by
  rcases outDir_up (db := db) (names := names) k d with ⟨e, h1, h2⟩ | ⟨h1, h2⟩
  · obtain ⟨g1, g2⟩ := outDir_down names hn db e ⟨hb, hu, hr, up_some h1 hd⟩
    have huniq : ∀ e', Up db k d e' → e' = e := by
      intro e' h'
      have key : ∀ k d x y, Up db k d x → Up db k d y → x = y := by
        intro k
        induction k with
        | zero => intro d x y hx hy; cases hx; cases hy; rfl
        | succ k ih =>
          intro d x y hx hy
          cases hx with
          | succ a1 a2 a3 =>
            cases hy with
            | succ b1 b2 b3 =>
              rw [a1] at b1
              cases b1
              exact ih _ x y a3 b3
      exact key k d e' e h' h1
    rw [h2]
    refine ⟨g2.trans ⟨fun h e' h' => by rw [huniq e' h']; exact h, fun h => h e h1⟩, fun db' e' h => ?_⟩
    obtain ⟨q1, q2, q3, q4⟩ := g1 db' e' h
    exact ⟨e, h1, q3, q2.keep, q2.new, q4⟩
  · rw [h2]
    exact ⟨⟨fun _ e h => absurd h (h1 e), fun _ => rfl⟩, fun _ _ h => (by cases h)⟩

/-- From `src`, the path `../build/obj/deep/x/y.o` makes `deep` and `deep/x`; `../../x` leads out of the project; and `Tupfile/x` goes through a file. -/
example : (∃ db', outDir exDb 3 [dotdot, "build".toList, "obj".toList, "deep".toList, "x".toList] = some (db', 10) ∧ db'.isKind .generatedDir 9 = true ∧ db'.isKind .generatedDir 10 = true ∧ db'.isKind .dir 5 = true) ∧
    outDir exDb 3 [dotdot, dotdot] = none ∧ outDir exDb 3 ["Tupfile".toList] = none := by
  refine ⟨⟨_, rfl, by decide, by decide, by decide⟩, rfl, rfl⟩

/-- Whatever the path, what belongs to the user still lies in directories of the user. -/
theorem c83_outputs_clean {db db' : Db} {d e : Nat} {path : List Str} (hb : Bounded db) (hu : Unique db) (hr : Rooted db) (hd : AnyDir db d) (hc : Clean db)
    (h : outDir db d path = some (db', e)) : Clean db' ∧ AnyDir db' e := by
  obtain ⟨n, hn, _⟩ := anyDir_iff.1 hd
  obtain ⟨_, h2, h3, _⟩ := outDir_clean path db d ⟨hb, hu, hr, by rw [hn]; rfl⟩ hd hc db' e h
  exact ⟨h3, h2⟩

/-! ### New files of the user -/

/-- When the user puts a new file into a generated directory, it and all directories above it become the user's, and nothing else does. -/
theorem c83_new_file {r : Nat → Nat} {db : Db} {d fuel : Nat} (ht : Tree r db) (hc : Clean db) (hd : AnyDir db d) (hf : r d < fuel) (file : Str) (t : Int × Int) :
    ∃ db' i, createNameFile fuel db d file t = some (db', i) ∧ db.node i = none ∧ db'.node i = some { dir := d, kind := .file, name := file, mtime := t } ∧ Clean db' ∧
      (∀ a m, Above db' a i → db'.node a = some m → m.kind = .dir) ∧
      (∀ j, j ≠ i → db'.node j = db.node j ∨ (Above db' j i ∧ ∃ n, db.node j = some n ∧ n.kind = .generatedDir ∧ db'.node j = some { n with kind := .dir })) := by
  obtain ⟨n, hn, _⟩ := anyDir_iff.1 hd
  obtain ⟨db', i, h1, h2, h3, _, _, _, _, _, _, h4⟩ := createNameFile_spec (file := file) (t := t) ht.bounded ht.ranked ht.rooted hf (by rw [hn]; rfl)
  obtain ⟨g1, g2⟩ := createNameFile_clean ht.bounded ht.ranked ht.rooted hd hc h1
  refine ⟨db', i, h1, h2, h3, g1, fun a m ha hm => above_dir g1 ha _ h3 (.inl rfl) m hm, fun j hj => ?_⟩
  by_cases he : db'.node j = db.node j
  · exact .inl he
  · rcases h4 j hj with e | e
    · exact absurd e he
    · exact .inr ⟨g2 j hj he, e⟩

/-- A project with generated directories `build/obj`, an output in it, and a file that was looked for there. -/
def genNodes : List (Nat × Node) :=
  [(1, { dir := 0, kind := .dir, name := ".".toList }), (2, { dir := 1, kind := .dir, name := "$".toList }), (3, { dir := 1, kind := .dir, name := "src".toList }),
   (4, { dir := 3, kind := .file, name := "Tupfile".toList }), (5, { dir := 1, kind := .generatedDir, name := "build".toList }), (6, { dir := 5, kind := .generatedDir, name := "obj".toList }),
   (7, { dir := 6, kind := .generated, name := "a.o".toList, src := some 3 }), (8, { dir := 6, kind := .ghost, name := "a.h".toList })]

def genDb : Db := mkDb genNodes 9

theorem genDb_tree : Tree exRank genDb where
  bounded := mkDb_bounded (by decide)
  ranked := mkDb_cases (P := fun i n => exRank n.dir < exRank i) (by decide)
  rooted := mkDb_cases (P := fun _ n => n.dir = 0 ∨ (genDb.node n.dir).isSome = true) (by decide)
  zero := by decide
  one := fun i n h => mkDb_cases (P := fun i n => n.dir = 0 → i = 1) (by decide) i n h

theorem genDb_clean : Clean genDb := mkDb_clean (by decide)

example : ∃ db' i, createNameFile 5 genDb 6 "notes.txt".toList (0, 0) = some (db', i) ∧ db'.isKind .dir 6 = true ∧ db'.isKind .dir 5 = true ∧ db'.isKind .file i = true :=
  ⟨_, _, rfl, by decide, by decide, by decide⟩

/-- That does not happen for a file whose name had been looked for before: its directory stays a generated one. -/
theorem c83_ghost_stays :
    match fileMod id 5 genDb 6 "a.h".toList (7, 0) false false with
    | some (db, i, _) => i = 8 ∧ db.isKind .file 8 = true ∧ db.isKind .generatedDir 6 = true ∧ ¬ Clean db
    | none => False := by
  refine ⟨rfl, by decide, by decide, fun h => ?_⟩
  have := h.user 6 8 { dir := 6, kind := .file, name := "a.h".toList, mtime := (7, 0) } { dir := 5, kind := .generatedDir, name := "obj".toList } ⟨by decide, rfl⟩ (.inl rfl) (by decide)
  cases this

/-- Nor for a directory that the user makes, nor for the files that are put into it. -/
theorem c83_new_dir_stays :
    match Links.createNode id 5 genDb 6 "mine".toList .dir none false with
    | some (db, i) =>
      i = 9 ∧ db.isKind .dir 9 = true ∧ db.isKind .generatedDir 6 = true ∧
      match createNameFile 5 db 9 "notes.txt".toList (0, 0) with
      | some (db, j) => db.isKind .file j = true ∧ db.isKind .generatedDir 6 = true
      | none => False
    | none => False :=
  ⟨rfl, by decide, by decide, by decide, by decide⟩

/-! ### On the disk -/

/-- At the end of a transaction the generated directories that nothing needs are removed from the disk, together with their nodes: without an error, with all else that was there left in place; what is there anew are generated directories. -/
theorem c83_remove {ex fuel : Nat} {db : Db} {disk : Disk} (hs : Ghosts.Sound ex db) (hi : InStep fuel db disk) (ho : ∀ i n, db.node i = some n → n.kind = .generatedDir → disk.other i = false) :
    ∃ db' disk', Ends ex fuel db disk (some (db', disk')) ∧ (∀ r, Ends ex fuel db disk r → r = some (db', disk')) ∧ Ghosts.Reclaims ex db db' ∧ disk'.other = disk.other ∧
      (∀ j p, disk.place j = some p → disk'.place j = some p ∧ (db'.node j).isSome = true ∨
        disk'.place j = none ∧ db'.node j = none ∧ db.isKind .generatedDir j = true ∧ ∀ c, disk'.place c ≠ some j) ∧
      (∀ j p, disk'.place j = some p → disk.place j = some p ∨ (disk.place j = none ∧ ∃ n, db'.node j = some n ∧ n.kind = .generatedDir ∧ n.dir = p)) ∧ InStep fuel db' disk' := by
  obtain ⟨db', disk', h1, h2, h3⟩ := reclaim_both (fuel := fuel) (disk0 := disk) hs ho (Ghosts.measure db fun _ => false) db disk (fun _ => false)
    ⟨Ghosts.inv_init hs, hi, rfl, fun _ _ h => .inl h, fun _ _ h _ => h⟩ (fun _ _ => rfl) (Nat.le_refl _)
  refine ⟨db', disk', ⟨_, h1⟩, fun r hr => ends_unique hr ⟨_, h1⟩, ⟨_, h2⟩, h3.other, fun j p hj => ?_, h3.from_, h3.step⟩
  cases hn : db'.node j with
  | some m => exact .inl ⟨h3.keep j p hj (by rw [hn]; rfl), rfl⟩
  | none =>
    right
    have hgone : ∀ c q, disk'.place c = some q → (db'.node c).isSome = true := by
      intro c q hc
      obtain ⟨m, e, _⟩ := h3.step.known c q hc
      rw [e]; rfl
    obtain ⟨m, e1, _, e3, e4⟩ := hi.known j p hj
    refine ⟨?_, rfl, ?_, fun c hc => ?_⟩
    · cases hp : disk'.place j with
      | none => rfl
      | some q =>
        have := hgone j q hp
        rw [hn] at this
        cases this
    · cases h3.inv.gone j (by rw [e1]; rfl) hn with
      | mk hpl _ =>
        obtain ⟨m', q1, q2, _⟩ := hpl
        rw [e1] at q1
        cases q1
        rcases q2 with q2 | q2 | q2
        · exact absurd q2 e3
        · exact absurd q2 e4
        · exact isKind_iff.2 ⟨m, e1, q2⟩
    · obtain ⟨m', q1, q2, _⟩ := h3.step.known c j hc
      -- a node that stays keeps its directory
      have hj0 : db'.node j = none := hn
      have hstay : Ghosts.Needs ex db c j := by
        have hmne : m.dir ≠ ex := by
          intro e
          exact (hs.leaf j m e1 (.inr e) c m' (h3.inv.sub c m' q1)).1 q2
        refine .inDir e1 hmne e4 (h3.inv.sub c m' q1) q2
      have := Ghosts.c40_needed hs ⟨_, h2⟩ (by rw [e1]; rfl) hstay (by rw [q1]; rfl)
      rw [hj0] at this
      cases this

/-- If everything that nothing needs is on the list, exactly the generated directories that nothing needs are removed: those with nothing in them but what can go as well. -/
theorem c83_remove_exact {ex fuel : Nat} {db : Db} {disk : Disk} (hs : Ghosts.Sound ex db) (hv : Ghosts.Covered ex db) (hi : InStep fuel db disk)
    (ho : ∀ i n, db.node i = some n → n.kind = .generatedDir → disk.other i = false) {db' : Db} {disk' : Disk} (h : Ends ex fuel db disk (some (db', disk'))) (j p : Nat) (hj : disk.place j = some p) :
    disk'.place j = none ↔ Ghosts.Dead ex db j := by
  obtain ⟨x, y, h1, _, h3, _, h5, _⟩ := c83_remove hs hi ho
  have e := ends_unique h h1
  cases e
  obtain ⟨m, e1, _⟩ := hi.known j p hj
  have hx := (Ghosts.c40_exact hs hv h3).1 j (by rw [e1]; rfl)
  rw [← hx]
  rcases h5 j p hj with ⟨q1, q2⟩ | ⟨q1, q2, _⟩
  · rw [q1]
    constructor
    · intro w; cases w
    · intro w; rw [w] at q2; cases q2
  · exact ⟨fun _ => q2, fun _ => q1⟩

/-- Something that tup does not know, in a generated directory that should go, is not deleted; the end of the transaction fails. -/
theorem c83_unknown_fails {ex fuel : Nat} {db : Db} {disk : Disk} (hs : Ghosts.Sound ex db) (hv : Ghosts.Covered ex db) {i p : Nat} (hk : db.isKind .generatedDir i = true) (hd : Ghosts.Dead ex db i)
    (hp : disk.place i = some p) (ho : disk.other i = true) : Ends ex fuel db disk none ∧ ∀ r, Ends ex fuel db disk r → r = none := by
  obtain ⟨n, hn, hk⟩ := isKind_iff.1 hk
  obtain ⟨d, h1, _⟩ := Ghosts.loop_inv hs (Ghosts.measure db fun _ => false) db (fun _ => false) (Ghosts.inv_init hs) (fun _ _ => rfl) (Nat.le_refl _)
  obtain ⟨r, h2, h3⟩ := reclaim_ends (fuel := fuel) _ db disk _ _ h1
  have hr : r = none := by
    cases r with
    | none => rfl
    | some q =>
      exfalso
      have e := h3 q.1 q.2 rfl
      cases e
      have := reclaim_stuck hs hk _ db disk _ (Ghosts.inv_init hs) hn hp ho q.1 q.2 h2
      have hx := ((Ghosts.c40_exact hs hv ⟨_, h1⟩).1 i (by rw [hn]; rfl)).2 hd
      rw [hx] at this
      cases this
  rw [hr] at h2
  exact ⟨⟨_, h2⟩, fun r' h' => ends_unique h' ⟨_, h2⟩⟩

/-- The same project after the output has been deleted: nothing is left in `build/obj`. -/
def goneNodes : List (Nat × Node) :=
  [(1, { dir := 0, kind := .dir, name := ".".toList }), (2, { dir := 1, kind := .dir, name := "$".toList }), (3, { dir := 1, kind := .dir, name := "src".toList }),
   (4, { dir := 3, kind := .file, name := "Tupfile".toList }), (5, { dir := 1, kind := .generatedDir, name := "build".toList }), (6, { dir := 5, kind := .generatedDir, name := "obj".toList })]

def goneDb : Db := mkDb goneNodes 9 [] fun j => decide (j = 6)

def goneDisk : Disk where
  place := fun j => (goneDb.node j).map fun n => n.dir
  other := fun _ => false

theorem goneDb_sound : Ghosts.Sound 99 goneDb where
  bounded := mkDb_bounded (by decide)
  normal := fun a b h => by cases h
  sticky := fun a b h => by cases h
  leaf := fun i n hn h => by
    exfalso
    have := mkDb_cases (P := fun _ n => n.kind ≠ .group ∧ n.dir ≠ 99) (by decide) i n hn
    rcases h with h | h
    · exact this.1 h
    · exact this.2 h
  exclusion := fun i n hn h => (mkDb_cases (P := fun _ n => n.kind ≠ .group) (by decide) i n hn)
  listed := fun i h => by
    have : i = 6 := of_decide_eq_true h
    rw [this]; decide

theorem goneDb_inStep : InStep 5 goneDb goneDisk where
  known := fun j p h => by
    change (goneDb.node j).map (fun n => n.dir) = some p at h
    cases hn : goneDb.node j with
    | none => rw [hn] at h; cases h
    | some n =>
      rw [hn] at h
      cases h
      have := mkDb_cases (P := fun _ n => n.kind ≠ .ghost ∧ n.kind ≠ .group) (by decide) j n hn
      exact ⟨n, rfl, rfl, this.1, this.2⟩
  way := fun i n hn hk => by
    have := mkDb_cases (P := fun i n => n.kind = .generatedDir → i = 5 ∨ i = 6) (by decide) i n hn hk
    have h1 : Path goneDb goneDisk 0 1 := .top (n := { dir := 0, kind := .dir, name := ".".toList }) (by decide)
    have h5 : Path goneDb goneDisk 1 5 := .step (n := { dir := 1, kind := .generatedDir, name := "build".toList }) (by decide) (by decide) (.inr rfl) h1
    have h6 : Path goneDb goneDisk 2 6 := .step (n := { dir := 5, kind := .generatedDir, name := "obj".toList }) (by decide) (by decide) (.inr rfl) h5
    rcases this with e | e
    · rw [e]; exact ⟨by decide, 1, by decide, h5⟩
    · rw [e]; exact ⟨by decide, 2, by decide, h6⟩

theorem goneDb_covered : Ghosts.Covered 99 goneDb := by
  rintro i ⟨n, hn, hk, _⟩ hne
  have := mkDb_cases (P := fun i n => (n.kind = .ghost ∨ n.kind = .group ∨ n.kind = .generatedDir) → i = 5 ∨ i = 6) (by decide) i n hn hk
  rcases this with rfl | rfl
  · exact absurd (.inDir (n := { dir := 1, kind := .generatedDir, name := "build".toList }) (m := { dir := 5, kind := .generatedDir, name := "obj".toList }) (by decide) (by decide) (by decide) (by decide) rfl) (hne 6)
  · decide

theorem goneDb_dead : Ghosts.Dead 99 goneDb 6 := by
  refine .mk ⟨{ dir := 5, kind := .generatedDir, name := "obj".toList }, by decide, .inr (.inr rfl), by decide⟩ fun j hj => ?_
  exfalso
  cases hj with
  | inDir _ _ _ g1 g2 => exact mkDb_cases (P := fun _ m => m.dir ≠ 6) (by decide) j _ g1 g2
  | fromDir _ _ _ g1 g2 => exact mkDb_cases (P := fun _ m => m.src ≠ some 6) (by decide) j _ g1 g2
  | uses _ _ g => cases g
  | member _ _ _ g => cases g
  | declares _ _ _ g => cases g
  | excludes _ _ g => cases g

example : ∃ db' disk', Ends 99 5 goneDb goneDisk (some (db', disk')) ∧ disk'.place 6 = none := by
  obtain ⟨db', disk', h1, _⟩ := c83_remove goneDb_sound goneDb_inStep fun _ _ _ _ => rfl
  exact ⟨db', disk', h1, (c83_remove_exact goneDb_sound goneDb_covered goneDb_inStep (fun _ _ _ _ => rfl) h1 6 5 (by decide)).2 goneDb_dead⟩

/-- In that project both directories are removed, the inner one first. -/
example : ∃ db' disk', Ends 99 5 goneDb goneDisk (some (db', disk')) ∧ disk'.place 6 = none ∧ disk'.place 5 = none ∧ disk'.place 3 = some 1 ∧ db'.node 5 = none :=
  ⟨_, _, ⟨5, rfl⟩, by decide, by decide, by decide, by decide⟩

/-- With something unknown in `build/obj` the end of the transaction fails. -/
example : Ends 99 5 goneDb { goneDisk with other := fun j => decide (j = 6) } none :=
  (c83_unknown_fails goneDb_sound goneDb_covered (i := 6) (p := 5) (by decide) goneDb_dead (by decide) (by decide)).1

/-! ### What is lost -/

/-- A directory with no files of its own whose rules come from the Tupdefault of the directory above, and into which a rule of another Tupfile writes. -/
def defaultDb : Db :=
  mkDb [(1, { dir := 0, kind := .dir, name := ".".toList }), (2, { dir := 1, kind := .dir, name := "$".toList }), (3, { dir := 1, kind := .file, name := "Tupdefault".toList }),
   (4, { dir := 1, kind := .dir, name := "lib".toList }), (5, { dir := 4, kind := .cmd, name := "touch all".toList }), (6, { dir := 4, kind := .generated, name := "all".toList, src := some 4 }),
   (7, { dir := 4, kind := .generated, name := "x.o".toList, src := some 1 })] 8 [(3, 4), (5, 6)]

/-- It becomes generated and loses the link from the Tupdefault, though its command stays: it is not parsed again when the Tupdefault changes. -/
theorem c83_default_lost : ∃ s, Converts defaultDb (fun j => decide (j = 4)) s ∧ s.db.isKind .generatedDir 4 = true ∧ defaultDb.normal 3 4 = true ∧ s.db.normal 3 4 = false ∧
    s.db.isKind .cmd 5 = true ∧ s.db.create 4 = false :=
  ⟨_, ⟨3, rfl⟩, by decide, by decide, by decide, by decide, by decide⟩

/-- A directory of the user from which the last file and the last output go at the same time: it becomes generated, because the output is deleted later, and then it is removed from the disk. -/
theorem c83_emptied :
    let db := mkDb [(1, { dir := 0, kind := .dir, name := ".".toList }), (2, { dir := 1, kind := .dir, name := "$".toList }), (3, { dir := 1, kind := .dir, name := "mine".toList }),
      (4, { dir := 3, kind := .generated, name := "x.o".toList, src := some 1 })] 5
    let disk : Disk := { place := fun j => if j = 3 then some 1 else none, other := fun _ => false }
    (∃ s, Converts db (fun j => decide (j = 3)) s ∧ ∃ db' disk', Ends 99 5 (s.db.deleteNameFile 4) disk (some (db', disk')) ∧ disk'.place 3 = none) ∧
    -- with the output deleted first it stays
    (∃ s, Converts (db.deleteNameFile 4) (fun j => decide (j = 3)) s ∧ ∃ db' disk', Ends 99 5 s.db disk (some (db', disk')) ∧ disk'.place 3 = some 1) :=
  ⟨⟨_, ⟨3, rfl⟩, _, _, ⟨5, rfl⟩, by decide⟩, ⟨_, ⟨3, rfl⟩, _, _, ⟨5, rfl⟩, by decide⟩⟩

end Tup.GenDir
