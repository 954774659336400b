import Verif.Scan.Run

/-! What happens when a file is there. -/

namespace Tup.Scan

open Db

/-- The links, variables and the other lists are as before. -/
def SameRest (db db' : Db) : Prop :=
  db'.normal = db.normal ∧ db'.sticky = db.sticky ∧ db'.group = db.group ∧ db'.vars = db.vars ∧ db'.variant = db.variant ∧
  db'.transient = db.transient

variable {sort : List (Nat × Kind) → List (Nat × Kind)} {fuel : Nat} {db : Db} {d i : Nat} {file : Str} {n : Node}
  {t : Int × Int} {force ign : Bool}

/-- Has the file changed? -/
def differs (n : Node) (t : Int × Int) (force ign : Bool) : Bool :=
  decide (n.mtime ≠ t) || (force && !(ign && decide (n.kind = .generated)))

theorem fileMod_file (hi : db.select d file = some i) (hn : db.node i = some n) (hk : n.kind = .file ∨ n.kind = .generated) :
    fileMod sort fuel db d file t force ign = some (finish db file i t (differs n t force ign)) := by
  unfold fileMod differs
  rw [hi]
  simp only [hn]
  rcases hk with hk | hk <;> rw [hk]

theorem fileMod_ghost (hi : db.select d file = some i) (hn : db.node i = some n) (hk : n.kind = .ghost) :
    fileMod sort fuel db d file t force ign =
      some (finish (ghostToFile db i n.dir) file i t (differs n t force ign)) := by
  unfold fileMod differs
  rw [hi]
  simp only [hn]
  rw [hk]

/-- The database after a change. -/
theorem finish_spec (x : Db) (file : Str) (i : Nat) (t : Int × Int) :
    ∃ y, finish x file i t true = (y, i, true) ∧ SameRest x y ∧ y.top = x.top ∧
      (∀ j, y.node j = if j = i then (x.node j).map (fun n => { n with mtime := t }) else x.node j) ∧
      (∀ j, y.modify j = true ↔ x.modify j = true ∨ j = i ∨ (x.isKind .generated i = true ∧ x.normal j i = true)) ∧
      (∀ j, y.create j = true ↔ x.create j = true ∨ (x.normal i j = true ∧ x.isKind .dir j = true)) ∧
      (∀ j, y.config j = true ↔ x.config j = true ∨ (x.normal i j = true ∧ x.isKind .file j = true) ∨
        (j = i ∧ file = tupConfig)) := by
  have h1 : ∃ y, y = changedFile x i t ∧ SameRest x y ∧ y.top = x.top ∧
      (∀ j, y.node j = if j = i then (x.node j).map (fun n => { n with mtime := t }) else x.node j) ∧
      (∀ j, y.modify j = true ↔ x.modify j = true ∨ j = i ∨ (x.isKind .generated i = true ∧ x.normal j i = true)) ∧
      (∀ j, y.create j = true ↔ x.create j = true ∨ (x.normal i j = true ∧ x.isKind .dir j = true)) ∧
      (∀ j, y.config j = true ↔ x.config j = true ∨ (x.normal i j = true ∧ x.isKind .file j = true)) := by
    refine ⟨_, rfl, ?_⟩
    unfold changedFile
    simp only
    by_cases hg : x.isKind .generated i = true
    · rw [if_pos hg]
      refine ⟨⟨rfl, rfl, rfl, rfl, rfl, rfl⟩, rfl, fun _ => rfl, fun j => ?_, fun j => ?_, fun j => ?_⟩
      · show ((x.modify j || x.normal j i) || decide (j = i)) = true ↔ _
        simp only [Bool.or_eq_true, decide_eq_true_eq, hg, true_and]
        grind
      · show (x.create j || (x.normal i j && x.isKind .dir j)) = true ↔ _
        simp
      · show (x.config j || (x.normal i j && x.isKind .file j)) = true ↔ _
        simp
    · rw [if_neg hg]
      refine ⟨⟨rfl, rfl, rfl, rfl, rfl, rfl⟩, rfl, fun _ => rfl, fun j => ?_, fun j => ?_, fun j => ?_⟩
      · show (x.modify j || decide (j = i)) = true ↔ _
        simp [hg]
      · show (x.create j || (x.normal i j && x.isKind .dir j)) = true ↔ _
        simp
      · show (x.config j || (x.normal i j && x.isKind .file j)) = true ↔ _
        simp
  obtain ⟨y, hy, h2, h3, h4, h5, h6, h7⟩ := h1
  refine ⟨configFlag y file i true, ?_, ?_⟩
  · rw [finish, hy]
    rfl
  unfold configFlag
  by_cases hf : file = tupConfig
  · rw [if_pos (by simp [hf])]
    refine ⟨h2, h3, h4, h5, h6, fun j => ?_⟩
    show (y.config j || decide (j = i)) = true ↔ _
    rw [Bool.or_eq_true, h7, decide_eq_true_eq]
    grind
  · rw [if_neg (by simp [hf])]
    refine ⟨h2, h3, h4, h5, h6, fun j => ?_⟩
    rw [h7]
    grind

/-- The database after a ghost has become a file. -/
theorem ghost_spec (hn : db.node i = some n) :
    ∃ x, x = ghostToFile db i d ∧ SameRest db x ∧ x.top = db.top ∧
      (∀ j, x.node j = if j = i then some { n with kind := .file } else db.node j) ∧
      (∀ j, x.modify j = true ↔ db.modify j = true ∨ j = i) ∧
      (∀ j, x.create j = true ↔ db.create j = true ∨ (j = d ∧ j ≠ i ∧ db.isKind .dir j = true)) ∧
      x.config = db.config := by
  refine ⟨_, rfl, ?_⟩
  have hd : ((db.delGhost i).setKind i .file).isKind .dir d = true ↔ d ≠ i ∧ db.isKind .dir d = true := by
    by_cases h : d = i
    · simp only [Db.isKind, Db.setKind, Db.delGhost, h]
      simp [hn]
    · have : ((db.delGhost i).setKind i .file).isKind .dir d = db.isKind .dir d := by
        apply isKind_congr
        show (if d = i then _ else db.node d) = _
        rw [if_neg h]
      rw [this]
      simp [h]
  have hnode : ∀ j, (if j = i then (db.node j).map (fun n => { n with kind := Kind.file }) else db.node j) =
      if j = i then some { n with kind := .file } else db.node j := by
    intro j
    by_cases h : j = i
    · rw [if_pos h, if_pos h, h, hn]; rfl
    · rw [if_neg h, if_neg h]
  unfold ghostToFile
  simp only
  by_cases h : ((db.delGhost i).setKind i .file).isKind .dir d = true
  · rw [if_pos h]
    refine ⟨⟨rfl, rfl, rfl, rfl, rfl, rfl⟩, rfl, hnode, fun j => ?_, fun j => ?_, rfl⟩
    · show (db.modify j || decide (j = i)) = true ↔ _
      simp
    · show (db.create j || decide (j = d)) = true ↔ _
      have := hd.1 h
      rw [Bool.or_eq_true, decide_eq_true_eq]
      grind
  · rw [if_neg h]
    refine ⟨⟨rfl, rfl, rfl, rfl, rfl, rfl⟩, rfl, hnode, fun j => ?_, fun j => ?_, rfl⟩
    · show (db.modify j || decide (j = i)) = true ↔ _
      simp
    · show db.create j = true ↔ _
      grind

/-! ### New files -/

/-- `db'` is `db` after some directories that tup had made have become the user's. -/
structure Normal (db db' : Db) : Prop where
  rest : SameRest db db'
  top : db'.top = db.top
  modify : db'.modify = db.modify
  config : db'.config = db.config
  create : ∀ j, db.create j = true → db'.create j = true
  node : ∀ j, db'.node j = db.node j ∨
    ∃ n, db.node j = some n ∧ n.kind = .generatedDir ∧ db'.node j = some { n with kind := .dir }

theorem normalLoop_spec {r : Nat → Nat} (fuel : Nat) : ∀ (db : Db) (d : Nat), Ranked r db → r d < fuel →
    ∃ db' d', normalLoop fuel db d = some (db', d') ∧ Normal db db' ∧ db'.create = db.create ∧
      db'.isKind .generatedDir d = false ∧ (∀ j, db'.node j ≠ db.node j → r j ≤ r d) := by
  induction fuel with
  | zero => intro _ _ _ h; omega
  | succ fuel ih =>
    intro db d hr hf
    have hrefl : Normal db db := ⟨⟨rfl, rfl, rfl, rfl, rfl, rfl⟩, rfl, rfl, rfl, fun _ h => h, fun _ => .inl rfl⟩
    rw [normalLoop]
    cases hn : db.node d with
    | none =>
      refine ⟨db, d, rfl, hrefl, rfl, ?_, fun j h => absurd rfl h⟩
      simp only [Db.isKind, hn]
    | some n =>
      simp only
      by_cases hk : n.kind = .generatedDir
      · rw [if_pos hk]
        have hnode : ∀ j, ((db.setKind d .dir).delGhost d).node j = if j = d then some { n with kind := .dir } else db.node j := by
          intro j
          show (if j = d then (db.node j).map _ else db.node j) = _
          by_cases h : j = d
          · rw [if_pos h, if_pos h, h, hn]; rfl
          · rw [if_neg h, if_neg h]
        have hr' : Ranked r ((db.setKind d .dir).delGhost d) := by
          intro j m hm
          rw [hnode] at hm
          by_cases h : j = d
          · rw [if_pos h] at hm
            cases hm
            rw [h]
            exact hr d n hn
          · rw [if_neg h] at hm
            exact hr j m hm
        have hlt := hr d n hn
        obtain ⟨db', d', e1, e2, e3, e4, e5⟩ := ih _ n.dir hr' (by omega)
        have hd' : db'.node d = some { n with kind := .dir } := by
          by_cases h : db'.node d = ((db.setKind d .dir).delGhost d).node d
          · rw [h, hnode, if_pos rfl]
          · have := e5 d h
            omega
        refine ⟨db', d', e1, ?_, e3, ?_, ?_⟩
        · refine ⟨e2.rest, e2.top, e2.modify, e2.config, e2.create, fun j => ?_⟩
          by_cases h : j = d
          · right
            rw [h]
            exact ⟨n, hn, hk, hd'⟩
          · have := e2.node j
            rw [hnode, if_neg h] at this
            exact this
        · simp only [Db.isKind, hd']
          rfl
        · intro j hj
          by_cases h : j = d
          · rw [h]; omega
          · have := e5 j (by rw [hnode, if_neg h]; exact hj)
            omega
      · rw [if_neg hk]
        refine ⟨db, d, rfl, hrefl, rfl, ?_, fun j h => absurd rfl h⟩
        simp only [Db.isKind, hn, hk]
        rfl

theorem makeDirsNormal_spec {r : Nat → Nat} {fuel : Nat} {db : Db} {d : Nat} (hr : Ranked r db) (hf : r d < fuel) :
    ∃ db', makeDirsNormal fuel db d = some db' ∧ Normal db db' ∧ db'.isKind .generatedDir d = false := by
  obtain ⟨x, d', e1, e2, _, e4, _⟩ := normalLoop_spec fuel db d hr hf
  unfold makeDirsNormal
  rw [e1]
  simp only
  cases x.select d' gitignore with
  | none => exact ⟨x, rfl, e2, e4⟩
  | some g =>
    refine ⟨_, rfl, ?_⟩
    split
    · exact ⟨⟨e2.rest, e2.top, e2.modify, e2.config, fun j h => or_left' (e2.create j h), e2.node⟩, e4⟩
    · exact ⟨e2, e4⟩

theorem createNameFile_spec {r : Nat → Nat} {fuel : Nat} {db : Db} {d : Nat} {file : Str} {t : Int × Int}
    (hb : Bounded db) (hr : Ranked r db) (hro : Rooted db) (hf : r d < fuel) (hd : (db.node d).isSome) :
    ∃ db' i, createNameFile fuel db d file t = some (db', i) ∧ db.node i = none ∧
      db'.node i = some { dir := d, kind := .file, name := file, mtime := t } ∧ SameRest db db' ∧
      db'.modify = db.modify ∧ db'.config = db.config ∧ (∀ j, db.create j = true → db'.create j = true) ∧
      db'.create d = true ∧ db'.isKind .generatedDir d = false ∧
      (∀ j, j ≠ i → db'.node j = db.node j ∨
        ∃ n, db.node j = some n ∧ n.kind = .generatedDir ∧ db'.node j = some { n with kind := .dir }) := by
  unfold createNameFile
  simp only
  have hfr := fresh_node hb
  generalize hi : fresh db.node db.top = i at hfr
  have hdi : d ≠ i := by
    rintro rfl
    rw [hfr] at hd
    cases hd
  have hins : db.insertNode { dir := d, kind := .file, name := file, mtime := t } =
      ({ db with node := fun j => if j = i then some { dir := d, kind := .file, name := file, mtime := t } else db.node j,
                 top := max db.top (i + 1) }, i) := by
    rw [Db.insertNode, hi]
  rw [hins]
  simp only
  have hi0 : i ≠ 0 := by
    rw [← hi]
    have : ∀ t, fresh db.node t ≠ 0 := by
      intro t
      induction t with
      | zero => exact Nat.one_ne_zero
      | succ t ih => unfold fresh; split <;> omega
    exact this _
  generalize hx : (Db.mk (fun j => if j = i then some { dir := d, kind := .file, name := file, mtime := t } else db.node j)
    (max db.top (i + 1)) db.normal db.sticky db.group db.vars db.config db.create db.modify db.variant db.transient db.ghosts) = x
  have xn : ∀ j, x.node j = if j = i then some { dir := d, kind := .file, name := file, mtime := t } else db.node j := by
    intro j; rw [← hx]
  have hr' : Ranked (fun j => if j = i then r d + 1 else r j) (x.addCreate d) := by
    intro j n hn
    have hn' : x.node j = some n := hn
    rw [xn] at hn'
    by_cases h : j = i
    · rw [if_pos h] at hn'
      cases hn'
      simp only [if_pos h, if_neg hdi]
      omega
    · rw [if_neg h] at hn'
      have hne : n.dir ≠ i := by
        intro hc
        rcases hro j n hn' with h1 | h1
        · exact hi0 (hc.symm.trans h1)
        · rw [hc, hfr] at h1
          cases h1
      simp only [if_neg h, if_neg hne]
      exact hr j n hn'
  obtain ⟨y, y1, y2, y3⟩ := makeDirsNormal_spec (fuel := fuel) (d := d) hr' (by simp only [if_neg hdi]; exact hf)
  rw [y1]
  have hrest : SameRest db x := by rw [← hx]; exact ⟨rfl, rfl, rfl, rfl, rfl, rfl⟩
  refine ⟨y, i, rfl, hfr, ?_, ?_, ?_, ?_, ?_, ?_, y3, ?_⟩
  · rcases y2.node i with h | ⟨n, h1, h2, _⟩
    · rw [h]
      show x.node i = _
      rw [xn, if_pos rfl]
    · have h1' : x.node i = some n := h1
      rw [xn, if_pos rfl] at h1'
      cases h1'
      cases h2
  · obtain ⟨a1, a2, a3, a4, a5, a6⟩ := y2.rest
    obtain ⟨b1, b2, b3, b4, b5, b6⟩ := hrest
    exact ⟨a1.trans b1, a2.trans b2, a3.trans b3, a4.trans b4, a5.trans b5, a6.trans b6⟩
  · rw [y2.modify]
    show x.modify = _
    rw [← hx]
  · rw [y2.config]
    show x.config = _
    rw [← hx]
  · intro j hj
    apply y2.create
    show (x.create j || _) = true
    have : x.create j = true := by rw [← hx]; exact hj
    rw [this]; rfl
  · apply y2.create
    show (x.create d || decide (d = d)) = true
    simp
  · intro j hj
    have := y2.node j
    have hxj : (x.addCreate d).node j = db.node j := by
      show x.node j = _
      rw [xn, if_neg hj]
    rw [hxj] at this
    exact this

end Tup.Scan
