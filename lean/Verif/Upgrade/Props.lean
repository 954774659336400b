import Verif.Upgrade.Open
import Verif.Upgrade.Content

/-!
C76: a database of an older version is upgraded without losing anything.

`mk v rows` is a database with the tables of version `v` and these rows, `content v rows` is what
it says (nodes, links, lists), `expected v` is what it should say afterwards.
-/

namespace Tup.Upgrade

/-- A database of version 3 to 18 is brought to version 19, says what it should, keeps its other
settings, and the old one is in the backup.  When that is not possible the database stays as it
was. -/
theorem c76_upgrade {v : Nat} (h3 : 3 ≤ v) (h19 : v < 19) (rows : Tab → List Row) (bs : List (Int × Db)) (hs : Sound v rows)
    (hv : setting rows keyVersion = some (.int v)) (hp : ∀ n, setting rows keyParser = some (.int n) → 0 ≤ n) :
    match expected v (content v rows) with
    | none => openDb ⟨mk v rows, bs⟩ false = (.failed, ⟨mk v rows, (v, mk v rows) :: bs⟩)
    | some c => ∃ rows', openDb ⟨mk v rows, bs⟩ false = (.ok, ⟨mk 19 rows', (v, mk v rows) :: bs⟩) ∧ Sound 19 rows' ∧
        content 19 rows' = (if setting rows keyParser = some (.int 16) then c else parseAll c) ∧
        setting rows' keyVersion = some (.int 19) ∧ setting rows' keyParser = some (.int 16) ∧
        ∀ k, k ≠ keyVersion → k ≠ keyParser → setting rows' k = setting rows k := by
  have hl := loop (19 - v) v rows (by omega) h3 hs
  have ho := openDb_version (v := v) (rows := rows) (bs := bs) hv false
  rw [if_neg (by omega), if_neg (by omega), if_neg (by omega), if_neg (by omega), if_neg (by simp), Int.toNat_natCast] at ho
  rw [ho]
  cases e : expected v (content v rows) with
  | none =>
    rw [e] at hl
    simp only at hl ⊢
    rw [hl]
  | some c =>
    rw [e] at hl
    obtain ⟨rows1, x1, x2, x3, x4, x5⟩ := hl
    have hpar : setting rows1 keyParser = setting rows keyParser := x4 _ key_ne
    obtain ⟨rows', y1, y2, y3, y4, y5, _⟩ := checkParser_ok (bs := ((v : Int), mk v rows) :: bs) x2 (by rw [hpar]; exact hp)
    simp only
    rw [x1]
    refine ⟨rows', y1, y2, ?_, ?_, y4, ?_⟩
    · rw [y3, hpar, x3]
    · rw [y5 _ (Ne.symm key_ne)]
      exact x5 (by omega)
    · intro k h1 h2
      rw [y5 k h2, x4 k h1]

/-- If no backup can be written nothing is changed. -/
theorem c76_backup {v : Nat} (h19 : v < 19) (h3 : 3 ≤ v) (rows : Tab → List Row) (bs : List (Int × Db)) (hv : setting rows keyVersion = some (.int v)) :
    openDb ⟨mk v rows, bs⟩ true = (.failed, ⟨mk v rows, bs⟩) := by
  rw [openDb_version hv, if_neg (by omega), if_neg (by omega), if_neg (by omega), if_neg (by omega), if_pos rfl]

/-- A database of a newer version is refused and left alone. -/
theorem c76_newer (v : Nat) (rows : Tab → List Row) (bs : List (Int × Db)) (n : Int) (hn : 19 < n) (hv : setting rows keyVersion = some (.int n)) (b : Bool) :
    openDb ⟨mk v rows, bs⟩ b = (.failed, ⟨mk v rows, bs⟩) := by
  rw [openDb_version hv, if_neg (by omega), if_pos hn]

/-- A database of this version, last used by this parser, is left alone; so opening twice is the same as opening once. -/
theorem c76_current (rows : Tab → List Row) (bs : List (Int × Db)) (hs : Sound 19 rows) (hv : setting rows keyVersion = some (.int 19))
    (hp : setting rows keyParser = some (.int 16)) (b : Bool) : openDb ⟨mk 19 rows, bs⟩ b = (.ok, ⟨mk 19 rows, bs⟩) := by
  rw [openDb_version hv, if_neg (by omega), if_neg (by omega), if_pos rfl]
  obtain ⟨rows', y1, _, _, _, _, y6⟩ := checkParser_ok (bs := bs) hs (by rw [hp]; rintro n ⟨⟩; decide)
  rw [y1, y6 hp]

/-- With another version of the parser all Tupfiles are to be parsed again, and nothing else changes. -/
theorem c76_parser (rows : Tab → List Row) (bs : List (Int × Db)) (hs : Sound 19 rows) (hv : setting rows keyVersion = some (.int 19))
    (hp : ∀ n, setting rows keyParser = some (.int n) → 0 ≤ n) (hq : setting rows keyParser ≠ some (.int 16)) (b : Bool) :
    ∃ rows', openDb ⟨mk 19 rows, bs⟩ b = (.ok, ⟨mk 19 rows', bs⟩) ∧ content 19 rows' = parseAll (content 19 rows) ∧
      setting rows' keyParser = some (.int 16) ∧ ∀ k, k ≠ keyParser → setting rows' k = setting rows k := by
  rw [openDb_version hv, if_neg (by omega), if_neg (by omega), if_pos rfl]
  obtain ⟨rows', y1, _, y3, y4, y5, _⟩ := checkParser_ok (bs := bs) hs hp
  exact ⟨rows', y1, by rw [y3, if_neg hq], y4, y5⟩

theorem sameCols : ∀ c : Col, c ∈ [Col.id, .dir, .type, .mtime, .name, .srcid, .display, .flags, .mtimeNs] ↔
    c ∈ [Col.id, .dir, .type, .mtime, .mtimeNs, .srcid, .name, .display, .flags] := by
  intro c; cases c <;> decide

theorem notEmpty : ∀ c : Col, c ∈ [Col.id, .dir, .type, .mtime] → c ∈ [Col.id, .dir, .type, .mtime, .mtimeNs, .srcid] := by
  intro c; cases c <;> decide

/-- The tables, keys, constraints and indexes of an upgraded database are those of a new one; only the order of the columns differs, and which of the added columns may be empty. -/
theorem c76_schema (rows : Tab → List Row) : ∃ d, execAll emptyDb createStmts = some d ∧ (∀ i, (mk 19 rows).indexes i = d.indexes i) ∧
    ∀ t, match (mk 19 rows).tables t, d.tables t with
      | none, none => True
      | some a, some b => (∀ c, c ∈ a.schema.cols ↔ c ∈ b.schema.cols) ∧ a.schema.cols.length = b.schema.cols.length ∧ a.schema.key = b.schema.key ∧
          a.schema.unique = b.schema.unique ∧ ∀ c, c ∈ a.schema.notNull → c ∈ b.schema.notNull
      | _, _ => False := by
  refine ⟨_, rfl, ?_, ?_⟩
  · intro i; cases i <;> rfl
  · intro t
    cases t
    case node => exact ⟨sameCols, rfl, rfl, rfl, notEmpty⟩
    all_goals first
      | exact trivial
      | exact ⟨fun c => Iff.rfl, rfl, rfl, rfl, fun c h => h⟩

/-- Every node is kept, with the same id, type, name, times, display string and flags, but for
ghosts beside real nodes, node 2 and the nodes of groups; and in the same directory, but for
variables, which are put into `tup.config`. -/
theorem c76_kept {v : Nat} {c c' : Content} (h : expected v c = some c') :
    ∃ T : Val, (v < 14 → ∃ t, (t ∈ c.nodes ∨ t.type = .int 5) ∧ isTupConfig t = true ∧ t.id = T) ∧
      ∀ n ∈ c.nodes, ¬ Dropped v c.nodes n → ∃ n' ∈ c'.nodes, Keeps n n' ∧ n'.dir = if v < 14 ∧ n.dir = .int 2 then T else n.dir := kept h

/-- No node appears but a ghost for `tup.config`. -/
theorem c76_only {v : Nat} {c c' : Content} (h : expected v c = some c') {n' : Node} (hn' : n' ∈ c'.nodes) :
    (∃ n ∈ c.nodes, Keeps n n' ∧ ¬ Dropped v c.nodes n) ∨ (v < 14 ∧ isTupConfig n' = true ∧ n'.type = .int 5) := only h hn'

/-- All normal links are kept, all sticky links but those of the nodes of groups, and the values of all variables. -/
theorem c76_links {v : Nat} {c c' : Content} (h : expected v c = some c') :
    c'.normal = c.normal ∧ c'.vars = c.vars ∧ c'.groups = c.groups ∧ (∀ l ∈ c'.sticky, l ∈ c.sticky) ∧
      ∀ l ∈ c.sticky, l ∈ c'.sticky ∨ (v < 15 ∧ ∃ n ∈ c.nodes, n.type = .int 6 ∧ (n.id = l.1 ∨ n.id = l.2)) := by
  obtain ⟨c1, c2, h1, h2, h3⟩ := expected_parts h
  obtain ⟨r1, r2, r3, r4, _⟩ := late_rest v c2 c' h3
  obtain ⟨ns, hns⟩ := early_rest v c
  rw [hns] at h1
  have hc2 : c2.normal = c.normal ∧ c2.sticky = c.sticky ∧ c2.groups = c.groups ∧ c2.vars = c.vars ∧
      ∀ x, IsGroup c2.nodes x → ∃ n ∈ c.nodes, n.type = .int 6 ∧ n.id = x := by
    have hsub : ∀ n ∈ c1.nodes, n ∈ c.nodes := by
      intro n hn
      rw [h1, ← hns] at hn
      exact (early_mem.1 hn).1
    by_cases hv : v < 14
    · rw [if_pos hv] at h2
      obtain ⟨t, ht, _, hnodes, _, _, q1, q2, q3, q4, _⟩ := toTupConfig_some h2
      refine ⟨by rw [q1, h1], by rw [q2, h1], by rw [q3, h1], by rw [q4, h1], ?_⟩
      rintro x ⟨_, m, hm, h6, hid⟩
      rw [hnodes] at hm
      obtain ⟨n, hn, e⟩ := List.mem_map.1 (List.mem_filter.1 hm).1
      have hk : Keeps n m := by rw [← e]; split <;> exact ⟨rfl, rfl, rfl, rfl, rfl, rfl, rfl⟩
      rcases withTupConfig_mem hn with hn | hn
      · exact ⟨n, hsub n hn, hk.2.1.symm.trans h6, hk.1.symm.trans hid⟩
      · rw [hk.2.1, hn.2] at h6; simp at h6
    · rw [if_neg hv] at h2
      cases h2
      refine ⟨by rw [h1], by rw [h1], by rw [h1], by rw [h1], ?_⟩
      rintro x ⟨_, m, hm, h6, hid⟩
      exact ⟨m, hsub m hm, h6, hid⟩
  obtain ⟨p1, p2, p3, p4, p5⟩ := hc2
  refine ⟨r1.trans p1, r4.trans p4, r3.trans p3, ?_, ?_⟩
  · intro l hl
    rw [r2, p2] at hl
    exact (List.mem_filter.1 hl).1
  · intro l hl
    by_cases hg : v < 15 ∧ (IsGroup c2.nodes l.1 ∨ IsGroup c2.nodes l.2)
    · right
      refine ⟨hg.1, ?_⟩
      rcases hg.2 with hg | hg
      · obtain ⟨n, hn, h6, hid⟩ := p5 _ hg
        exact ⟨n, hn, h6, .inl hid⟩
      · obtain ⟨n, hn, h6, hid⟩ := p5 _ hg
        exact ⟨n, hn, h6, .inr hid⟩
    · left
      rw [r2, p2]
      exact List.mem_filter.2 ⟨hl, by simp [hg]⟩

/-- All Tupfiles are parsed again after an upgrade from a version before 17, and what was to be
parsed or to be run before still is. -/
theorem c76_todo {v : Nat} {c c' : Content} (h : expected v c = some c') :
    (v < 17 → ∀ n ∈ c'.nodes, n.type = .int 2 → n.id ∈ c'.create) ∧
      (∀ x ∈ c.create, x ≠ .int 2 ∨ 14 ≤ v → x ∈ c'.create) ∧ (∀ x ∈ c.modify, x ≠ .int 2 ∨ 14 ≤ v → x ∈ c'.modify) := by
  obtain ⟨c1, c2, h1, h2, h3⟩ := expected_parts h
  obtain ⟨_, _, _, _, r5, _, _, _, r9⟩ := late_rest v c2 c' h3
  obtain ⟨ns, hns⟩ := early_rest v c
  rw [hns] at h1
  have hc2 : (∀ x ∈ c.create, x ≠ .int 2 ∨ 14 ≤ v → x ∈ c2.create) ∧ (∀ x ∈ c.modify, x ≠ .int 2 ∨ 14 ≤ v → x ∈ c2.modify) := by
    by_cases hv : v < 14
    · rw [if_pos hv] at h2
      obtain ⟨t, ht, _, _, q1, q2, _⟩ := toTupConfig_some h2
      rw [q1, q2, h1]
      constructor
      · rintro x hx (h2 | h2)
        · exact List.mem_map.2 ⟨x, hx, if_neg h2⟩
        · omega
      · rintro x hx (h2 | h2)
        · exact List.mem_map.2 ⟨x, hx, if_neg h2⟩
        · omega
    · rw [if_neg hv] at h2
      cases h2
      rw [h1]
      exact ⟨fun x hx _ => hx, fun x hx _ => hx⟩
  refine ⟨?_, ?_, ?_⟩
  · intro hv n hn h2
    rw [r9, if_pos hv]
    exact List.mem_append_right _ (List.mem_map.2 ⟨n, List.mem_filter.2 ⟨hn, by simp [h2]⟩, rfl⟩)
  · intro x hx hx2
    have := hc2.1 x hx hx2
    rw [r9]
    split
    · by_cases hd : x ∈ dirs c'.nodes
      · exact List.mem_append_right _ hd
      · exact List.mem_append_left _ (List.mem_filter.2 ⟨this, by simp [hd]⟩)
    · exact this
  · intro x hx hx2
    rw [r5]
    exact hc2.2 x hx hx2

/-- The upgrade is possible from version 14 on, and before that if nothing is in `tup.config` and `tup.config` is not in the lists. -/
theorem c76_possible {v : Nat} {c : Content}
    (h : v < 14 → ∀ t ∈ withTupConfig (if v < 12 then dropShadows c else c).nodes, isTupConfig t = true →
      (∀ n ∈ withTupConfig (if v < 12 then dropShadows c else c).nodes, n.dir ≠ t.id) ∧ t.id ∉ c.create ∧ t.id ∉ c.modify) :
    ∃ c', expected v c = some c' := by
  unfold expected
  simp only
  by_cases hv : v < 14
  · rw [if_pos hv]
    obtain ⟨ns, hns⟩ := early_rest v c
    have h := h hv
    rw [hns] at h ⊢
    have hfind : ∃ t, (withTupConfig ns).find? isTupConfig = some t := by
      have : ∃ t ∈ withTupConfig ns, isTupConfig t = true := by
        unfold withTupConfig
        split
        · next hx => exact List.any_eq_true.1 hx
        · exact ⟨_, List.mem_append_right _ (List.mem_singleton.2 rfl), rfl⟩
      obtain ⟨t, ht, hc⟩ := this
      cases e : (withTupConfig ns).find? isTupConfig with
      | some t => exact ⟨t, rfl⟩
      | none => exact absurd hc (List.find?_eq_none.1 e t ht)
    obtain ⟨t, ht⟩ := hfind
    obtain ⟨g1, g2, g3⟩ := h t (List.mem_of_find?_eq_some ht) (List.find?_some ht)
    have hto : ∃ c2, toTupConfig { c with nodes := ns } = some c2 := by
      unfold toTupConfig
      simp only [ht]
      rw [if_neg]
      · have m1 : ∃ l, moveId t.id c.create = some l := by
          unfold moveId
          rw [if_neg fun x => g2 x.2.1]
          exact ⟨_, rfl⟩
        have m2 : ∃ l, moveId t.id c.modify = some l := by
          unfold moveId
          rw [if_neg fun x => g3 x.2.1]
          exact ⟨_, rfl⟩
        obtain ⟨l1, m1⟩ := m1
        obtain ⟨l2, m2⟩ := m2
        rw [m1, m2]
        exact ⟨_, rfl⟩
      · rintro ⟨a, _, _, b, hb, _, hbt, _⟩
        exact g1 b hb hbt
    obtain ⟨c2, hc2⟩ := hto
    rw [hc2]
    exact ⟨_, rfl⟩
  · rw [if_neg hv]
    exact ⟨_, rfl⟩

/-! An example: a database of version 13 with a directory `src`, a file in it, a command that reads
it, a variable, a group and the two kinds of links. -/

/-- A row of the table of nodes. -/
def exNode (id dir type : Int) (name : Str) : Row :=
  rowOf [(.id, .int id), (.dir, .int dir), (.type, .int type), (.mtime, .int 5), (.name, .text name)]

/-- A row of the table of links. -/
def exLink (a b s : Int) : Row := rowOf [(.fromId, .int a), (.toId, .int b), (.style, .int s)]

/-- The rows. -/
def exRows : Tab → List Row
  | .node => [exNode 1 0 2 ['.'], exNode 2 1 2 ['@'], exNode 3 1 2 ['s'], exNode 4 3 0 ['a'], exNode 5 3 1 ['c', 'p'], exNode 6 2 3 ['V'], exNode 7 1 6 ['g']]
  | .link => [exLink 4 5 3, exLink 6 5 1, exLink 5 7 2]
  | .createList => [rowOf [(.id, .int 2)]]
  | .var => [rowOf [(.id, .int 6), (.value, .text ['y'])]]
  | .config => [rowOf [(.lval, keyVersion), (.rval, .int 13)], rowOf [(.lval, keyParser), (.rval, .int 16)]]
  | _ => []

theorem exSound : Sound 13 exRows where
  fits := by
    intro t
    cases t <;> (intro s e; first | (cases e; unfold Fits; decide) | cases e)
  links := by intro h; omega
  names := by intro h; omega
  sym := by intro _ h; omega
  mtime := by intro _; decide

example : setting exRows keyVersion = some (.int 13) := by decide

/-- What it says after the upgrade. -/
example : expected 13 (content 13 exRows) = some {
    nodes := [
      ⟨.int 1, .int 0, .int 2, .text ['.'], .int 5, .int 0, .int (-1), .null, .null⟩,
      ⟨.int 3, .int 1, .int 2, .text ['s'], .int 5, .int 0, .int (-1), .null, .null⟩,
      ⟨.int 4, .int 3, .int 0, .text ['a'], .int 5, .int 0, .int (-1), .null, .null⟩,
      ⟨.int 5, .int 3, .int 1, .text ['c', 'p'], .int 5, .int 0, .int (-1), .null, .null⟩,
      ⟨.int 6, .int 8, .int 3, .text ['V'], .int 5, .int 0, .int (-1), .null, .null⟩,
      ⟨.int 8, .int 1, .int 5, tupConfig, .int (-1), .int 0, .int (-1), .null, .null⟩]
    normal := [(.int 4, .int 5), (.int 6, .int 5)]
    sticky := [(.int 4, .int 5)]
    groups := []
    vars := [(.int 6, .text ['y'])]
    create := [.int 8, .int 1, .int 3]
    modify := []
    configs := []
    variants := []
    transient := [] } := by decide +kernel

/-- A row of the table of nodes up to version 12. -/
def exOldNode (id dir type : Int) (name : Str) : Row :=
  rowOf [(.id, .int id), (.dir, .int dir), (.type, .int type), (.sym, .int (-1)), (.mtime, .int 5), (.name, .text name)]

/-- A database of version 11 with a ghost beside a real file of the same name. -/
def exOld : Tab → List Row
  | .node => [exOldNode 1 0 2 ['.'], exOldNode 2 1 2 ['@'], exOldNode 3 1 5 ['a'], exOldNode 4 1 0 ['a'], exOldNode 5 1 5 ['b']]
  | .config => [rowOf [(.lval, keyVersion), (.rval, .int 11)]]
  | _ => []

theorem exOld_sound : Sound 11 exOld where
  fits := by
    intro t
    cases t <;> (intro s e; first | (cases e; unfold Fits; decide) | cases e)
  links := by intro h; omega
  names := by intro _; decide
  sym := by intro _ _; decide
  mtime := by intro _; decide

example : ((expected 11 (content 11 exOld)).map fun c => c.nodes.map fun n => (n.id, n.name)) =
    some [(.int 1, .text ['.']), (.int 4, .text ['a']), (.int 5, .text ['b']), (.int 6, tupConfig)] := by decide +kernel

/-- A database that cannot be upgraded: node 2 and `tup.config` are both to be looked at. -/
def exStuck : Tab → List Row
  | .node => [exNode 1 0 2 ['.'], exNode 2 1 2 ['@'], exNode 3 1 0 ['t', 'u', 'p', '.', 'c', 'o', 'n', 'f', 'i', 'g']]
  | .modifyList => [rowOf [(.id, .int 2)], rowOf [(.id, .int 3)]]
  | .config => [rowOf [(.lval, keyVersion), (.rval, .int 13)], rowOf [(.lval, keyParser), (.rval, .int 16)]]
  | _ => []

theorem exStuck_sound : Sound 13 exStuck where
  fits := by
    intro t
    cases t <;> (intro s e; first | (cases e; unfold Fits; decide) | cases e)
  links := by intro h; omega
  names := by intro h; omega
  sym := by intro _ h; omega
  mtime := by intro _; decide

theorem exStuck_none : expected 13 (content 13 exStuck) = none := by decide +kernel

/-- Such a database cannot be used any more: every attempt fails and leaves it as it was. -/
theorem c76_stuck (bs : List (Int × Db)) : openDb ⟨mk 13 exStuck, bs⟩ false = (.failed, ⟨mk 13 exStuck, (13, mk 13 exStuck) :: bs⟩) := by
  have := c76_upgrade (v := 13) (by omega) (by omega) exStuck bs exStuck_sound (by decide) (by
    intro n e
    have h16 : setting exStuck keyParser = some (.int 16) := by decide
    rw [h16] at e
    cases e
    decide)
  rw [exStuck_none] at this
  exact this

end Tup.Upgrade
