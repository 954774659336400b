import Verif.ConfigVar.Lemmas
import Verif.DirInputs.Props
import Verif.VarStore.Props

/-! C102: what Tupfiles see of tup.config, and that they are parsed again when that changes. -/

namespace Tup.ConfigVar

open Tup.Db Tup.Links Tup.DirInputs Tup.VarStore Tup.Lookup

variable {R : Type} {k : Consts} {v : Nat} {db db' db0 : Db} {s s' t : St} {n x : Str} {i : Nat}

/-- At the beginning of an update there are no copies. -/
theorem inv_start (h : Ready db v) : Inv k v db ⟨db, fun _ => none⟩ :=
  ⟨h, fun _ _ => Iff.rfl, fun _ _ _ hc => by cases hc⟩

/-- C102: whatever was asked for and whatever else has happened since the update began, a question for a variable has an answer:
what tup.config says, for a variable it does not have the platform or the architecture if it has that name, else nothing.  The
answer does not depend on what was asked before. -/
theorem c102_value (h : Ready db v) (hb : Between k v ⟨db, fun _ => none⟩ s) (n : Str) :
    ∃ t x i, getVar k v s n = some (t, x, i) ∧ Shown k db v n x ∧ (∀ y, Shown k db v n y → y = x) ∧ Names t.db v n i ∧
      (t.db.isKind .var i = true ↔ Defined db v n) := by
  obtain ⟨hi, _⟩ := (inv_start (k := k) h).between hb
  obtain ⟨t, x, i, h1, h2, h3, h4, _⟩ := get_ok hi n
  exact ⟨t, x, i, h1, h3, fun y hy => shown_unique h.good.unique hy h3, h4,
    (kind_iff h2.ready.proper h4).trans (defined_congr fun y => h2.value n y)⟩

/-- C102: a question changes nothing, except that a name without a row gets a ghost. -/
theorem c102_ghost (h : Ready db v) (hb : Between k v ⟨db, fun _ => none⟩ s) (hg : getVar k v s n = some (t, x, i)) :
    Names t.db v n i ∧ (∀ w y, Value t.db v w y ↔ Value db v w y) ∧ t.db.normal = s.db.normal ∧
    (∀ j m, s.db.node j = some m → t.db.node j = some m) ∧
    (∀ j m, t.db.node j = some m → s.db.node j = none → j = i ∧ m.kind = .ghost ∧ ∀ l, ¬ Names s.db v n l) := by
  obtain ⟨hi, _⟩ := (inv_start (k := k) h).between hb
  obtain ⟨t', x', i', h1, h2, h3, h4, h5⟩ := get_ok hi n
  rw [hg] at h1
  cases h1
  refine ⟨h4, h2.value, h5.ext.normal, fun j m hj => h5.ext.ghosts.kept j m hj, fun j m hj hz => ?_⟩
  refine ⟨h5.new j m hj hz, (h5.ext.ghosts.new j m hj hz).1, fun l hl => ?_⟩
  rw [h5.same ⟨l, hl⟩, hz] at hj
  cases hj

theorem parsed_inv {p : Tupfile R} {r : R} {l : List Nat} (h : Parsed k v s p s' r l) : ∀ {db0 : Db}, Inv k v db0 s →
    Inv k v db0 s' ∧ (∀ w j, Names s.db v w j → Names s'.db v w j) ∧
      ∃ ns, Gives k db0 v p r ns ∧ (∀ w ∈ ns, ∃ a ∈ l, Names s'.db v w a) ∧ ∀ a ∈ l, ∃ w ∈ ns, Names s'.db v w a := by
  induction h with
  | done hb =>
    intro db0 hi
    obtain ⟨h1, h2⟩ := hi.between hb
    exact ⟨h1, h2, [], .done, by simp, by simp⟩
  | @ask s s1 s2 s' p q a r l hb ha _ ih =>
    intro db0 hi
    obtain ⟨h1, h2⟩ := hi.between hb
    have step : ∀ n x, getVar k v s1 n = some (s2, x, a) → ∀ (mk : ∀ ns, Gives k db0 v q r ns → Shown k db0 v n x → Names s2.db v n a →
        Inv k v db0 s2 → Gives k db0 v p r (n :: ns)),
        Inv k v db0 s' ∧ (∀ w j, Names s.db v w j → Names s'.db v w j) ∧
        ∃ ns, Gives k db0 v p r ns ∧ (∀ w ∈ ns, ∃ b ∈ a :: l, Names s'.db v w b) ∧ ∀ b ∈ a :: l, ∃ w ∈ ns, Names s'.db v w b := by
      intro n x hg mk
      obtain ⟨t, x', i', g1, g2, g3, g4, g5⟩ := get_ok h1 n
      rw [hg] at g1
      cases g1
      obtain ⟨i1, i2, ns, i3, i4, i5⟩ := ih g2
      refine ⟨i1, fun w j hn => i2 w j (names_kept g5.ext (h2 w j hn)), n :: ns, mk ns i3 g3 g4 g2, ?_, ?_⟩
      · intro w hw
        rcases List.mem_cons.1 hw with rfl | hw
        · exact ⟨a, List.mem_cons_self, i2 _ _ g4⟩
        · obtain ⟨b, hb, hn⟩ := i4 w hw
          exact ⟨b, List.mem_cons_of_mem _ hb, hn⟩
      · intro b hb
        rcases List.mem_cons.1 hb with rfl | hb
        · exact ⟨n, List.mem_cons_self, i2 _ _ g4⟩
        · obtain ⟨w, hw, hn⟩ := i5 b hb
          exact ⟨w, List.mem_cons_of_mem _ hw, hn⟩
    cases p with
    | done r => cases ha
    | value n next =>
      simp only [ConfigVar.ask, Option.map_eq_some_iff, Prod.mk.injEq] at ha
      obtain ⟨⟨t, x, i⟩, hg, rfl, rfl, rfl⟩ := ha
      exact step n x hg fun ns h3 h4 _ _ => .value h4 h3
    | ifdef text next =>
      simp only [ConfigVar.ask, Option.map_eq_some_iff, Prod.mk.injEq] at ha
      obtain ⟨⟨t, x, i⟩, hg, rfl, rfl, rfl⟩ := ha
      refine step (ifdefName text) x hg fun ns h3 h4 h5 h6 => ?_
      have hk := (kind_iff h6.ready.proper h5).trans (defined_congr fun y => h6.value (ifdefName text) y)
      dsimp only at h3 h5 hk
      cases hb : t.db.isKind .var i with
      | true =>
        rw [hb] at h3
        exact .yes (ifdefName_means text) (hk.1 hb) h3
      | false =>
        rw [hb] at h3
        exact .no (ifdefName_means text) (fun hd => by rw [hk.2 hd] at hb; cases hb) h3

theorem gives_unique (hu : Unique db) {p : Tupfile R} {r r' : R} {l l' : List Str} (h : Gives k db v p r l) (h' : Gives k db v p r' l') :
    r = r' ∧ l = l' := by
  induction h generalizing r' l' with
  | done => cases h'; exact ⟨rfl, rfl⟩
  | value hs _ ih =>
    cases h' with
    | value hs' h' =>
      have := shown_unique hu hs hs'
      subst this
      obtain ⟨rfl, rfl⟩ := ih h'
      exact ⟨rfl, rfl⟩
  | yes hm hd _ ih =>
    cases h' with
    | yes hm' _ h' =>
      have := means_unique hm hm'
      subst this
      obtain ⟨rfl, rfl⟩ := ih h'
      exact ⟨rfl, rfl⟩
    | no hm' hd' h' =>
      have := means_unique hm hm'
      subst this
      exact absurd hd hd'
  | no hm hd _ ih =>
    cases h' with
    | no hm' _ h' =>
      have := means_unique hm hm'
      subst this
      obtain ⟨rfl, rfl⟩ := ih h'
      exact ⟨rfl, rfl⟩
    | yes hm' hd' h' =>
      have := means_unique hm hm'
      subst this
      exact absurd hd' hd

theorem gives_congr {p : Tupfile R} {r : R} {l : List Str} (h : Gives k db v p r l) :
    (∀ w ∈ l, ∀ y, Value db v w y ↔ Value db' v w y) → Gives k db' v p r l := by
  induction h with
  | done => intro _; exact .done
  | value hs _ ih =>
    intro hv
    exact .value ((shown_congr (hv _ List.mem_cons_self)).1 hs) (ih fun w hw => hv w (List.mem_cons_of_mem _ hw))
  | yes hm hd _ ih =>
    intro hv
    exact .yes hm ((defined_congr (hv _ List.mem_cons_self)).1 hd) (ih fun w hw => hv w (List.mem_cons_of_mem _ hw))
  | no hm hd _ ih =>
    intro hv
    exact .no hm (fun h => hd ((defined_congr (hv _ List.mem_cons_self)).2 h)) (ih fun w hw => hv w (List.mem_cons_of_mem _ hw))

/-- C102: a Tupfile leads to the rules that the tup.config gives, whatever other Tupfiles are parsed before it or in its midst, and the
set of its inputs gets an entry for each variable that it asks for, and no other. -/
theorem c102_tupfile (h : Ready db v) (hb : Between k v ⟨db, fun _ => none⟩ s) {p : Tupfile R} {r : R} {l : List Nat}
    (hp : Parsed k v s p s' r l) : ∃ ns, Gives k db v p r ns ∧ (∀ r' ns', Gives k db v p r' ns' → r' = r ∧ ns' = ns) ∧
      (∀ w ∈ ns, ∃ a ∈ l, Names s'.db v w a) ∧ ∀ a ∈ l, ∃ w ∈ ns, Names s'.db v w a := by
  obtain ⟨hi, _⟩ := (inv_start (k := k) h).between hb
  obtain ⟨_, _, ns, h1, h2, h3⟩ := parsed_inv hp hi
  exact ⟨ns, h1, fun r' ns' h' => gives_unique h.good.unique h' h1, h2, h3⟩

theorem gives_exists (k : Consts) (db : Db) (v : Nat) (p : Tupfile R) : ∃ r l, Gives k db v p r l := by
  induction p with
  | done r => exact ⟨r, [], .done⟩
  | value n next ih =>
    obtain ⟨x, hx⟩ := shown_exists k db v n
    obtain ⟨r, l, h⟩ := ih x
    exact ⟨r, n :: l, .value hx h⟩
  | ifdef t next ih =>
    by_cases hd : Defined db v (ifdefName t)
    · obtain ⟨r, l, h⟩ := ih true
      exact ⟨r, _ :: l, .yes (ifdefName_means t) hd h⟩
    · obtain ⟨r, l, h⟩ := ih false
      exact ⟨r, _ :: l, .no (ifdefName_means t) hd h⟩

/-- C102: a Tupfile is never stopped by a question. -/
theorem c102_total (h : Ready db v) (hb : Between k v ⟨db, fun _ => none⟩ s) (p : Tupfile R) :
    ∃ s' r l, Parsed k v s p s' r l := by
  have hi := ((inv_start (k := k) h).between hb).1
  clear hb
  induction p generalizing s with
  | done r => exact ⟨s, r, [], .done (.refl s)⟩
  | value n next ih =>
    obtain ⟨t, x, i, h1, h2, _⟩ := get_ok hi n
    obtain ⟨s', r, l, h3⟩ := ih x h2
    exact ⟨s', r, i :: l, .ask (.refl s) (by simp only [ask, h1, Option.map_some]) h3⟩
  | ifdef text next ih =>
    obtain ⟨t, x, i, h1, h2, _⟩ := get_ok hi (ifdefName text)
    obtain ⟨s', r, l, h3⟩ := ih (t.db.isKind .var i) h2
    exact ⟨s', r, i :: l, .ask (.refl s) (by simp only [ask, h1, Option.map_some]) h3⟩

/-- C102: when the directory has been parsed, the recorded inputs of it contain all variables that its Tupfile has asked for. -/
theorem c102_inputs (h : Ready db v) (hb : Between k v ⟨db, fun _ => none⟩ s) {p : Tupfile R} {r : R} {l : List Nat}
    (hp : Parsed k v s p s' r l) {root : List Nat} (hr : Asc root) (hl : ∀ a ∈ l, a ∈ root) {d vardt : Nat} {reads vars writes : List (List Str)}
    (ha : afterParse s'.db d vardt root reads vars writes = some db') :
    ∃ ns, Gives k db v p r ns ∧ ∀ w ∈ ns, Uses db' v w d := by
  obtain ⟨hi, _⟩ := (inv_start (k := k) h).between hb
  obtain ⟨hi', _, ns, h1, h2, _⟩ := parsed_inv hp hi
  refine ⟨ns, h1, fun w hw => ?_⟩
  obtain ⟨a, hal, m, g1, g2, g3⟩ := h2 w hw
  obtain ⟨hm, hin⟩ := c91_inputs hi'.ready.good hr ha
  exact ⟨a, ⟨m, hm.ghosts.kept a m g1, g2, g3⟩, (hin a).2 (.inl (hl a hal))⟩

/-- C102, all together: a Tupfile was parsed and its inputs recorded (`db1`).  Later tup.config is read again (`q.db` before and `z.db` after that;
between the two nothing has happened to the values and to the inputs of the directory).  If the directory is not to be parsed, then parsing
it would lead to the same rules again. -/
theorem c102_same (h : Ready db v) (hb : Between k v ⟨db, fun _ => none⟩ s) {p : Tupfile R} {r : R} {l : List Nat}
    (hp : Parsed k v s p s' r l) {root : List Nat} (hr : Asc root) (hl : ∀ a ∈ l, a ∈ root) {d vardt : Nat} {reads vars writes : List (List Str)}
    {db1 : Db} (ha : afterParse s'.db d vardt root reads vars writes = some db1) {q z : VarStore.St} (hq : Proper q.db v)
    (hv : ∀ w y, Value q.db v w y ↔ Value db v w y) (hu : ∀ w, Uses db1 v w d → Uses q.db v w d) (hd : q.db.isKind .dir d = true)
    {bs : List (Str × Str)} (hz : Read q v bs z) (hn : ¬ VarStore.Parses z.db d) :
    ∃ ns, Gives k db v p r ns ∧ Gives k z.db v p r ns := by
  obtain ⟨ns, h1, h2⟩ := c102_inputs h hb hp hr hl ha
  refine ⟨ns, h1, gives_congr h1 fun w hw y => ?_⟩
  have hc : ¬ Changed q.db v bs w := fun hc => hn (c16_parses hq hz hd (.inr ⟨w, hc, hu w (h2 w hw)⟩))
  have hc' : ∀ y, Value q.db v w y ↔ Config.Last bs w y := Classical.not_not.1 hc
  rw [← hv w y, hc' y, (c16_values hq hz).2 w y]

/-- C102: what is not so: `ifdef TUP_PLATFORM` fails although `@(TUP_PLATFORM)` is not empty, unless tup.config has the variable. -/
theorem c102_ifdef_platform (h : Ready db v) (hb : Between k v ⟨db, fun _ => none⟩ s) (hd : ¬ Defined db v "TUP_PLATFORM".toList) :
    ∃ t x i, getVar k v s "TUP_PLATFORM".toList = some (t, x, i) ∧ x = k.platform ∧ t.db.isKind .var i = false := by
  obtain ⟨t, x, i, h1, h2, h3, h4, h5⟩ := c102_value (k := k) h hb "TUP_PLATFORM".toList
  refine ⟨t, x, i, h1, (h3 _ (.inr ⟨hd, .inl ⟨rfl, rfl⟩⟩)).symm, ?_⟩
  cases hk : t.db.isKind .var i with
  | false => rfl
  | true => exact absurd (h5.1 hk) hd

/-! ## An example: the database of C16, with the variables `A`, `B` and `D` and the ghost `C` -/

theorem ex_ready : Ready exDb 2 where
  good := by
    refine ⟨⟨fun a n h => ?_, fun a b h => ?_, fun a b h => by cases h⟩, exProper.unique⟩
    · simp only [exDb] at h
      split at h <;> first | (cases h; done) | (refine ⟨by decide, ?_⟩; show _ < 14; decide)
    · simp only [exDb, Bool.or_eq_true, Bool.and_eq_true, beq_iff_eq] at h
      rcases h with (⟨rfl, rfl⟩ | ⟨rfl, rfl⟩) | ⟨rfl, rfl⟩ <;> decide +kernel
  proper := exProper
  tidy := by
    intro i h
    simp only [exDb] at h ⊢
    split at h <;> first | (cases h; done) | (split <;> first | rfl | (simp_all; done))

/-- With `ifdef CONFIG_B` the rules use `@(A)`, otherwise `@(C)`. -/
def exTupfile : Tupfile Str :=
  .ifdef "CONFIG_B".toList fun b => .value (if b then ['A'] else ['C']) .done

def exConsts : Consts := ⟨"linux".toList, "x86_64".toList⟩

/-- The copies after the two questions. -/
def exCache : Str → Option (Str × Nat) :=
  fun n => if n = ['A'] then some (['y'], 3) else if n = ['B'] then some (['1'], 4) else none

theorem ex_parsed : Parsed exConsts 2 ⟨exDb, fun _ => none⟩ exTupfile ⟨exDb, exCache⟩ ['y'] [4, 3] := by
  have e1 : exDb.select 2 ['B'] = some 4 := by decide +kernel
  have e2 : exDb.select 2 ['A'] = some 3 := by decide +kernel
  have n1 : ifdefName "CONFIG_B".toList = ['B'] := by decide +kernel
  have v1 : valueOf exConsts exDb 4 ['B'] = some ['1'] := by decide +kernel
  have v2 : valueOf exConsts exDb 3 ['A'] = some ['y'] := by decide +kernel
  have k1 : exDb.isKind .var 4 = true := by decide +kernel
  refine .ask (.refl _) (s2 := ⟨exDb, fun n => if n = ['B'] then some (['1'], 4) else none⟩)
    (q := .value ['A'] .done) ?_ (.ask (.refl _) (s2 := ⟨exDb, exCache⟩) (q := .done ['y']) ?_ (.done (.refl _)))
  · simp only [ask, exTupfile, n1, getVar, entry, e1, v1, Option.map_some, k1, if_true]
  · have : (if ['A'] = ['B'] then some (['1'], 4) else none : Option (Str × Nat)) = none := by decide
    simp only [ask, getVar, this, entry, e2, v2, Option.map_some]
    rfl

/-- The rules are those for `B` set and `A=y`. -/
example : ∃ ns, Gives exConsts exDb 2 exTupfile ['y'] ns ∧ (∃ w ∈ ns, Names exDb 2 w 4) := by
  obtain ⟨ns, h1, _, _, h4⟩ := c102_tupfile ex_ready (.refl _) ex_parsed
  exact ⟨ns, h1, h4 4 (by decide)⟩

/-- A question for a variable without a row makes a ghost with the next number, and the second time it is the same one. -/
example : ∃ t, getVar exConsts 2 ⟨exDb, fun _ => none⟩ "TUP_ARCH".toList = some (t, "x86_64".toList, 14) ∧
    getVar exConsts 2 t "TUP_ARCH".toList = some (t, "x86_64".toList, 14) := by
  obtain ⟨t, x, i, h1, h2, h3, h4, _⟩ := c102_value (k := exConsts) ex_ready (.refl _) "TUP_ARCH".toList
  have hk : (getVar exConsts 2 ⟨exDb, fun _ => none⟩ "TUP_ARCH".toList).map (fun r => (r.2, r.1.cache "TUP_ARCH".toList)) =
      some (("x86_64".toList, 14), some ("x86_64".toList, 14)) := by decide +kernel
  rw [h1] at hk
  simp only [Option.map_some, Option.some.injEq, Prod.mk.injEq] at hk
  obtain ⟨⟨rfl, rfl⟩, hk⟩ := hk
  exact ⟨t, h1, by unfold getVar; rw [hk]⟩

theorem ex_after : ∃ db', afterParse exDb 10 2 [3, 4] [] [] [] = some db' := by
  have hx : afterParse exDb 10 2 [3, 4] [] [] [] = writeDirInputs exDb 10 [3, 4] := rfl
  rw [hx]
  refine write_total ex_ready.good.sound (by decide) (by decide) (by decide) (by decide +kernel) (fun a => rfl) (fun a ha => ?_)
  have key : ∀ x ∈ [3, 4], exDb.isKind .generated x = false := by decide +kernel
  have := ha.2.1
  rw [key a ha.1] at this
  cases this

/-- The database with the inputs of directory 10 recorded. -/
def exLater : Db := { exDb with normal := fun a b => exDb.normal a b && b != 10 || (a == 3 || a == 4) && b == 10 }

/-- A new tup.config that sets the same variables to the same values. -/
def exSame : List (Str × Str) := [(['D'], ['7']), (['B'], ['1']), (['A'], ['y'])]

theorem ex_value (w y : Str) : Value exDb 2 w y ↔ Config.Last exSame w y := by
  have hl : Config.Last exSame w y ↔ (w, y) ∈ exSame := by
    constructor
    · rintro ⟨a, b, h, _⟩
      rw [h]
      simp
    · intro h
      simp only [exSame, List.mem_cons, Prod.mk.injEq, List.not_mem_nil, or_false] at h
      rcases h with ⟨rfl, rfl⟩ | ⟨rfl, rfl⟩ | ⟨rfl, rfl⟩
      · exact ⟨[], [(['B'], ['1']), (['A'], ['y'])], rfl, by decide⟩
      · exact ⟨[(['D'], ['7'])], [(['A'], ['y'])], rfl, by decide⟩
      · exact ⟨[(['D'], ['7']), (['B'], ['1'])], [], rfl, by decide⟩
  rw [hl]
  constructor
  · rintro ⟨i, nd, h1, h2, h3, h4⟩
    simp only [exDb] at h1 h4
    split at h1 <;> cases h1 <;> first | (simp at h2; done) | (simp at h3 h4; subst h3; subst h4; decide) | (simp at h4; done)
  · intro h
    simp only [exSame, List.mem_cons, Prod.mk.injEq, List.not_mem_nil, or_false] at h
    rcases h with ⟨rfl, rfl⟩ | ⟨rfl, rfl⟩ | ⟨rfl, rfl⟩
    · exact ⟨6, _, rfl, rfl, rfl, rfl⟩
    · exact ⟨4, _, rfl, rfl, rfl, rfl⟩
    · exact ⟨3, _, rfl, rfl, rfl, rfl⟩

/-- The new tup.config has the same values: the directory is not parsed, and the rules are the same. -/
example : ∃ z, Read ⟨exLater, false⟩ 2 exSame z ∧ ¬ VarStore.Parses z.db 10 ∧ ∃ ns, Gives exConsts z.db 2 exTupfile ['y'] ns := by
  have hq : Proper exLater 2 := ⟨exProper.bounded, exProper.unique, exProper.kinds⟩
  obtain ⟨⟨z, hz⟩, _⟩ := c16_total (s := ⟨exLater, false⟩) hq exSame
  have hc : ∀ w, ¬ Changed exLater 2 exSame w := fun w h => h (ex_value w)
  have hn : ¬ VarStore.Parses z.db 10 := by
    have key : ∀ j, z.db.create j ≠ true := fun j hj => by
      obtain ⟨w, hw, _⟩ := c16_parses_only (s := ⟨exLater, false⟩) hq hz hj rfl
      exact hc w hw
    rintro (h | ⟨i, h, _⟩)
    · exact key _ h
    · exact key _ h
  obtain ⟨db1, h1⟩ := ex_after
  refine ⟨z, hz, hn, ?_⟩
  obtain ⟨hm, hin⟩ := c91_inputs ex_ready.good (by decide) h1
  have hu : ∀ w, Uses db1 2 w 10 → Uses exLater 2 w 10 := by
    intro w hu
    obtain ⟨a, ⟨m, g1, g2, g3⟩, g4⟩ := hu
    have hr : a ∈ [3, 4] := by
      rcases (hin a).1 g4 with h | ⟨(⟨p, h, _⟩ | ⟨p, h, _⟩), _⟩
      · exact h
      · cases h
      · cases h
    have h34 : a = 3 ∨ a = 4 := by simpa using hr
    rcases h34 with rfl | rfl
    · refine ⟨3, ⟨m, ?_, g2, g3⟩, rfl⟩
      have := hm.ghosts.kept 3 _ (show exDb.node 3 = some _ from rfl)
      rw [this] at g1
      exact g1
    · refine ⟨4, ⟨m, ?_, g2, g3⟩, rfl⟩
      have := hm.ghosts.kept 4 _ (show exDb.node 4 = some _ from rfl)
      rw [this] at g1
      exact g1
  obtain ⟨ns, _, h3⟩ := c102_same ex_ready (.refl _) ex_parsed (root := [3, 4]) (by decide) (by decide) h1 (q := ⟨exLater, false⟩) hq
    (fun _ _ => Iff.rfl) hu rfl hz hn
  exact ⟨ns, h3⟩

end Tup.ConfigVar
