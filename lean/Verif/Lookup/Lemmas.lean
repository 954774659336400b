import Verif.Lookup.Spec
import Verif.Names.Props

/-! Lemmas about the lookup of inputs. -/

namespace Tup.Lookup

open Tup.Db Tup.Names

variable {cx : Cx} {db : Db}

theorem source_iff {d s : Nat} : source cx db d = some s ↔ Image cx db d s := by
  unfold source Image
  cases cx.root <;> cases db.node d <;> simp

theorem source_none {d : Nat} : source cx db d = none ↔ ∀ s, ¬ Image cx db d s := by
  constructor
  · intro h s hs
    rw [source_iff.2 hs] at h; cases h
  · intro h
    cases hs : source cx db d with
    | none => rfl
    | some s => exact absurd (source_iff.1 hs) (h s)

theorem foreign_iff {i : Nat} {n : Node} (h : db.node i = some n) : foreign cx n = true ↔ Foreign cx db i := by
  unfold foreign Foreign
  constructor
  · intro hf
    cases hs : n.src with
    | none => rw [hs] at hf; cases hf
    | some s =>
      rw [hs] at hf
      simp only [Bool.and_eq_true, decide_eq_true_eq] at hf
      exact ⟨n, s, h, hs, hf⟩
  · rintro ⟨m, s, hm, hs, h1, h2⟩
    rw [h] at hm; cases hm
    rw [hs]
    simp [h1, h2]

theorem select_iff (hb : Bounded db) (hu : Unique db) {d : Nat} {name : Str} {i : Nat} :
    db.select d name = some i ↔ At db d name i := by
  constructor
  · exact select_some
  · rintro ⟨n, h1, h2, h3⟩
    subst h2; subst h3
    exact select_eq hb hu h1

theorem select_none_iff (hb : Bounded db) {d : Nat} {name : Str} :
    db.select d name = none ↔ ∀ j, ¬ At db d name j := by
  constructor
  · rintro h j ⟨n, h1, h2, h3⟩
    exact select_none hb h h1 h2 h3
  · intro h
    cases hs : db.select d name with
    | none => rfl
    | some i => exact absurd (select_some hs) (h i)

theorem ghost_iff {i : Nat} : db.isKind .ghost i = true ↔ IsGhost db i := isKind_iff

theorem ghost_false {i : Nat} : db.isKind .ghost i = false ↔ ¬ IsGhost db i := by
  rw [← ghost_iff]; simp

theorem isPattern_iff {pat : Str} : isPattern pat = true ↔ Pattern pat := by
  unfold isPattern Pattern
  simp only [List.any_eq_true, decide_eq_true_eq]
  constructor
  · rintro ⟨c, hc, h | h | h⟩ <;> subst h
    · exact .inl hc
    · exact .inr (.inl hc)
    · exact .inr (.inr hc)
  · rintro (h | h | h)
    · exact ⟨_, h, .inl rfl⟩
    · exact ⟨_, h, .inr (.inl rfl)⟩
    · exact ⟨_, h, .inr (.inr rfl)⟩

theorem adds_insert (hb : Bounded db) (n : Node) : Adds db (db.insertNode n).1 (db.insertNode n).2 n := by
  refine ⟨fresh_node hb, ?_, fun j hj => ?_⟩
  · simp [Db.insertNode]
  · simp only [Db.insertNode] at hj ⊢
    rw [if_neg hj]

theorem insert_bounded (hb : Bounded db) (n : Node) : Bounded (db.insertNode n).1 := by
  intro i hi
  simp only [Db.insertNode] at hi ⊢
  rw [if_neg (by omega)]
  exact hb i (by omega)

theorem insert_unique (hb : Bounded db) (hu : Unique db) {n : Node} (hn : ∀ j, ¬ At db n.dir n.name j) :
    Unique (db.insertNode n).1 := by
  obtain ⟨_, h2, h3⟩ := adds_insert hb n
  intro i j a b ha hb' hd hnm
  by_cases hi : i = (db.insertNode n).2
  · by_cases hj : j = (db.insertNode n).2
    · rw [hi, hj]
    · rw [h3 j hj] at hb'
      rw [hi, h2] at ha; cases ha
      exact absurd ⟨b, hb', hd.symm, hnm.symm⟩ (hn j)
  · rw [h3 i hi] at ha
    by_cases hj : j = (db.insertNode n).2
    · rw [hj, h2] at hb'; cases hb'
      exact absurd ⟨a, ha, hd, hnm⟩ (hn i)
    · rw [h3 j hj] at hb'
      exact hu i j a b ha hb' hd hnm

/-- If the id of the new row is known, it is the one that `insertNode` gives. -/
theorem adds_id (hb : Bounded db) {n : Node} {i : Nat} (h : Adds db (db.insertNode n).1 i n) :
    i = (db.insertNode n).2 := by
  obtain ⟨h1, h2, _⟩ := h
  obtain ⟨_, _, h3⟩ := adds_insert hb n
  refine Classical.byContradiction fun hne => ?_
  rw [h3 i hne, h1] at h2; cases h2

/-! ### Patterns -/

theorem rows_mem (ho : ∀ l, (cx.order l).Perm l) (hb : Bounded db) {d : Nat} {pat : Str} {i : Nat} :
    i ∈ rows cx db d pat ↔
      ∃ n, db.node i = some n ∧ n.dir = d ∧ (n.kind = .file ∨ n.kind = .generated) ∧ cx.glob pat n.name = true := by
  unfold rows
  rw [(ho _).mem_iff, List.mem_filter, List.mem_range]
  cases hn : db.node i with
  | none => simp
  | some n =>
    have := lt_top hb hn
    simp [this, and_assoc]

theorem rows_nodup (ho : ∀ l, (cx.order l).Perm l) {d : Nat} {pat : Str} : (rows cx db d pat).Nodup := by
  unfold rows
  rw [(ho _).nodup_iff]
  exact List.Pairwise.filter _ List.nodup_range

theorem fileEntry_ok {pat r name : Str} {orderid i : Nat} {e : Entry} (h : fileEntry pat r name orderid i = .ok e) :
    e.tent = some i ∧ e.path = r ∧ e.orderid = orderid := by
  unfold fileEntry at h
  cases hg : globParse pat name with
  | ok g => rw [hg] at h; cases h; exact ⟨rfl, rfl, rfl⟩
  | error => rw [hg] at h; cases h
  | ub => rw [hg] at h; cases h

theorem globParse_error {pat name : Str} : globParse pat name ≠ .error := by
  unfold globParse
  dsimp only
  generalize common pat name = c
  by_cases h0 : pat = []
  · rw [if_pos h0]; intro h; cases h
  rw [if_neg h0]
  by_cases h1 : c.2.1 = [] ∧ c.2.2 = []
  · rw [if_pos h1]; intro h; cases h
  rw [if_neg h1]
  by_cases h2 : c.2.1.head? = some '[' ∨ c.2.1.head? = some '?'
  · rw [if_pos h2]; intro h; cases h
  rw [if_neg h2]
  generalize (List.takeWhile (fun x => decide (x = '*')) (c.2.1.drop 1)) = st
  generalize (List.dropWhile (fun x => decide (x = '*')) (c.2.1.drop 1)) = q
  by_cases h3 : maxGlobs < st.length + 1
  · rw [if_pos h3]; intro h; cases h
  rw [if_neg h3]
  split
  · intro h; cases h
  · split <;> (intro h; cases h)

open Classical in
/-- The rows of a list that are taken. -/
noncomputable def taken (cx : Cx) (db : Db) (l : List Nat) : List Nat :=
  l.filter fun i => decide (cx.gone i = false ∧ ¬ Foreign cx db i)

theorem addRows_ok {pat : Str} {orderid : Nat} : ∀ {l : List Nat} {nl nl' : NameList},
    addRows cx db pat orderid l nl = .ok nl' →
    ∃ es, nl'.entries = nl.entries ++ es ∧ es.map (·.tent) = (taken cx db l).map some ∧
      ∀ e ∈ es, ∃ i, Describes cx db orderid e i := by
  intro l
  induction l with
  | nil =>
    intro nl nl' h
    cases h
    exact ⟨[], by simp, rfl, by simp⟩
  | cons i l ih =>
    intro nl nl' h
    rw [addRows] at h
    by_cases hg : cx.gone i = true
    · rw [if_pos hg] at h
      obtain ⟨es, h1, h2, h3⟩ := ih h
      refine ⟨es, h1, ?_, h3⟩
      rw [h2, taken, taken, List.filter_cons_of_neg (by simp [hg])]
    · rw [if_neg hg] at h
      have hg' : cx.gone i = false := by simpa using hg
      unfold addNode at h
      cases hn : db.node i with
      | none => rw [hn] at h; cases h
      | some n =>
        rw [hn] at h
        simp only [if_true] at h
        by_cases hf : foreign cx n = true
        · rw [if_pos hf] at h
          obtain ⟨es, h1, h2, h3⟩ := ih h
          refine ⟨es, h1, ?_, h3⟩
          rw [h2, taken, taken, List.filter_cons_of_neg (by simp [(foreign_iff hn).1 hf])]
        · rw [if_neg hf] at h
          cases hr : cx.rel db i with
          | none => rw [hr] at h; cases h
          | some r =>
            rw [hr] at h
            simp only at h
            cases he : fileEntry pat r n.name orderid i with
            | error => rw [he] at h; cases h
            | ub => rw [he] at h; cases h
            | ok e =>
              rw [he] at h
              obtain ⟨es, h1, h2, h3⟩ := ih h
              obtain ⟨e1, e2, e3⟩ := fileEntry_ok he
              refine ⟨e :: es, ?_, ?_, ?_⟩
              · rw [h1]; simp [NameList.add]
              · rw [List.map_cons, h2, taken, taken,
                  List.filter_cons_of_pos (by simp only [decide_eq_true_eq]; exact ⟨hg', fun h => hf ((foreign_iff hn).2 h)⟩), List.map_cons, e1]
              · intro x hx
                rcases List.mem_cons.1 hx with hx | hx
                · subst hx; exact ⟨i, e1, by rw [e2, hr], e3⟩
                · exact h3 x hx

/-- The list is worked through if there is a path to every node of it that is taken and the pattern has not too many stars. -/
theorem addRows_total {pat : Str} {orderid : Nat} : ∀ {l : List Nat} {nl : NameList},
    (∀ i ∈ l, ∃ n, db.node i = some n ∧ (cx.gone i = false → ¬ Foreign cx db i →
      (∃ r, cx.rel db i = some r) ∧ globParse pat n.name ≠ .ub)) →
    ∃ nl', addRows cx db pat orderid l nl = .ok nl' := by
  intro l
  induction l with
  | nil => intro nl _; exact ⟨nl, rfl⟩
  | cons i l ih =>
    intro nl h
    have ht := fun nl => ih (nl := nl) fun j hj => h j (List.mem_cons_of_mem _ hj)
    rw [addRows]
    by_cases hg : cx.gone i = true
    · rw [if_pos hg]; exact ht nl
    · rw [if_neg hg]
      obtain ⟨n, hn, hx⟩ := h i List.mem_cons_self
      unfold addNode
      rw [hn]
      simp only [if_true]
      by_cases hf : foreign cx n = true
      · rw [if_pos hf]; exact ht nl
      · rw [if_neg hf]
        obtain ⟨⟨r, hr⟩, hu⟩ := hx (by simpa using hg) fun h => hf ((foreign_iff hn).2 h)
        rw [hr]
        simp only [fileEntry]
        cases hp : globParse pat n.name with
        | ok g => exact ht _
        | error => exact absurd hp globParse_error
        | ub => exact absurd hp hu

/-- If it is not worked through without undefined behaviour, there is no path to one of the nodes. -/
theorem addRows_error {pat : Str} {orderid : Nat} : ∀ {l : List Nat} {nl : NameList},
    (∀ i ∈ l, ∃ n, db.node i = some n) → (∀ i ∈ l, ∃ r, cx.rel db i = some r) →
    addRows cx db pat orderid l nl ≠ .error := by
  intro l
  induction l with
  | nil => intro nl _ _ h; cases h
  | cons i l ih =>
    intro nl hn hr
    have ht := fun nl => ih (nl := nl) (fun j hj => hn j (List.mem_cons_of_mem _ hj))
      (fun j hj => hr j (List.mem_cons_of_mem _ hj))
    rw [addRows]
    by_cases hg : cx.gone i = true
    · rw [if_pos hg]; exact ht nl
    · rw [if_neg hg]
      obtain ⟨n, hn⟩ := hn i List.mem_cons_self
      obtain ⟨r, hr⟩ := hr i List.mem_cons_self
      unfold addNode
      rw [hn]
      simp only [if_true]
      by_cases hf : foreign cx n = true
      · rw [if_pos hf]; exact ht nl
      · rw [if_neg hf, hr]
        simp only [fileEntry]
        cases hp : globParse pat n.name with
        | ok g => exact ht _
        | error => exact absurd hp globParse_error
        | ub => intro h; cases h

/-! ### Names -/

/-- The database after a lookup, and what is known of the node. -/
structure Good (name : Str) (db' : Db) (i : Nat) : Prop where
  bounded : Bounded db'
  unique : Unique db'
  named : ∃ n, db'.node i = some n ∧ n.name = name

theorem found_good (hb : Bounded db) (hu : Unique db) (hc : Converts cx) {d : Nat} {name : Str} {copy : Bool} {db' : Db}
    {i : Nat} (h : Found cx db d name copy db' i) : Good name db' i := by
  cases h with
  | own _ h _ => obtain ⟨n, h1, _, h2⟩ := h; exact ⟨hb, hu, n, h1, h2⟩
  | source _ h _ => obtain ⟨n, h1, _, h2⟩ := h; exact ⟨hb, hu, n, h1, h2⟩
  | group _ _ h _ _ => obtain ⟨n, h1, _, h2⟩ := h; exact ⟨hb, hu, n, h1, h2⟩
  | newGroup _ hn ha he =>
    subst he
    exact ⟨insert_bounded hb _, insert_unique hb hu hn, _, ha.2.1, rfl⟩
  | converted _ _ hat hn _ hcv =>
    obtain ⟨h1, h2, m, h3, _, _, h4⟩ := hc _ _ _ _ _ hb hu hn hcv
    obtain ⟨n', h5, _, h6⟩ := hat
    rw [hn] at h5; cases h5
    exact ⟨h1, h2, m, h3, h4.trans h6⟩
  | outside _ _ hn _ _ ha he =>
    subst he
    exact ⟨insert_bounded hb _, insert_unique hb hu hn, _, ha.2.1, rfl⟩

theorem onlySource_iff {copy : Bool} : (!copy || cx.root) = false ↔ OnlySource cx copy := by
  unfold OnlySource
  cases copy <;> cases cx.root <;> simp

/-- `look` finds a node if `Found` says so; a new ghost without time is the only other result. -/
theorem look_found (hb : Bounded db) (hu : Unique db) (hc : Converts cx) {d : Nat} {name : Str} {copy : Bool} {db' : Db}
    {i : Nat} (h : look cx db d name copy = some (db', i)) :
    Found cx db d name copy db' i ∨ ∃ n, db'.node i = some n ∧ n.kind = .ghost ∧ n.mtime.1 = -1 := by
  unfold look lookOwn at h
  by_cases ho : (!copy || cx.root) = true
  · have hos : ¬ OnlySource cx copy := by rw [← onlySource_iff, ho]; simp
    rw [if_pos ho] at h
    cases hs : db.select d name with
    | some j =>
      rw [hs] at h
      have hat := (select_iff hb hu).1 hs
      simp only at h
      cases hg : db.isKind .ghost j with
      | false =>
        rw [hg] at h
        cases h
        exact .inl (.own hos hat fun h => absurd h (ghost_false.1 hg))
      | true =>
        rw [hg] at h
        cases hsrc : source cx db d with
        | none =>
          rw [hsrc] at h
          cases h
          exact .inl (.own hos hat fun _ => source_none.1 hsrc)
        | some s =>
          rw [hsrc] at h
          simp only at h
          cases ht : db.select s name with
          | some k =>
            rw [ht] at h
            cases h
            exact .inl (.source (source_iff.1 hsrc) ((select_iff hb hu).1 ht)
              (.inr (.inr ⟨hos, j, hat, ghost_iff.1 hg⟩)))
          | none =>
            rw [ht] at h
            simp only [mkGhost, hs] at h
            split at h <;> cases h
    | none =>
      rw [hs] at h
      have hno := (select_none_iff hb).1 hs
      simp only at h
      by_cases hl : name.head? = some '<'
      · rw [if_pos hl] at h
        simp only [mkGroup, hs, Option.map_some] at h
        have hk : (db.insertNode { dir := d, kind := .group, name := name }).1.isKind .ghost
            (db.insertNode { dir := d, kind := .group, name := name }).2 = false := by
          simp only [Db.isKind, (adds_insert hb _).2.1]; rfl
        rw [hk] at h
        cases h
        exact .inl (.newGroup hl hno (adds_insert hb _) rfl)
      · rw [if_neg hl] at h
        simp only at h
        have mk : ∀ {db' i}, (if cx.fullDeps = true then mkGhost cx db d name else none) = some (db', i) →
            (∀ s, Image cx db d s → ∀ j, ¬ At db s name j) →
            Found cx db d name copy db' i ∨ ∃ n, db'.node i = some n ∧ n.kind = .ghost ∧ n.mtime.1 = -1 := by
          intro db' i h hsn
          by_cases hf : cx.fullDeps = true
          · rw [if_pos hf] at h
            simp only [mkGhost, hs] at h
            cases hls : cx.lstat with
            | none =>
              rw [hls] at h
              cases h
              exact .inr ⟨_, (adds_insert hb _).2.1, rfl, rfl⟩
            | some t =>
              rw [hls] at h
              cases h
              exact .inl (.outside hf hl hno hsn hls (adds_insert hb _) rfl)
          · rw [if_neg hf] at h; cases h
        cases hsrc : source cx db d with
        | none =>
          rw [hsrc] at h
          exact mk h fun s hi => absurd hi (source_none.1 hsrc s)
        | some s =>
          rw [hsrc] at h
          simp only at h
          cases ht : db.select s name with
          | some k =>
            rw [ht] at h
            cases h
            exact .inl (.source (source_iff.1 hsrc) ((select_iff hb hu).1 ht) (.inl ⟨hno, hl⟩))
          | none =>
            rw [ht] at h
            refine mk h fun s' hi => ?_
            rw [← source_iff, hsrc] at hi
            cases hi
            exact (select_none_iff hb).1 ht
  · have hos : OnlySource cx copy := onlySource_iff.1 (by simpa using ho)
    rw [if_neg ho] at h
    simp only at h
    by_cases hl : name.head? = some '<'
    · rw [if_pos hl] at h
      unfold mkGroup at h
      cases hs : db.select d name with
      | none =>
        rw [hs] at h
        simp only [Option.map_some] at h
        have hk : (db.insertNode { dir := d, kind := .group, name := name }).1.isKind .ghost
            (db.insertNode { dir := d, kind := .group, name := name }).2 = false := by
          simp only [Db.isKind, (adds_insert hb _).2.1]; rfl
        rw [hk] at h
        cases h
        exact .inl (.newGroup hl ((select_none_iff hb).1 hs) (adds_insert hb _) rfl)
      | some j =>
        rw [hs] at h
        have hat := (select_iff hb hu).1 hs
        simp only at h
        by_cases hk : db.isKind .group j = true
        · rw [if_pos hk] at h
          simp only [Option.map_some] at h
          obtain ⟨n, hn, hkn⟩ := isKind_iff.1 hk
          have hg : db.isKind .ghost j = false := by
            simp only [Db.isKind, hn, hkn]; rfl
          rw [hg] at h
          cases h
          exact .inl (.group hos hl hat hn hkn)
        · rw [if_neg hk] at h
          cases hcv : cx.convert db j with
          | none => rw [hcv] at h; cases h
          | some r =>
            rw [hcv] at h
            obtain ⟨db1, k⟩ := r
            simp only [Option.map_some] at h
            obtain ⟨n, hn, hd, hnm⟩ := hat
            obtain ⟨_, _, m, hm, hmk, _, _⟩ := hc _ _ _ _ _ hb hu hn hcv
            have hg : db1.isKind .ghost k = false := by
              simp only [Db.isKind, hm, hmk]; rfl
            rw [hg] at h
            cases h
            exact .inl (.converted hos hl ⟨n, hn, hd, hnm⟩ hn (fun hx => hk (isKind_iff.2 ⟨n, hn, hx⟩)) hcv)
    · rw [if_neg hl] at h
      simp only at h
      have mk : ∀ {db' i}, (if cx.fullDeps = true then mkGhost cx db d name else none) = some (db', i) →
          (∀ s, Image cx db d s → ∀ j, ¬ At db s name j) →
          Found cx db d name copy db' i ∨ ∃ n, db'.node i = some n ∧ n.kind = .ghost ∧ n.mtime.1 = -1 := by
        intro db' i h hsn
        by_cases hf : cx.fullDeps = true
        · rw [if_pos hf] at h
          unfold mkGhost at h
          cases hs : db.select d name with
          | some j => rw [hs] at h; cases h
          | none =>
            rw [hs] at h
            have hno := (select_none_iff hb).1 hs
            cases hls : cx.lstat with
            | none =>
              rw [hls] at h
              cases h
              exact .inr ⟨_, (adds_insert hb _).2.1, rfl, rfl⟩
            | some t =>
              rw [hls] at h
              cases h
              exact .inl (.outside hf hl hno hsn hls (adds_insert hb _) rfl)
        · rw [if_neg hf] at h; cases h
      cases hsrc : source cx db d with
      | none =>
        rw [hsrc] at h
        exact mk h fun s hi => absurd hi (source_none.1 hsrc s)
      | some s =>
        rw [hsrc] at h
        simp only at h
        cases ht : db.select s name with
        | some k =>
          rw [ht] at h
          cases h
          exact .inl (.source (source_iff.1 hsrc) ((select_iff hb hu).1 ht) (.inr (.inl ⟨hos, hl⟩)))
        | none =>
          rw [ht] at h
          refine mk h fun s' hi => ?_
          rw [← source_iff, hsrc] at hi
          cases hi
          exact (select_none_iff hb).1 ht

/-- And the other way round. -/
theorem found_look (hb : Bounded db) (hu : Unique db) (hc : Converts cx) {d : Nat} {name : Str} {copy : Bool} {db' : Db}
    {i : Nat} (h : Found cx db d name copy db' i) : look cx db d name copy = some (db', i) := by
  have ho : ¬ OnlySource cx copy → (!copy || cx.root) = true := fun h => by
    rw [← onlySource_iff] at h; exact Bool.not_eq_false _ ▸ h
  have ho' : OnlySource cx copy → ¬ (!copy || cx.root) = true := fun h => by
    rw [onlySource_iff.2 h]; simp
  have hins : ∀ n : Node, n.kind = .group →
      (db.insertNode n).1.isKind .ghost (db.insertNode n).2 = false := by
    intro n hn
    simp only [Db.isKind, (adds_insert hb n).2.1, hn]; rfl
  cases h with
  | own h1 h2 h3 =>
    unfold look lookOwn
    rw [if_pos (ho h1), (select_iff hb hu).2 h2]
    simp only
    cases hg : db.isKind .ghost i with
    | false => rfl
    | true =>
      rw [source_none.2 (h3 (ghost_iff.1 hg))]
  | source h1 h2 h3 =>
    unfold look lookOwn
    rcases h3 with ⟨h3, h4⟩ | ⟨h3, h4⟩ | ⟨h3, j, h4, h5⟩
    · have : (if (!copy || cx.root) = true then db.select d name else none) = none := by
        rw [(select_none_iff hb).2 h3]; split <;> rfl
      rw [this]
      simp only
      rw [if_neg h4]
      simp only
      rw [source_iff.2 h1]
      simp only
      rw [(select_iff hb hu).2 h2]
    · rw [if_neg (ho' h3)]
      simp only
      rw [if_neg h4]
      simp only
      rw [source_iff.2 h1]
      simp only
      rw [(select_iff hb hu).2 h2]
    · rw [if_pos (ho h3), (select_iff hb hu).2 h4]
      simp only
      rw [ghost_iff.2 h5, source_iff.2 h1]
      simp only
      rw [(select_iff hb hu).2 h2]
  | group h1 h2 h3 h4 h5 =>
    unfold look lookOwn
    rw [if_neg (ho' h1)]
    simp only
    rw [if_pos h2]
    unfold mkGroup
    rw [(select_iff hb hu).2 h3]
    simp only
    rw [if_pos (isKind_iff.2 ⟨_, h4, h5⟩)]
    simp only [Option.map_some]
    have hg : db.isKind .ghost i = false := by
      simp only [Db.isKind, h4, h5]; rfl
    rw [hg]
  | newGroup h1 h2 h3 h4 =>
    subst h4
    have hi := adds_id hb h3
    subst hi
    unfold look lookOwn
    have : (if (!copy || cx.root) = true then db.select d name else none) = none := by
      rw [(select_none_iff hb).2 h2]; split <;> rfl
    rw [this]
    simp only
    rw [if_pos h1]
    unfold mkGroup
    rw [(select_none_iff hb).2 h2]
    simp only [Option.map_some]
    rw [hins _ rfl]
  | converted h1 h2 h3 h4 h5 h6 =>
    unfold look lookOwn
    rw [if_neg (ho' h1)]
    simp only
    rw [if_pos h2]
    unfold mkGroup
    rw [(select_iff hb hu).2 h3]
    simp only
    rw [if_neg (fun hx => by
      obtain ⟨m, hm, hk⟩ := isKind_iff.1 hx
      rw [h4] at hm; cases hm; exact h5 hk), h6]
    simp only [Option.map_some]
    obtain ⟨_, _, m, hm, hmk, _, _⟩ := hc _ _ _ _ _ hb hu h4 h6
    have hg : db'.isKind .ghost i = false := by
      simp only [Db.isKind, hm, hmk]; rfl
    rw [hg]
  | @outside _ _ t h1 h2 h3 h4 h5 h6 h7 =>
    subst h7
    have hi := adds_id hb h6
    subst hi
    unfold look lookOwn
    have hs := (select_none_iff hb).2 h3
    have : (if (!copy || cx.root) = true then db.select d name else none) = none := by
      rw [hs]; split <;> rfl
    rw [this]
    simp only
    rw [if_neg h2]
    simp only
    have hm : (if cx.fullDeps = true then mkGhost cx db d name else none) = some (db.insertNode { dir := d, kind := .ghost, name, mtime := t }) := by
      rw [if_pos h1]
      simp only [mkGhost, hs, h5]
    cases hsrc : source cx db d with
    | none => simp only; exact hm
    | some s =>
      simp only
      rw [(select_none_iff hb).2 (h4 s (source_iff.1 hsrc))]
      simp only
      exact hm

/-- What the checks let through. -/
theorem check_iff {src : Option Nat} (hb : Bounded db) (hu : Unique db) {name : Str} {i j : Nat} :
    check cx db src name i = some j ↔
      ∃ n, db.node i = some n ∧ (n.kind = .ghost → n.mtime.1 ≠ -1) ∧
        (cx.gone i = false ∧ j = i ∨ cx.gone i = true ∧ ∃ s, src = some s ∧ At db s name j ∧ ¬ IsGhost db j) := by
  unfold check
  cases hn : db.node i with
  | none => simp
  | some n =>
    simp only
    by_cases hg : n.kind = .ghost ∧ n.mtime.1 = -1
    · rw [if_pos hg]
      constructor
      · intro h; cases h
      · rintro ⟨m, hm, h1, _⟩
        cases hm
        exact absurd hg.2 (h1 hg.1)
    · rw [if_neg hg]
      have hg' : n.kind = .ghost → n.mtime.1 ≠ -1 := fun h1 h2 => hg ⟨h1, h2⟩
      by_cases hgo : cx.gone i = true
      · rw [if_pos hgo]
        constructor
        · intro h
          cases src with
          | none => cases h
          | some s =>
            simp only at h
            cases hs : db.select s name with
            | none => rw [hs] at h; cases h
            | some k =>
              rw [hs] at h
              simp only at h
              by_cases hk : db.isKind .ghost k = true
              · rw [if_pos hk] at h; cases h
              · rw [if_neg hk] at h
                cases h
                exact ⟨n, rfl, hg', .inr ⟨hgo, s, rfl, (select_iff hb hu).1 hs, fun h => hk (ghost_iff.2 h)⟩⟩
        · rintro ⟨m, hm, _, ⟨h1, _⟩ | ⟨_, s, hs, hat, hng⟩⟩
          · rw [hgo] at h1; cases h1
          · subst hs
            simp only
            rw [(select_iff hb hu).2 hat]
            simp only
            rw [if_neg fun h => hng (ghost_iff.1 h)]
      · rw [if_neg hgo]
        constructor
        · intro h
          cases h
          exact ⟨n, rfl, hg', .inl ⟨by simpa using hgo, rfl⟩⟩
        · rintro ⟨m, hm, _, ⟨_, h1⟩ | ⟨h1, _⟩⟩
          · rw [h1]
          · exact absurd h1 hgo

end Tup.Lookup
