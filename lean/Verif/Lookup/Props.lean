import Verif.Lookup.Lemmas

/-!
C79: which files a path or a pattern in the inputs of a rule stands for.
-/

namespace Tup.Lookup

open Tup.Db Tup.Names

variable {cx : Cx} {db : Db}

/-- A pattern stands for exactly the files and generated files of the directory (and, in a variant, of the directory
of the source tree) that match it, are not scheduled to be deleted and do not come from a rule of some other
directory.  Each of them is listed once, and the database is not changed. -/
theorem c79_pattern (hb : Bounded db) (ho : ∀ l, (cx.order l).Perm l) {d : Nat} {pat : Str} {orderid : Nat} {copy : Bool}
    {nl nl' : NameList} {db' : Db} (hp : Pattern pat) (hs : ¬ Image cx db d d)
    (h : addPath cx db d pat orderid copy nl = .ok (db', nl')) :
    db' = db ∧ ∃ es, nl'.entries = nl.entries ++ es ∧ (es.map (·.tent)).Nodup ∧
      (∀ i, some i ∈ es.map (·.tent) ↔ Matches cx db d pat i) ∧ ∀ e ∈ es, ∃ i, Describes cx db orderid e i := by
  unfold addPath at h
  cases hn : db.node d with
  | none => rw [hn] at h; cases h
  | some n =>
    rw [hn] at h
    simp only at h
    rw [if_pos (isPattern_iff.2 hp)] at h
    by_cases hg : n.kind = .ghost
    · rw [if_pos hg] at h; cases h
    rw [if_neg hg] at h
    have nod : ∀ {l : List Nat}, l.Nodup → ((taken cx db l).map some).Nodup := by
      intro l hl
      rw [List.nodup_iff_pairwise_ne, List.pairwise_map]
      refine List.Pairwise.imp ?_ (List.Pairwise.filter _ hl)
      intro a b hab hx
      exact hab (by simpa using hx)
    have mem : ∀ {l : List Nat} {i}, some i ∈ (taken cx db l).map some ↔
        i ∈ l ∧ cx.gone i = false ∧ ¬ Foreign cx db i := by
      intro l i
      simp only [List.mem_map, taken, List.mem_filter, decide_eq_true_eq]
      constructor
      · rintro ⟨a, h1, h2⟩; cases h2; exact h1
      · intro h; exact ⟨i, h, rfl⟩
    cases h1 : addRows cx db pat orderid (rows cx db d pat) nl with
    | error => rw [h1] at h; cases h
    | ub => rw [h1] at h; cases h
    | ok nl1 =>
      rw [h1] at h
      simp only at h
      obtain ⟨es, a1, a2, a3⟩ := addRows_ok h1
      cases hsrc : source cx db d with
      | none =>
        rw [hsrc] at h
        cases h
        refine ⟨rfl, es, a1, ?_, ?_, a3⟩
        · rw [a2]; exact nod (rows_nodup ho)
        · intro i
          rw [a2, mem, rows_mem ho hb]
          constructor
          · rintro ⟨⟨n, b1, b2, b3, b4⟩, b5, b6⟩
            exact ⟨n, b1, .inl b2, b3, b4, b5, b6⟩
          · rintro ⟨n, b1, b2, b3, b4, b5, b6⟩
            rcases b2 with b2 | b2
            · exact ⟨⟨n, b1, b2, b3, b4⟩, b5, b6⟩
            · exact absurd b2 (source_none.1 hsrc _)
      | some s =>
        rw [hsrc] at h
        simp only at h
        cases h2 : addRows cx db pat orderid (rows cx db s pat) nl1 with
        | error => rw [h2] at h; cases h
        | ub => rw [h2] at h; cases h
        | ok nl2 =>
          rw [h2] at h
          cases h
          obtain ⟨fs, c1, c2, c3⟩ := addRows_ok h2
          have hne : s ≠ d := fun hx => hs (by have := source_iff.1 hsrc; rwa [hx] at this)
          refine ⟨rfl, es ++ fs, by rw [c1, a1, List.append_assoc], ?_, ?_, ?_⟩
          · rw [List.map_append, a2, c2, List.nodup_append]
            refine ⟨nod (rows_nodup ho), nod (rows_nodup ho), ?_⟩
            intro a ha b hb' hab
            subst hab
            obtain ⟨i, hi, rfl⟩ := List.mem_map.1 ha
            obtain ⟨⟨n1, b1, b2, _⟩, _⟩ := (by simpa only [rows_mem ho hb] using mem.1 ha)
            obtain ⟨⟨n2, d1, d2, _⟩, _⟩ := (by simpa only [rows_mem ho hb] using mem.1 hb')
            rw [b1] at d1; cases d1
            exact hne (d2.symm.trans b2)
          · intro i
            rw [List.map_append, List.mem_append, a2, c2, mem, mem, rows_mem ho hb, rows_mem ho hb]
            constructor
            · rintro (⟨⟨n, b1, b2, b3, b4⟩, b5, b6⟩ | ⟨⟨n, b1, b2, b3, b4⟩, b5, b6⟩)
              · exact ⟨n, b1, .inl b2, b3, b4, b5, b6⟩
              · exact ⟨n, b1, .inr (by rw [b2]; exact source_iff.1 hsrc), b3, b4, b5, b6⟩
            · rintro ⟨n, b1, b2, b3, b4, b5, b6⟩
              rcases b2 with b2 | b2
              · exact .inl ⟨⟨n, b1, b2, b3, b4⟩, b5, b6⟩
              · rw [← source_iff, hsrc] at b2
                cases b2
                exact .inr ⟨⟨n, b1, rfl, b3, b4⟩, b5, b6⟩
          · intro e he
            rcases List.mem_append.1 he with he | he
            · exact a3 e he
            · exact c3 e he

/-- A pattern is an error only if the directory is a ghost (or does not exist), provided that there is a path to the
nodes of the database; and nothing undefined happens if the pattern has not too many stars (C56). -/
theorem c79_pattern_ok (hb : Bounded db) (ho : ∀ l, (cx.order l).Perm l) {d : Nat} {pat : Str} {orderid : Nat} {copy : Bool}
    {nl : NameList} (hp : Pattern pat) (hr : ∀ i n, db.node i = some n → ∃ r, cx.rel db i = some r) :
    (addPath cx db d pat orderid copy nl = .error ↔ db.node d = none ∨ IsGhost db d) ∧
    (addPath cx db d pat orderid copy nl = .ub → ∃ i n, Matches cx db d pat i ∧ db.node i = some n ∧
      globParse pat n.name = .ub) := by
  have hrows : ∀ s, ∀ i ∈ rows cx db s pat, ∃ n, db.node i = some n :=
    fun s i hi => by obtain ⟨n, h, _⟩ := (rows_mem ho hb).1 hi; exact ⟨n, h⟩
  have herr : ∀ s nl, addRows cx db pat orderid (rows cx db s pat) nl ≠ .error := fun s nl =>
    addRows_error (hrows s) fun i hi => by obtain ⟨n, h⟩ := hrows s i hi; exact hr i n h
  have hub : ∀ s nl, (s = d ∨ Image cx db d s) → addRows cx db pat orderid (rows cx db s pat) nl = .ub →
      ∃ i n, Matches cx db d pat i ∧ db.node i = some n ∧ globParse pat n.name = .ub := by
    intro s nl hsd hu
    refine Classical.byContradiction fun hno => ?_
    obtain ⟨nl', h⟩ := addRows_total (cx := cx) (db := db) (pat := pat) (orderid := orderid) (l := rows cx db s pat)
      (nl := nl) (by
      intro i hi
      obtain ⟨n, h1, h2, h3, h4⟩ := (rows_mem ho hb).1 hi
      refine ⟨n, h1, fun hg hf => ⟨hr i n h1, fun hgp => hno ⟨i, n, ⟨n, h1, ?_, h3, h4, hg, hf⟩, h1, hgp⟩⟩⟩
      rcases hsd with hsd | hsd
      · exact .inl (h2.trans hsd)
      · exact .inr (h2 ▸ hsd))
    rw [hu] at h; cases h
  unfold addPath
  cases hn : db.node d with
  | none => simp
  | some n =>
    simp only
    rw [if_pos (isPattern_iff.2 hp)]
    by_cases hg : n.kind = .ghost
    · rw [if_pos hg]
      exact ⟨⟨fun _ => .inr ⟨n, hn, hg⟩, fun _ => rfl⟩, (by intro h; cases h)⟩
    rw [if_neg hg]
    have hng : ¬ (some n = none ∨ IsGhost db d) := by
      rintro (h | ⟨m, h1, h2⟩)
      · cases h
      · rw [hn] at h1; cases h1; exact hg h2
    cases h1 : addRows cx db pat orderid (rows cx db d pat) nl with
    | error => exact absurd h1 (herr d nl)
    | ub => exact ⟨⟨(by intro h; cases h), fun h => absurd h hng⟩, fun _ => hub d nl (.inl rfl) h1⟩
    | ok nl1 =>
      simp only
      cases hsrc : source cx db d with
      | none => exact ⟨⟨(by intro h; cases h), fun h => absurd h hng⟩, (by intro h; cases h)⟩
      | some s =>
        simp only
        cases h2 : addRows cx db pat orderid (rows cx db s pat) nl1 with
        | error => exact absurd h2 (herr s nl1)
        | ub => exact ⟨⟨(by intro h; cases h), fun h => absurd h hng⟩, fun _ => hub s nl1 (.inr (source_iff.1 hsrc)) h2⟩
        | ok nl2 => exact ⟨⟨(by intro h; cases h), fun h => absurd h hng⟩, (by intro h; cases h)⟩

/-- A name is accepted exactly if there is a node that it stands for, and one that has a path; the list of inputs is then
longer by one entry, for that node.  Nothing undefined happens. -/
theorem c79_named (hb : Bounded db) (hu : Unique db) (hc : Converts cx) {d : Nat} {name : Str} {orderid : Nat}
    {copy : Bool} {nl : NameList} (hd : ∃ n, db.node d = some n) (hp : ¬ Pattern name) :
    (∀ {db' nl'}, addPath cx db d name orderid copy nl = .ok (db', nl') ↔
      ∃ j r e, Stands cx db d name copy db' j ∧ cx.rel db' j = some r ∧ fileEntry name r name orderid j = .ok e ∧
        Describes cx db' orderid e j ∧ nl' = nl.add e) ∧
    addPath cx db d name orderid copy nl ≠ .ub := by
  obtain ⟨dn, hdn⟩ := hd
  have hfe : ∀ r j, ∃ e, fileEntry name r name orderid j = .ok e := by
    intro r j
    unfold fileEntry
    rw [c56_none]
    exact ⟨_, rfl⟩
  have hpat : ¬ isPattern name = true := fun h => hp (isPattern_iff.1 h)
  have key : ∀ {db1 i j n}, look cx db d name copy = some (db1, i) → check cx db1 (source cx db d) name i = some j →
      db1.node j = some n → Bounded db1 → Unique db1 → Found cx db d name copy db1 i ∧ n.name = name ∧
        (foreign cx n = false → Stands cx db d name copy db1 j) := by
    intro db1 i j n hl hck hn hb1 hu1
    obtain ⟨m, h1, h2, h3⟩ := (check_iff hb1 hu1).1 hck
    have hf : Found cx db d name copy db1 i := by
      rcases look_found hb hu hc hl with h | ⟨m', h4, h5, h6⟩
      · exact h
      · rw [h1] at h4; cases h4
        exact absurd h6 (h2 h5)
    have hg := found_good hb hu hc hf
    refine ⟨hf, ?_, fun hfo => ⟨i, m, hf, h1, h2, ?_, fun h => ?_⟩⟩
    · rcases h3 with ⟨_, h3⟩ | ⟨_, s, _, ⟨n', h4, _, h5⟩, _⟩
      · subst h3
        obtain ⟨n', h4, h5⟩ := hg.named
        rw [hn] at h4; cases h4; exact h5
      · rw [hn] at h4; cases h4; exact h5
    · rcases h3 with h3 | ⟨h3, s, h4, h5⟩
      · exact .inl h3
      · exact .inr ⟨h3, s, source_iff.1 h4, h5⟩
    · rw [← foreign_iff hn, hfo] at h; cases h
  have good : ∀ {db1 i j}, look cx db d name copy = some (db1, i) → check cx db1 (source cx db d) name i = some j →
      Bounded db1 ∧ Unique db1 := by
    intro db1 i j hl hck
    rcases look_found hb hu hc hl with h | ⟨m', h4, h5, h6⟩
    · have := found_good hb hu hc h; exact ⟨this.bounded, this.unique⟩
    · unfold check at hck
      rw [h4] at hck
      simp only at hck
      rw [if_pos ⟨h5, h6⟩] at hck; cases hck
  refine ⟨?_, ?_⟩
  · intro db' nl'
    constructor
    · intro h
      unfold addPath at h
      rw [hdn] at h
      simp only at h
      rw [if_neg hpat] at h
      cases hl : look cx db d name copy with
      | none => rw [hl] at h; cases h
      | some q =>
        obtain ⟨db1, i⟩ := q
        rw [hl] at h
        simp only at h
        cases hck : check cx db1 (source cx db d) name i with
        | none => rw [hck] at h; cases h
        | some j =>
          rw [hck] at h
          simp only at h
          obtain ⟨hb1, hu1⟩ := good hl hck
          unfold addNode at h
          cases hn : db1.node j with
          | none => rw [hn] at h; cases h
          | some n =>
            rw [hn] at h
            simp only at h
            obtain ⟨_, hnm, hst⟩ := key hl hck hn hb1 hu1
            by_cases hfo : foreign cx n = true
            · rw [if_pos hfo] at h
              simp only [Bool.false_eq_true, if_false] at h
              cases h
            · rw [if_neg hfo] at h
              cases hr : cx.rel db1 j with
              | none => rw [hr] at h; cases h
              | some r =>
                rw [hr] at h
                obtain ⟨e, he⟩ := hfe r j
                simp only [hnm, he] at h
                cases h
                obtain ⟨e1, e2, e3⟩ := fileEntry_ok he
                exact ⟨j, r, e, hst (by simpa using hfo), hr, he, ⟨e1, by rw [e2, hr], e3⟩, rfl⟩
    · rintro ⟨j, r, e, ⟨i, m, hf, h1, h2, h3, h4⟩, hr, he, _, rfl⟩
      have hl := found_look hb hu hc hf
      have hg := found_good hb hu hc hf
      have hck : check cx db' (source cx db d) name i = some j := by
        refine (check_iff hg.bounded hg.unique).2 ⟨m, h1, h2, ?_⟩
        rcases h3 with h3 | ⟨h3, s, h5, h6⟩
        · exact .inl h3
        · exact .inr ⟨h3, s, source_iff.2 h5, h6⟩
      have hn : ∃ n, db'.node j = some n := by
        rcases h3 with ⟨_, h3⟩ | ⟨_, s, _, ⟨n', h5, _⟩, _⟩
        · subst h3; exact ⟨m, h1⟩
        · exact ⟨n', h5⟩
      obtain ⟨n, hn⟩ := hn
      obtain ⟨_, hnm, _⟩ := key hl hck hn hg.bounded hg.unique
      unfold addPath
      rw [hdn]
      simp only
      rw [if_neg hpat, hl]
      simp only
      rw [hck]
      simp only [addNode, hn]
      rw [if_neg fun h => h4 ((foreign_iff hn).1 h), hr]
      simp only [hnm, he]
  · intro h
    unfold addPath at h
    rw [hdn] at h
    simp only at h
    rw [if_neg hpat] at h
    cases hl : look cx db d name copy with
    | none => rw [hl] at h; cases h
    | some q =>
      obtain ⟨db1, i⟩ := q
      rw [hl] at h
      simp only at h
      cases hck : check cx db1 (source cx db d) name i with
      | none => rw [hck] at h; cases h
      | some j =>
        rw [hck] at h
        simp only at h
        obtain ⟨hb1, hu1⟩ := good hl hck
        unfold addNode at h
        cases hn : db1.node j with
        | none => rw [hn] at h; cases h
        | some n =>
          rw [hn] at h
          simp only at h
          obtain ⟨_, hnm, _⟩ := key hl hck hn hb1 hu1
          by_cases hfo : foreign cx n = true
          · rw [if_pos hfo] at h
            simp only [Bool.false_eq_true, if_false] at h
            cases h
          · rw [if_neg hfo] at h
            cases hr : cx.rel db1 j with
            | none => rw [hr] at h; cases h
            | some r =>
              rw [hr] at h
              obtain ⟨e, he⟩ := hfe r j
              simp only [hnm, he] at h
              cases h

/-- A name stands for at most one node. -/
theorem c79_one (hb : Bounded db) (hu : Unique db) (hc : Converts cx) {d : Nat} {name : Str} {copy : Bool}
    {db1 db2 : Db} {i j : Nat} (h1 : Stands cx db d name copy db1 i) (h2 : Stands cx db d name copy db2 j) :
    db1 = db2 ∧ i = j := by
  obtain ⟨a, n, f1, n1, _, c1, _⟩ := h1
  obtain ⟨b, m, f2, n2, _, c2, _⟩ := h2
  have e1 := found_look hb hu hc f1
  rw [found_look hb hu hc f2] at e1
  cases e1
  have hg := found_good hb hu hc f1
  refine ⟨rfl, ?_⟩
  rcases c1 with ⟨g1, rfl⟩ | ⟨g1, s, im1, at1, _⟩
  · rcases c2 with ⟨_, rfl⟩ | ⟨g2, _⟩
    · rfl
    · rw [g1] at g2; cases g2
  · rcases c2 with ⟨g2, _⟩ | ⟨_, s', im2, at2, _⟩
    · rw [g1] at g2; cases g2
    · rw [← source_iff] at im1 im2
      rw [im1] at im2; cases im2
      have x := (select_iff hg.bounded hg.unique).2 at1
      rw [(select_iff hg.bounded hg.unique).2 at2] at x
      cases x; rfl

/-- Without variants: a name that is no group stands for the node of that name in the directory, whatever type it
has, and is refused if there is none, if it is a ghost (that is not a file outside of the project), if it is scheduled
to be deleted, or if the rule that makes it belongs to some other directory. -/
theorem c79_plain (hb : Bounded db) (hu : Unique db) (hc : Converts cx) {d : Nat} {name : Str} {orderid : Nat}
    {copy : Bool} {nl : NameList} (hd : ∃ n, db.node d = some n) (hp : ¬ Pattern name) (hroot : cx.root = true)
    (hfd : cx.fullDeps = false) (hgr : name.head? ≠ some '<') (hr : ∀ i n, db.node i = some n → ∃ r, cx.rel db i = some r) :
    (∃ db' nl', addPath cx db d name orderid copy nl = .ok (db', nl')) ↔
      ∃ i n, db.node i = some n ∧ n.dir = d ∧ n.name = name ∧ (n.kind = .ghost → n.mtime.1 ≠ -1) ∧
        cx.gone i = false ∧ ¬ Foreign cx db i := by
  have hos : ¬ OnlySource cx copy := fun h => by have := h.2; rw [hroot] at this; cases this
  have him : ∀ s, ¬ Image cx db d s := fun s h => by have := h.1; rw [hroot] at this; cases this
  constructor
  · rintro ⟨db', nl', h⟩
    obtain ⟨j, r, e, ⟨i, n, hf, h1, h2, h3, h4⟩, _⟩ := (c79_named hb hu hc hd hp).1.1 h
    rcases h3 with ⟨h3, rfl⟩ | ⟨_, s, h5, _⟩
    · cases hf with
      | own _ ha _ =>
        obtain ⟨m, b1, b2, b3⟩ := ha
        rw [h1] at b1; cases b1
        exact ⟨j, n, h1, b2, b3, h2, h3, h4⟩
      | source ha _ _ => exact absurd ha (him _)
      | group ha _ _ _ _ => exact absurd ha hos
      | newGroup ha _ _ _ => exact absurd ha hgr
      | converted ha _ _ _ _ _ => exact absurd ha hos
      | outside ha _ _ _ _ _ _ => rw [hfd] at ha; cases ha
    · exact absurd h5 (him _)
  · rintro ⟨i, n, h1, h2, h3, h4, h5, h6⟩
    obtain ⟨r, hr⟩ := hr i n h1
    have he : ∃ e, fileEntry name r name orderid i = .ok e := by
      unfold fileEntry
      rw [c56_none]
      exact ⟨_, rfl⟩
    obtain ⟨e, he⟩ := he
    obtain ⟨e1, e2, e3⟩ := fileEntry_ok he
    exact ⟨db, nl.add e, (c79_named hb hu hc hd hp).1.2 ⟨i, r, e,
      ⟨i, n, .own hos ⟨n, h1, h2, h3⟩ (fun _ => him), h1, h4, .inl ⟨h5, rfl⟩, h6⟩, hr, he, ⟨e1, by rw [e2, hr], e3⟩, rfl⟩⟩

/-- In a variant a file of the variant hides the one of the same name in the source tree. -/
theorem c79_hides {d : Nat} {name : Str} {db' : Db} {i j : Nat} (hb : Bounded db) (hu : Unique db) (hc : Converts cx)
    (ha : At db d name i) (hg : ¬ IsGhost db i) (hgo : cx.gone i = false)
    (h : Stands cx db d name false db' j) : db' = db ∧ j = i := by
  have hos : ¬ OnlySource cx false := by rintro ⟨h, _⟩; cases h
  obtain ⟨k, m, f, n1, _, c1, _⟩ := h
  have e1 := found_look hb hu hc f
  rw [found_look hb hu hc (.own hos ha fun h => absurd h hg)] at e1
  cases e1
  rcases c1 with ⟨_, rfl⟩ | ⟨g, _⟩
  · exact ⟨rfl, rfl⟩
  · rw [hgo] at g; cases g

/-- And one that the variant does not have is taken from the source tree. -/
theorem c79_falls_back {d s : Nat} {name : Str} {copy : Bool} {db' : Db} {i j : Nat} (hb : Bounded db) (hu : Unique db)
    (hc : Converts cx) (hi : Image cx db d s) (ha : At db s name i) (hn : ∀ k, At db d name k → IsGhost db k)
    (hgr : name.head? ≠ some '<') (h : Stands cx db d name copy db' j) : db' = db ∧ j = i := by
  obtain ⟨k, m, f, n1, _, c1, _⟩ := h
  have hsrc : Found cx db d name copy db i := by
    by_cases hos : OnlySource cx copy
    · exact .source hi ha (.inr (.inl ⟨hos, hgr⟩))
    · by_cases hex : ∃ k, At db d name k
      · obtain ⟨k, hk⟩ := hex
        exact .source hi ha (.inr (.inr ⟨hos, k, hk, hn k hk⟩))
      · exact .source hi ha (.inl ⟨fun k hk => hex ⟨k, hk⟩, hgr⟩)
  have e1 := found_look hb hu hc f
  rw [found_look hb hu hc hsrc] at e1
  cases e1
  rcases c1 with ⟨_, rfl⟩ | ⟨g, s', hs', hat, _⟩
  · exact ⟨rfl, rfl⟩
  · rw [← source_iff] at hi hs'
    rw [hi] at hs'; cases hs'
    have x := (select_iff hb hu).2 hat
    rw [(select_iff hb hu).2 ha] at x
    cases x; exact ⟨rfl, rfl⟩

/-- Looking a name up changes no row, unless a `!tup_preserve` rule uses as a group what is none; at most one row is
added. -/
theorem c79_rows {d : Nat} {name : Str} {copy : Bool} {db' : Db} {j : Nat}
    (hx : OnlySource cx copy → name.head? = some '<' → ∀ i n, At db d name i → db.node i = some n → n.kind = .group)
    (h : Stands cx db d name copy db' j) : (db' = db ∨ ∃ i n, Adds db db' i n ∧ (n.kind = .group ∨ n.kind = .ghost)) := by
  obtain ⟨k, m, f, _⟩ := h
  cases f with
  | own _ _ _ => exact .inl rfl
  | source _ _ _ => exact .inl rfl
  | group _ _ _ _ _ => exact .inl rfl
  | newGroup _ _ ha _ => exact .inr ⟨_, _, ha, .inl rfl⟩
  | converted h1 h2 h3 h4 h5 _ => exact absurd (hx h1 h2 _ _ h3 h4) h5
  | outside _ _ _ _ _ ha _ => exact .inr ⟨_, _, ha, .inr rfl⟩

/-- The next time the name stands for the same node, and nothing is made any more.  (Not so if a ghost is made for a
file outside of the project in a directory that is the image of another one, which does not occur, or for a
`!tup_preserve` rule of a variant: see `c79_preserve_outside`.) -/
theorem c79_again {d : Nat} {name : Str} {copy : Bool} {db' : Db} {j : Nat} (hd : ∃ n, db.node d = some n)
    (hx : OnlySource cx copy → name.head? = some '<' → ∀ i n, At db d name i → db.node i = some n → n.kind = .group)
    (hf : cx.fullDeps = true → ¬ OnlySource cx copy ∧ ∀ s, ¬ Image cx db d s)
    (h : Stands cx db d name copy db' j) : Stands cx db' d name copy db' j := by
  obtain ⟨dn, hdn⟩ := hd
  obtain ⟨k, m, f, h1, h2, h3, h4⟩ := h
  have img : ∀ {i n}, Adds db db' i n → ∀ s, Image cx db' d s ↔ Image cx db d s := by
    intro i n ha s
    have : db'.node d = db.node d := ha.2.2 d fun hx => by
      have := ha.1; rw [← hx, hdn] at this; cases this
    unfold Image
    rw [this]
  have fin : (∀ s, Image cx db' d s ↔ Image cx db d s) → Found cx db' d name copy db' k →
      Stands cx db' d name copy db' j := by
    intro hi hf'
    refine ⟨k, m, hf', h1, h2, ?_, h4⟩
    rcases h3 with h3 | ⟨h3, s, h5, h6⟩
    · exact .inl h3
    · exact .inr ⟨h3, s, (hi s).2 h5, h6⟩
  cases f with
  | own a1 a2 a3 => exact fin (fun _ => Iff.rfl) (.own a1 a2 a3)
  | source a1 a2 a3 => exact fin (fun _ => Iff.rfl) (.source a1 a2 a3)
  | group a1 a2 a3 a4 a5 => exact fin (fun _ => Iff.rfl) (.group a1 a2 a3 a4 a5)
  | newGroup a1 a2 a3 a4 =>
    refine fin (img a3) ?_
    by_cases hos : OnlySource cx copy
    · exact .group hos a1 ⟨_, a3.2.1, rfl, rfl⟩ a3.2.1 rfl
    · refine .own hos ⟨_, a3.2.1, rfl, rfl⟩ ?_
      rintro ⟨n, b1, b2⟩
      rw [a3.2.1] at b1; cases b1; cases b2
  | converted a1 a2 a3 a4 a5 _ => exact absurd (hx a1 a2 _ _ a3 a4) a5
  | outside a1 a2 a3 a4 a5 a6 a7 =>
    refine fin (img a6) ?_
    exact .own (hf a1).1 ⟨_, a6.2.1, rfl, rfl⟩ fun _ s hs => (hf a1).2 s ((img a6 s).1 hs)

/-- No input is a file that a rule of some other directory makes, or a ghost inside of the project. -/
theorem c79_usable {d : Nat} {name : Str} {copy : Bool} {db' : Db} {j : Nat} (h : Stands cx db d name copy db' j) :
    ¬ Foreign cx db' j ∧ ∃ n, db'.node j = some n ∧ (n.kind = .ghost → n.mtime.1 ≠ -1) := by
  obtain ⟨k, m, _, h1, h2, h3, h4⟩ := h
  refine ⟨h4, ?_⟩
  rcases h3 with ⟨_, rfl⟩ | ⟨_, s, _, ⟨n, h5, _⟩, h6⟩
  · exact ⟨m, h1, h2⟩
  · exact ⟨n, h5, fun hk => absurd ⟨n, h5, hk⟩ h6⟩

/-- A file that is scheduled to be deleted is never an input if there are no variants, -/
theorem c79_gone {d : Nat} {name : Str} {copy : Bool} {db' : Db} {j : Nat} (hroot : cx.root = true)
    (h : Stands cx db d name copy db' j) : cx.gone j = false := by
  obtain ⟨k, m, _, _, _, h3, _⟩ := h
  rcases h3 with ⟨h3, rfl⟩ | ⟨_, s, h5, _⟩
  · exact h3
  · have := h5.1; rw [hroot] at this; cases this

/-! ### A project with a variant -/

def nodes : List (Nat × Node) := [
  (1, { dir := 0, kind := .dir, name := ".".toList }),
  (2, { dir := 1, kind := .dir, name := "a".toList }),
  (3, { dir := 2, kind := .file, name := "x.c".toList }),
  (4, { dir := 2, kind := .generated, name := "y.c".toList, src := some 2 }),
  (5, { dir := 2, kind := .generated, name := "z.c".toList, src := some 1 }),
  (6, { dir := 2, kind := .generated, name := "old.c".toList, src := some 2 }),
  (7, { dir := 1, kind := .dir, name := "build".toList }),
  (8, { dir := 7, kind := .dir, name := "a".toList, src := some 2 }),
  (9, { dir := 8, kind := .generated, name := "w.c".toList, src := some 8 }),
  (10, { dir := 8, kind := .ghost, name := "x.c".toList }),
  (11, { dir := 2, kind := .file, name := "README".toList }),
  (12, { dir := 8, kind := .ghost, name := "none.c".toList }),
  (13, { dir := 8, kind := .generated, name := "README".toList, src := some 8 })]

def exDb : Db where
  node i := nodes.lookup i
  top := 14
  normal _ _ := false
  sticky _ _ := false
  group _ _ _ := false
  vars _ := none
  config _ := false
  create _ := false
  modify _ := false
  variant _ := false
  transient _ := false
  ghosts _ := false

/-- Only the pattern `*.c` is needed here. -/
def exGlob (pat name : Str) : Bool := decide (pat = "*.c".toList) && "c.".toList.isPrefixOf name.reverse

/-- In directory `a` itself (`root`), or in `build/a`. -/
def exCx (root : Bool) : Cx where
  me := if root then 2 else 8
  root := root
  fullDeps := false
  gone i := decide (i = 6)
  glob := exGlob
  order l := l.reverse
  rel db i := (db.node i).map (·.name)
  lstat := none
  convert _ _ := none

def tents (r : Res (Db × NameList)) : Option (List (Option Nat)) :=
  match r with
  | .ok (_, nl) => some (nl.entries.map (·.tent))
  | _ => none

theorem ex_bounded : Bounded exDb := by
  intro i hi
  have : ∀ p ∈ nodes, p.1 < 14 := by decide +kernel
  show nodes.lookup i = none
  rw [List.lookup_eq_none_iff]
  intro p hp
  have h1 := this p hp
  have h2 : 14 ≤ i := hi
  simp only [bne_iff_ne, ne_eq]
  omega

theorem ex_unique : Unique exDb := by
  intro i j n m hi hj hd hn
  have key : ∀ p ∈ nodes, ∀ q ∈ nodes, p.2.dir = q.2.dir → p.2.name = q.2.name → p.1 = q.1 := by decide +kernel
  have mem : ∀ i n, exDb.node i = some n → (i, n) ∈ nodes := by
    intro i n h
    have h' : nodes.lookup i = some n := h
    rw [List.lookup_eq_some_iff] at h'
    obtain ⟨l1, l2, h1, _⟩ := h'
    rw [h1]
    simp
  exact key _ (mem i n hi) _ (mem j m hj) hd hn

theorem ex_converts {root : Bool} : Converts (exCx root) := by
  intro db i n db' j _ _ _ h; cases h

/-- Without a variant: the file, the file of the own Tupfile, but neither that of the Tupfile above nor the one that
is scheduled to be deleted. -/
example : tents (addPath (exCx true) exDb 2 "*.c".toList 1 false .empty) = some [some 4, some 3] := by decide +kernel

/-- In the variant: the file of the variant and the files of the source directory; the one of the same directory's Tupfile
in the source tree too. -/
example : tents (addPath (exCx false) exDb 8 "*.c".toList 1 false .empty) = some [some 9, some 4, some 3] := by
  decide +kernel

example : Pattern "*.c".toList ∧ (∀ l, ((exCx true).order l).Perm l) ∧ ¬ Image (exCx false) exDb 8 8 :=
  ⟨.inl (by decide), fun l => List.reverse_perm l, by rintro ⟨_, n, h, hs⟩; cases h; cases hs⟩

/-- A file, a file of an other Tupfile, a file that is scheduled to be deleted, and one that does not exist. -/
example : tents (addPath (exCx true) exDb 2 "x.c".toList 1 false .empty) = some [some 3] ∧
    tents (addPath (exCx true) exDb 2 "z.c".toList 1 false .empty) = none ∧
    tents (addPath (exCx true) exDb 2 "old.c".toList 1 false .empty) = none ∧
    tents (addPath (exCx true) exDb 2 "v.c".toList 1 false .empty) = none := by decide +kernel

/-- In the variant a ghost does not hide a file, a file does, and a ghost is no input; a `!tup_preserve` rule does not see
the files of the variant; a group is made. -/
example : tents (addPath (exCx false) exDb 8 "x.c".toList 1 false .empty) = some [some 3] ∧
    tents (addPath (exCx false) exDb 8 "README".toList 1 false .empty) = some [some 13] ∧
    tents (addPath (exCx false) exDb 8 "none.c".toList 1 false .empty) = none ∧
    tents (addPath (exCx false) exDb 8 "README".toList 1 true .empty) = some [some 11] ∧
    tents (addPath (exCx false) exDb 8 "w.c".toList 1 true .empty) = none ∧
    tents (addPath (exCx false) exDb 8 "<g>".toList 1 false .empty) = some [some 14] := by decide +kernel

/-- but in a variant it can be one: what is found in the source directory is looked up there a second time, and found. -/
theorem c79_gone_variant : tents (addPath (exCx false) exDb 8 "old.c".toList 1 false .empty) = some [some 6] ∧
    (exCx false).gone 6 = true := by decide +kernel

theorem c79_gone_variant_stands : Stands (exCx false) exDb 8 "old.c".toList false exDb 6 := by
  have him : Image (exCx false) exDb 8 2 := ⟨rfl, _, rfl, rfl⟩
  have hat : At exDb 2 "old.c".toList 6 := ⟨_, rfl, rfl, rfl⟩
  have hng : ¬ IsGhost exDb 6 := by rintro ⟨n, h, hk⟩; cases h; cases hk
  refine ⟨6, _, .source him hat (.inl ⟨fun j hj => ?_, by decide⟩), rfl, (by intro h; cases h), .inr ⟨rfl, 2, him, hat, hng⟩, ?_⟩
  · rw [← select_iff ex_bounded ex_unique] at hj
    have : exDb.select 8 "old.c".toList = none := by decide +kernel
    rw [this] at hj; cases hj
  · rw [← foreign_iff (cx := exCx false) (db := exDb) (i := 6) rfl]
    decide +kernel

/-- With dependencies on files outside of the project: `/etc` is directory 1 here. -/
def outCx : Cx := { exCx false with fullDeps := true, lstat := some (5, 0) }

def dbOf (r : Res (Db × NameList)) : Db :=
  match r with
  | .ok (db, _) => db
  | _ => exDb

/-- A `!tup_preserve` rule of a variant can name a file outside of the project once, but not a second time: the node of
the file is not looked up where it is, and cannot be made again. -/
theorem c79_preserve_outside :
    tents (addPath outCx exDb 1 "hosts".toList 1 true .empty) = some [some 14] ∧
    tents (addPath outCx (dbOf (addPath outCx exDb 1 "hosts".toList 1 true .empty)) 1 "hosts".toList 1 true .empty) = none ∧
    tents (addPath outCx (dbOf (addPath outCx exDb 1 "hosts".toList 1 true .empty)) 1 "hosts".toList 1 false .empty) =
      some [some 14] := by decide +kernel

end Tup.Lookup
