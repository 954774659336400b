import Verif.Deletes.Quiet

/-! What holds while the Tupfiles are parsed. -/

namespace Tup.Deletes

open Tup.Db Tup.Links Tup.DoRule

variable {db0 : Db} {excl : Nat} {dirs : Nat → Bool}

/-- The file that is to become an ordinary one. -/
structure Changed (db : Db) (ds : List Nat) (rs : List Spec) (i : Nat) (n : Node) (d : Nat) : Prop where
  node : db.node i = some n
  kind : n.kind = .generated
  src : n.src = some d
  unlisted : Unlisted rs n
  parsed : d ∈ ds
  changed : db.modify i = true

/-- The rule has that command, which stays. -/
structure Has (excl : Nat) (p : Parse) (r : Spec) (c : Nat) : Prop where
  node : ∃ n, p.db.node c = some n ∧ n.kind = .cmd ∧ n.dir = r.dir ∧ n.name = r.cmd
  stays : Stays p c
  writes : ∀ d path src, Out.file d path src ∈ r.outputs ++ r.extra →
    ∃ i n, p.db.node i = some n ∧ n.dir = d ∧ n.name = base path ∧ n.kind = .generated ∧ Writes p.db excl c i

/-- The invariant. -/
structure Inv (excl : Nat) (db0 : Db) (ds : List Nat) (rs : List Spec) (s : State) : Prop where
  good : Good s.p.db excl
  claimed : Claimed s.p
  parsed : ∀ d, s.p.parsing d = some true ↔ d ∈ ds
  old : ∀ i n, db0.node i = some n → n.kind = .generated → ∃ m, s.p.db.node i = some m ∧ m.kind = .generated ∧ m.dir = n.dir ∧ m.name = n.name ∧
    s.p.db.modify i = db0.modify i ∧ (Unlisted rs n → m.src = n.src)
  gen : ∀ i, s.gen i = true ↔ ∃ n d, Obsolete db0 ds rs i n d
  save : ∀ i, s.save i = true ↔ ∃ n d, Changed db0 ds rs i n d
  files : ∀ i m, s.p.db.node i = some m → m.kind = .generated → (∃ n, db0.node i = some n ∧ n.kind = .generated ∧ Unlisted rs n) ∨
    ∃ r ∈ rs, Lists r m ∧ m.src = some r.dir
  rules : ∀ r ∈ rs, r.dir ∈ ds ∧ ∃ c, Has excl s.p r c
  cmds : ∀ c n, s.p.db.node c = some n → n.kind = .cmd → n.dir ∈ ds → s.p.doomed c = false → ∃ r ∈ rs, r.dir = n.dir ∧ r.cmd = n.name
  doomed : ∀ c, s.p.doomed c = true → s.p.db.isKind .cmd c = true
  ghost : ∀ i, db0.isKind .ghost i = true → (s.p.db.node i).isSome ∧ s.p.db.isKind .dir i = false
  alive : ∀ d ∈ ds, db0.isKind .ghost d = false

theorem lists_congr {r : Spec} {n m : Node} (hd : m.dir = n.dir) (hn : m.name = n.name) : Lists r m ↔ Lists r n := by
  unfold Lists
  rw [hd, hn]

theorem unlisted_congr {rs : List Spec} {n m : Node} (hd : m.dir = n.dir) (hn : m.name = n.name) : Unlisted rs m ↔ Unlisted rs n := by
  unfold Unlisted
  simp only [lists_congr hd hn]

theorem unlisted_cons {r : Spec} {rs : List Spec} {n : Node} : Unlisted (r :: rs) n ↔ ¬ Lists r n ∧ Unlisted rs n := by
  unfold Unlisted
  simp

theorem owned_iff {db : Db} {d i : Nat} : owned db d i = true ↔ ∃ n, db.node i = some n ∧ n.kind = .generated ∧ n.src = some d := by
  unfold owned
  cases db.node i with
  | none => simp
  | some n => simp

theorem gone_iff {db : Db} (hs : Sound db) {i : Nat} : gone db i = true ↔
    ∃ n d, db.node i = some n ∧ n.kind = .generated ∧ n.src = some d ∧ db.create d = true ∧ db.isKind .ghost d = true ∧ n.dir ≠ d := by
  unfold gone
  simp only [List.any_eq_true, List.mem_range, Bool.and_eq_true]
  constructor
  · rintro ⟨d, _, ⟨⟨h1, h2⟩, h3⟩, h4⟩
    obtain ⟨n, e1, e2, e3⟩ := owned_iff.1 h3
    rw [inDir_some e1] at h4
    exact ⟨n, d, e1, e2, e3, h1, h2, by simpa using h4⟩
  · rintro ⟨n, d, e1, e2, e3, h1, h2, h4⟩
    obtain ⟨m, f1, _⟩ := isKind_iff.1 h2
    refine ⟨d, (hs.node d m f1).2, ⟨⟨h1, h2⟩, owned_iff.2 ⟨n, e1, e2, e3⟩⟩, ?_⟩
    rw [inDir_some e1]
    simpa using h4

theorem inv_start (hg : Good db0 excl) : Inv excl db0 [] [] (start dirs db0) := by
  have hu : ∀ n, Unlisted [] n := fun n r hr => by cases hr
  refine ⟨hg, ?_, fun d => ?_, fun i n h1 h2 => ⟨n, h1, h2, rfl, rfl, rfl, fun _ => rfl⟩, fun i => ?_, fun i => ?_, fun i m h1 h2 => .inl ⟨m, h1, h2, hu m⟩,
    (fun r hr => by cases hr), (fun c n _ _ h => by cases h), (fun c h => by cases h),
    fun i hi => ?_, (fun d hd => by cases hd)⟩
  · intro c n _ _ h3
    have h3 : (if dirs n.dir then some false else none) = some true := h3
    split at h3 <;> cases h3
  · show (if dirs d then some false else none) = some true ↔ _
    split <;> simp
  · show gone db0 i = true ↔ _
    rw [gone_iff hg.sound]
    constructor
    · rintro ⟨n, d, e1, e2, e3, h⟩
      exact ⟨n, d, e1, e2, e3, hu n, .inr h⟩
    · rintro ⟨n, d, e1, e2, e3, _, h | h⟩
      · exact absurd h.1 (by simp)
      · exact ⟨n, d, e1, e2, e3, h⟩
  · show false = true ↔ _
    constructor
    · intro h; cases h
    · rintro ⟨n, d, h⟩
      exact absurd h.parsed (by simp)
  · obtain ⟨n, e1, _⟩ := isKind_iff.1 hi
    exact ⟨by show (db0.node i).isSome = true; rw [e1]; rfl, isKind_other hi (by decide)⟩

theorem begin_eq {d : Nat} {p p' : Parse} (h : beginParse d p = some p') : p.parsing d = some false ∧ p' = { p with
      doomed := fun i => p.doomed i || (p.db.isKind .cmd i && inDir p.db d i)
      parsing := fun e => if e = d then some true else p.parsing e
      seen := fun e i => p.seen e i && !decide (e = d) } := by
  unfold beginParse at h
  split at h
  · rename_i hf
    cases h
    exact ⟨hf, rfl⟩
  · cases h

theorem inv_dir {ds : List Nat} {rs : List Spec} {s s' : State} {d : Nat} (h : Inv excl db0 ds rs s) (hp : parseDir d s = some s') :
    Inv excl db0 (d :: ds) rs s' := by
  unfold parseDir at hp
  split at hp
  · cases hp
  rename_i hdup
  split at hp
  · cases hp
  rename_i p' hb
  cases hp
  have hcl := claimed_parse h.claimed hb
  have hstay := fun {c : Nat} (hst : Stays s.p c) => (stays_parse hb hst).1
  obtain ⟨hf, rfl⟩ := begin_eq hb
  have hd : d ∉ ds := fun hm => by rw [(h.parsed d).2 hm] at hf; cases hf
  have hown : ∀ i, owned s.p.db d i = true ↔ ∃ n, db0.node i = some n ∧ n.kind = .generated ∧ n.src = some d ∧ Unlisted rs n := by
    intro i
    rw [owned_iff]
    constructor
    · rintro ⟨m, e1, e2, e3⟩
      rcases h.files i m e1 e2 with ⟨n, f1, f2, f3⟩ | ⟨r, hr, _, f2⟩
      · obtain ⟨m', g1, _, _, _, _, g2⟩ := h.old i n f1 f2
        rw [e1] at g1
        cases g1
        exact ⟨n, f1, f2, by rw [← g2 f3, e3], f3⟩
      · rw [e3] at f2
        cases f2
        exact absurd (h.rules r hr).1 hd
    · rintro ⟨n, f1, f2, f3, f4⟩
      obtain ⟨m, g1, g2, _, _, _, g3⟩ := h.old i n f1 f2
      exact ⟨m, g1, g2, by rw [g3 f4, f3]⟩
  have hmod : ∀ i n, db0.node i = some n → n.kind = .generated → s.p.db.modify i = db0.modify i := fun i n f1 f2 => by
    obtain ⟨_, _, _, _, _, g, _⟩ := h.old i n f1 f2
    exact g
  refine ⟨h.good, hcl, fun e => ?_, h.old, fun i => ?_, fun i => ?_, h.files, fun r hr => ?_, fun c n h1 h2 h3 h4 => ?_, fun c hc => ?_,
    h.ghost, fun e he => ?_⟩
  · show (if e = d then some true else s.p.parsing e) = some true ↔ _
    split
    · rename_i he; simp [he]
    · rename_i he; rw [h.parsed]; simp [he]
  · show (s.gen i || (owned s.p.db d i && !s.p.db.modify i)) = true ↔ _
    simp only [Bool.or_eq_true, Bool.and_eq_true, Bool.not_eq_true', hown, h.gen]
    constructor
    · rintro (⟨n, d', o⟩ | ⟨⟨n, f1, f2, f3, f4⟩, h5⟩)
      · exact ⟨n, d', o.node, o.kind, o.src, o.unlisted, o.why.imp (fun w => ⟨List.mem_cons_of_mem _ w.1, w.2⟩) id⟩
      · exact ⟨n, d, f1, f2, f3, f4, .inl ⟨List.mem_cons_self, by rw [← hmod i n f1 f2, h5]⟩⟩
    · rintro ⟨n, d', o⟩
      rcases o.why with ⟨w1, w2⟩ | w
      · rcases List.mem_cons.1 w1 with rfl | w1
        · exact .inr ⟨⟨n, o.node, o.kind, o.src, o.unlisted⟩, by rw [hmod i n o.node o.kind, w2]⟩
        · exact .inl ⟨n, d', o.node, o.kind, o.src, o.unlisted, .inl ⟨w1, w2⟩⟩
      · exact .inl ⟨n, d', o.node, o.kind, o.src, o.unlisted, .inr w⟩
  · show (s.save i || (owned s.p.db d i && s.p.db.modify i)) = true ↔ _
    simp only [Bool.or_eq_true, Bool.and_eq_true, hown, h.save]
    constructor
    · rintro (⟨n, d', o⟩ | ⟨⟨n, f1, f2, f3, f4⟩, h5⟩)
      · exact ⟨n, d', o.node, o.kind, o.src, o.unlisted, List.mem_cons_of_mem _ o.parsed, o.changed⟩
      · exact ⟨n, d, f1, f2, f3, f4, List.mem_cons_self, by rw [← hmod i n f1 f2, h5]⟩
    · rintro ⟨n, d', o⟩
      rcases List.mem_cons.1 o.parsed with rfl | w1
      · exact .inr ⟨⟨n, o.node, o.kind, o.src, o.unlisted⟩, by rw [hmod i n o.node o.kind, o.changed]⟩
      · exact .inl ⟨n, d', o.node, o.kind, o.src, o.unlisted, w1, o.changed⟩
  · obtain ⟨k1, c, k2⟩ := h.rules r hr
    exact ⟨List.mem_cons_of_mem _ k1, c, k2.node, hstay k2.stays, k2.writes⟩
  · have h1 : s.p.db.node c = some n := h1
    have h4 : (s.p.doomed c || (s.p.db.isKind .cmd c && inDir s.p.db d c)) = false := h4
    rw [isKind_some h1, inDir_some h1, h2] at h4
    simp only [Bool.or_eq_false_iff, decide_true, Bool.true_and, decide_eq_false_iff_not] at h4
    rcases List.mem_cons.1 h3 with h3 | h3
    · exact absurd h3 h4.2
    · exact h.cmds c n h1 h2 h3 h4.1
  · have hc : (s.p.doomed c || (s.p.db.isKind .cmd c && inDir s.p.db d c)) = true := hc
    simp only [Bool.or_eq_true, Bool.and_eq_true] at hc
    rcases hc with hc | hc
    · exact h.doomed c hc
    · exact hc.1
  · rcases List.mem_cons.1 he with rfl | he
    · cases hx : db0.isKind .ghost e with
      | false => rfl
      | true => exact absurd (by simp [(h.ghost e hx).2]) hdup
    · exact h.alive e he

theorem inv_rule {ds : List Nat} {rs : List Spec} {s s' : State} {r : Spec} (h : Inv excl db0 ds rs s) (hp : s.p.parsing r.dir = some true)
    (hr : SpecOk s.p.db excl r) (hd : rule excl r s = some s') : Inv excl db0 ds (r :: rs) s' := by
  unfold rule at hd
  split at hd
  · cases hd
  rename_i p' hd'
  cases hd
  obtain ⟨o, c, m⟩ := rule_more h.good hr hd'
  have hg' := good_rule h.good hr hd'
  have hkeep : ∀ i n, s.p.db.node i = some n → n.kind = .generated → ∃ n', p'.db.node i = some n' ∧ n'.kind = .generated ∧ n'.dir = n.dir ∧ n'.name = n.name ∧
      (i ∉ o.outputs → n'.src = n.src) := by
    intro i n hn hk
    have hic : i ≠ c := by
      rintro rfl
      rcases m.done.old with hx | hx
      · rw [hn] at hx; cases hx
      · rw [isKind_some hn, hk] at hx; cases hx
    obtain ⟨n', e1, e2, _, e3⟩ := m.done.node i n hn
    exact ⟨n', e1, (e2 hk).1, (e3 hic).1, (e3 hic).2, (e2 hk).2⟩
  have hout : ∀ i n, p'.db.node i = some n → n.kind = .generated → (i ∈ o.outputs ↔ Lists r n) := by
    intro i n hn _
    refine ⟨fun hi => m.lists i hi n hn, ?_⟩
    rintro ⟨path, src, hl, hb⟩
    obtain ⟨b, hb', n', e1, e2, e3⟩ := m.listed _ _ _ hl
    have := hg'.unique b i n' n e1 hn e2 (e3.trans hb)
    rw [← this]
    exact hb'
  have hout0 : ∀ i n, db0.node i = some n → n.kind = .generated → (i ∈ o.outputs ↔ Lists r n) := by
    intro i n hn hk
    obtain ⟨q, e1, e2, e3, e4, _⟩ := h.old i n hn hk
    obtain ⟨q', f1, f2, f3, f4, _⟩ := hkeep i q e1 e2
    rw [hout i q' f1 f2]
    exact lists_congr (f3.trans e3) (f4.trans e4)
  refine ⟨hg', claimed_rule h.good h.claimed hr hd', fun d => ?_, fun i n hn hk => ?_, fun i => ?_, fun i => ?_, fun i n hn hk => ?_, fun r' hr' => ?_,
    fun c' n h1 h2 h3 h4 => ?_, fun c' hc' => ?_, fun i hi => ?_, h.alive⟩
  · show p'.parsing d = some true ↔ _
    rw [m.done.parsing]; exact h.parsed d
  · obtain ⟨q, e1, e2, e3, e4, e5, e6⟩ := h.old i n hn hk
    obtain ⟨q', f1, f2, f3, f4, f5⟩ := hkeep i q e1 e2
    refine ⟨q', f1, f2, f3.trans e3, f4.trans e4, ((m.quiet i (isKind_iff.2 ⟨q, e1, e2⟩)).2).trans e5, fun hu => ?_⟩
    rw [unlisted_cons] at hu
    rw [f5 (fun hi => hu.1 ((hout0 i n hn hk).1 hi)), e6 hu.2]
  · show (s.gen i && !decide (i ∈ outputsOf excl r s.p)) = true ↔ _
    rw [m.outs]
    simp only [Bool.and_eq_true, Bool.not_eq_true', decide_eq_false_iff_not, h.gen]
    constructor
    · rintro ⟨⟨n, d, q⟩, hi⟩
      exact ⟨n, d, q.node, q.kind, q.src, unlisted_cons.2 ⟨fun hl => hi ((hout0 i n q.node q.kind).2 hl), q.unlisted⟩, q.why⟩
    · rintro ⟨n, d, q⟩
      have hu := unlisted_cons.1 q.unlisted
      exact ⟨⟨n, d, q.node, q.kind, q.src, hu.2, q.why⟩, fun hi => hu.1 ((hout0 i n q.node q.kind).1 hi)⟩
  · show (s.save i && !decide (i ∈ outputsOf excl r s.p)) = true ↔ _
    rw [m.outs]
    simp only [Bool.and_eq_true, Bool.not_eq_true', decide_eq_false_iff_not, h.save]
    constructor
    · rintro ⟨⟨n, d, q⟩, hi⟩
      exact ⟨n, d, q.node, q.kind, q.src, unlisted_cons.2 ⟨fun hl => hi ((hout0 i n q.node q.kind).2 hl), q.unlisted⟩, q.parsed, q.changed⟩
    · rintro ⟨n, d, q⟩
      have hu := unlisted_cons.1 q.unlisted
      exact ⟨⟨n, d, q.node, q.kind, q.src, hu.2, q.parsed, q.changed⟩, fun hi => hu.1 ((hout0 i n q.node q.kind).1 hi)⟩
  · by_cases hi : i ∈ o.outputs
    · right
      refine ⟨r, List.mem_cons_self, m.lists i hi n hn, ?_⟩
      obtain ⟨q, e1, _, e2⟩ := m.done.output i hi
      have hn : p'.db.node i = some n := hn
      rw [hn] at e1
      cases e1
      exact e2
    · rcases m.back i (isKind_iff.2 ⟨n, hn, hk⟩) with hb | hb
      · obtain ⟨q, e1, e2⟩ := isKind_iff.1 hb
        obtain ⟨q', f1, f2, f3, f4, f5⟩ := hkeep i q e1 e2
        have hn : p'.db.node i = some n := hn
        rw [hn] at f1
        cases f1
        rcases h.files i q e1 e2 with ⟨n0, g1, g2, g3⟩ | ⟨r', hr', g1, g2⟩
        · exact .inl ⟨n0, g1, g2, unlisted_cons.2 ⟨fun hl => hi ((hout0 i n0 g1 g2).2 hl), g3⟩⟩
        · exact .inr ⟨r', List.mem_cons_of_mem _ hr', (lists_congr f3 f4).2 g1, by rw [f5 hi, g2]⟩
      · exact absurd hb hi
  · rcases List.mem_cons.1 hr' with rfl | hr'
    · refine ⟨(h.parsed _).1 hp, c, ?_, ⟨?_, ?_⟩, fun d path src hl => ?_⟩
      · obtain ⟨n, e1, e2, e3⟩ := m.done.cmd
        obtain ⟨n', f1, f2⟩ := m.name
        rw [e1] at f1
        cases f1
        exact ⟨n, e1, e2, e3, f2⟩
      · show p'.doomed c = false
        rw [m.done.doomed]; simp
      · obtain ⟨n, e1, e2, e3⟩ := m.done.cmd
        exact ⟨n, e1, by show p'.parsing n.dir ≠ _; rw [m.done.parsing, e3, hp]; simp⟩
      · obtain ⟨b, hb, n, e1, e2, e3⟩ := m.listed d path src hl
        obtain ⟨q, f1, f2, _⟩ := m.done.output b hb
        rw [e1] at f1
        cases f1
        exact ⟨b, n, e1, e2, e3, f2, (m.done.own b).2 hb⟩
    · obtain ⟨k1, c', k2⟩ := h.rules r' hr'
      obtain ⟨nc, e1, e2, e3, e4⟩ := k2.node
      obtain ⟨l1, l2, l3⟩ := stays_rule h.good h.claimed hp hr hd' k2.stays (isKind_iff.2 ⟨nc, e1, e2⟩)
      refine ⟨k1, c', ⟨nc, l2.trans e1, e2, e3, e4⟩, l1, fun d path src hl => ?_⟩
      obtain ⟨i, n, f1, f2, f3, f4, f5⟩ := k2.writes d path src hl
      obtain ⟨g1, g2⟩ := l3 i f5
      obtain ⟨q, q1, q2, q3, q4, _⟩ := hkeep i n f1 f4
      exact ⟨i, q, q1, q3.trans f2, q4.trans f3, q2, g1⟩
  · by_cases hc : c' = c
    · subst hc
      obtain ⟨n1, e1, _, e3⟩ := m.done.cmd
      obtain ⟨n', f1, f2⟩ := m.name
      have h1 : p'.db.node c' = some n := h1
      rw [h1] at e1 f1
      cases e1
      cases f1
      exact ⟨r, List.mem_cons_self, e3.symm, f2.symm⟩
    · have h4 : p'.doomed c' = false := h4
      rw [m.done.doomed] at h4
      simp only [hc, decide_false, Bool.not_false, Bool.and_true] at h4
      obtain ⟨r', hr', k⟩ := h.cmds c' n (m.done.cmds c' n h1 h2 hc) h2 h3 h4
      exact ⟨r', List.mem_cons_of_mem _ hr', k⟩
  · have hc' : p'.doomed c' = true := hc'
    rw [m.done.doomed] at hc'
    simp only [Bool.and_eq_true] at hc'
    obtain ⟨n, e1, e2⟩ := isKind_iff.1 (h.doomed c' hc'.1)
    obtain ⟨n', f1, _, f2, _⟩ := m.done.node c' n e1
    exact isKind_iff.2 ⟨n', f1, (f2 e2).1⟩
  · obtain ⟨k1, k2⟩ := h.ghost i hi
    obtain ⟨n, e1⟩ := Option.isSome_iff_exists.1 k1
    obtain ⟨n', f1, _⟩ := m.done.node i n e1
    refine ⟨by show (p'.db.node i).isSome = true; rw [f1]; rfl, ?_⟩
    cases hx : p'.db.isKind .dir i with
    | false => rfl
    | true => rw [m.noDir i hx] at k2; cases k2

theorem writes_insert {db : Db} (hs : Sound db) (n : Node) {c b : Nat} (h : Writes db excl c b) : Writes (db.insertNode n).1 excl c b := by
  have hk : ∀ j, (db.node j).isSome → (db.insertNode n).1.node j = db.node j := fun j hj => by
    rw [insert_node, if_neg]
    intro he
    rw [he, insert_fresh hs n] at hj
    cases hj
  obtain ⟨h1, h2, h3, h4⟩ := h
  obtain ⟨k1, k2⟩ := hs.normal c b h2
  exact ⟨by rw [isKind_congr (hk c k1)]; exact h1, h2, by rw [isKind_congr (hk b k2)]; exact h3, by rw [inDir_congr (hk b k2)]; exact h4⟩

theorem inv_found {ds : List Nat} {rs : List Spec} {s : State} {n : Node} (h : Inv excl db0 ds rs s) (hsel : s.p.db.select n.dir n.name = none)
    (hk : n.kind ≠ .cmd) (hk' : n.kind ≠ .generated) :
    Inv excl db0 ds rs { s with p := { s.p with db := (s.p.db.insertNode n).1 } } := by
  have hs := h.good.sound
  have hst : Step excl s.p { s.p with db := (s.p.db.insertNode n).1 } := .found s.p n hsel hk
  have hkeep : ∀ j m, s.p.db.node j = some m → (s.p.db.insertNode n).1.node j = some m := fun j m hj => by
    rw [insert_node, if_neg, hj]
    intro he
    rw [he, insert_fresh hs n] at hj
    cases hj
  have hback : ∀ j m, (s.p.db.insertNode n).1.node j = some m → m = n ∨ s.p.db.node j = some m := fun j m hj => by
    rw [insert_node] at hj
    split at hj
    · cases hj; exact .inl rfl
    · exact .inr hj
  refine ⟨good_steps h.good (.step (.refl _) hst), claimed_step h.good h.claimed hst, h.parsed, fun i m h1 h2 => ?_, h.gen, h.save, fun i m h1 h2 => ?_, fun r hr => ?_,
    fun c m h1 h2 h3 h4 => ?_, fun c hc => ?_, fun i hi => ?_, h.alive⟩
  · obtain ⟨q, e1, e2⟩ := h.old i m h1 h2
    exact ⟨q, hkeep i q e1, e2⟩
  · rcases hback i m h1 with rfl | h1
    · exact absurd h2 hk'
    · exact h.files i m h1 h2
  · obtain ⟨k1, c, k2⟩ := h.rules r hr
    obtain ⟨nc, e1, e2⟩ := k2.node
    refine ⟨k1, c, ⟨nc, hkeep c nc e1, e2⟩, ⟨k2.stays.1, ?_⟩, fun d path src hl => ?_⟩
    · obtain ⟨_, q, f1, f2⟩ := k2.stays
      exact ⟨q, hkeep c q f1, f2⟩
    · obtain ⟨i, q, f1, f2, f3, f4, f5⟩ := k2.writes d path src hl
      exact ⟨i, q, hkeep i q f1, f2, f3, f4, writes_insert hs n f5⟩
  · rcases hback c m h1 with rfl | h1
    · exact absurd h2 hk
    · exact h.cmds c m h1 h2 h3 h4
  · obtain ⟨q, e1, e2⟩ := isKind_iff.1 (h.doomed c hc)
    exact isKind_iff.2 ⟨q, hkeep c q e1, e2⟩
  · obtain ⟨k1, k2⟩ := h.ghost i hi
    obtain ⟨q, e1⟩ := Option.isSome_iff_exists.1 k1
    have := hkeep i q e1
    exact ⟨by show ((s.p.db.insertNode n).1.node i).isSome = true; rw [this]; rfl, by rw [isKind_congr (this.trans e1.symm)]; exact k2⟩

theorem inv_parses {ds : List Nat} {rs : List Spec} {s : State} (hg : Good db0 excl) (h : Parses excl (start dirs db0) ds rs s) : Inv excl db0 ds rs s := by
  induction h with
  | start => exact inv_start hg
  | dir d _ h ih => exact inv_dir ih h
  | rule r _ h1 h2 h3 ih => exact inv_rule ih h1 h2 h3
  | found n _ h1 h2 h3 ih => exact inv_found ih h1 h2 h3

end Tup.Deletes
