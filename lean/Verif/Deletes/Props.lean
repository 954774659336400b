import Verif.Deletes.Final
import Verif.DoRule.Props

/-!
C67: after the Tupfiles have been parsed, the files and commands without a rule go away, and nothing else does.

The theorems speak of the database `p.db` before the update, which has come about by any history `Steps`, of the directories `ds` that were
parsed in this update and the rules `rs` that were accepted, of the database afterwards, and of the files that were unlinked.
-/

namespace Tup.Deletes

open Tup.Db Tup.Links Tup.DoRule

variable {p0 p : Parse} {excl : Nat} {dirs : Nat → Bool} {ds : List Nat} {rs : List Spec} {s : State} {sort : List Nat → List Nat}
  {ok : Nat → Bool} {circular : Bool} {db' : Db} {log : List Nat}

theorem finish_ok (h : finish sort ok circular p.db (some s) = (db', log, true)) : deleteFiles sort ok s = (some db', log) ∧ circular = false := by
  unfold finish at h
  simp only [] at h
  split at h
  · cases h
  · rename_i db1 h1
    split at h
    · cases h
    · rename_i hc
      cases h
      exact ⟨Prod.ext h1 rfl, by simpa using hc⟩

/-- The facts about the end of the parsing that are used below. -/
theorem facts (hs : Good p.db excl) (hp : Parses excl (start dirs p.db) ds rs s) :
    (∀ i, s.gen i = true → i < s.p.db.top ∧ s.p.db.isKind .generated i = true ∧ s.save i = false ∧ s.p.doomed i = false) ∧
    (∀ i, s.save i = true → i < s.p.db.top ∧ s.p.db.isKind .generated i = true ∧ s.gen i = false ∧ s.p.doomed i = false) ∧
    (∀ c, s.p.doomed c = true → c < s.p.db.top ∧ s.p.db.isKind .cmd c = true ∧ s.gen c = false ∧ s.save c = false) := by
  have h := inv_parses hs hp
  have hboth : ∀ i, s.gen i = true → s.save i = true → False := by
    intro i h1 h2
    obtain ⟨n, d, o⟩ := (h.gen i).1 h1
    obtain ⟨n', d', c⟩ := (h.save i).1 h2
    have := o.node.symm.trans c.node
    cases this
    have := o.src.symm.trans c.src
    cases this
    rcases o.why with ⟨_, w⟩ | ⟨_, w, _⟩
    · rw [c.changed] at w; cases w
    · rw [h.alive d c.parsed] at w; cases w
  have hg : ∀ i, s.gen i = true ∨ s.save i = true → i < s.p.db.top ∧ s.p.db.isKind .generated i = true ∧ s.p.doomed i = false := by
    intro i hi
    have : ∃ n, p.db.node i = some n ∧ n.kind = .generated := by
      rcases hi with hi | hi
      · obtain ⟨n, d, o⟩ := (h.gen i).1 hi
        exact ⟨n, o.node, o.kind⟩
      · obtain ⟨n, d, o⟩ := (h.save i).1 hi
        exact ⟨n, o.node, o.kind⟩
    obtain ⟨n, e1, e2⟩ := this
    obtain ⟨m, f1, f2, _⟩ := h.old i n e1 e2
    have hk := isKind_iff.2 ⟨m, f1, f2⟩
    refine ⟨(h.good.sound.node i m f1).2, hk, ?_⟩
    cases hx : s.p.doomed i with
    | false => rfl
    | true => exact (isKind_ne hk (h.doomed i hx) (by decide)).elim
  have hfalse : ∀ {b : Bool}, (b = true → False) → b = false := fun {b} hb => by cases b <;> simp_all
  refine ⟨fun i hi => ?_, fun i hi => ?_, fun c hc => ?_⟩
  · obtain ⟨a, b, c⟩ := hg i (.inl hi)
    exact ⟨a, b, hfalse (hboth i hi), c⟩
  · obtain ⟨a, b, c⟩ := hg i (.inr hi)
    exact ⟨a, b, hfalse (fun h' => hboth i h' hi), c⟩
  · have hk := h.doomed c hc
    obtain ⟨n, e1, _⟩ := isKind_iff.1 hk
    exact ⟨(h.good.sound.node c n e1).2, hk, hfalse (fun hx => by have := (hg c (.inl hx)).2.2; rw [hc] at this; cases this),
      hfalse (fun hx => by have := (hg c (.inr hx)).2.2; rw [hc] at this; cases this)⟩

/-- **Only obsolete files are unlinked**, whatever else goes wrong: a generated file that none of the accepted rules lists, and either its directory was parsed and
nobody else has changed it, or that directory is gone. -/
theorem c67_only (h0 : Initial p0) (hst : Steps excl p0 p) (hsort : ∀ l, (sort l).Perm l) (hp : Parses excl (start dirs p.db) ds rs s) {i : Nat}
    (hi : i ∈ (finish sort ok circular p.db (some s)).2.1) : ∃ n d, Obsolete p.db ds rs i n d := by
  have hs := good_steps (initial_good h0) hst
  refine ((inv_parses hs hp).gen i).1 ?_
  have hlog : i ∈ (deleteFiles sort ok s).2 := by
    unfold finish at hi
    simp only [] at hi
    split at hi
    · exact hi
    · split at hi <;> exact hi
  have : i ∈ elements sort s s.gen := by
    unfold deleteFiles at hlog
    simp only [] at hlog
    split at hlog
    · exact deleteGen_log _ _ i hlog
    · split at hlog <;> exact deleteGen_log _ _ i hlog
  exact ((mem_elements hsort).1 this).2

/-- **If all goes well, exactly the obsolete files are unlinked**, each once. -/
theorem c67_deleted (h0 : Initial p0) (hst : Steps excl p0 p) (hsort : ∀ l, (sort l).Perm l) (hp : Parses excl (start dirs p.db) ds rs s)
    (h : finish sort ok circular p.db (some s) = (db', log, true)) : (∀ i, i ∈ log ↔ ∃ n d, Obsolete p.db ds rs i n d) ∧ log.Nodup := by
  have hs := good_steps (initial_good h0) hst
  have e := ended hsort (finish_ok h).1
  refine ⟨fun i => ?_, e.nodup⟩
  rw [e.logged, ← (inv_parses hs hp).gen i]
  exact ⟨fun h => h.2, fun h => ⟨((facts hs hp).1 i h).1, h⟩⟩

/-- **Nothing is left of them in the database**, except that a ghost may stay for others that mention the file. -/
theorem c67_gone (h0 : Initial p0) (hst : Steps excl p0 p) (hsort : ∀ l, (sort l).Perm l) (hp : Parses excl (start dirs p.db) ds rs s)
    (h : finish sort ok circular p.db (some s) = (db', log, true)) {i d : Nat} {n : Node} (ho : Obsolete p.db ds rs i n d) :
    ∀ m, db'.node i = some m → m.kind = .ghost := by
  have hs := good_steps (initial_good h0) hst
  have e := ended hsort (finish_ok h).1
  have hg := ((inv_parses hs hp).gen i).2 ⟨n, d, ho⟩
  obtain ⟨f1, _, f2, _⟩ := (facts hs hp).1 i hg
  exact fun m hm => e.dead i m (.inl hg) f2 f1 hm

/-- **A file that an accepted rule lists is kept**, and the rule's command writes it. -/
theorem c67_kept (h0 : Initial p0) (hst : Steps excl p0 p) (hsort : ∀ l, (sort l).Perm l) (hp : Parses excl (start dirs p.db) ds rs s)
    (h : finish sort ok circular p.db (some s) = (db', log, true)) {r : Spec} (hr : r ∈ rs) : ∃ c nc, db'.node c = some nc ∧ nc.kind = .cmd ∧
    nc.dir = r.dir ∧ nc.name = r.cmd ∧ ∀ d path src, Out.file d path src ∈ r.outputs ++ r.extra →
    ∃ i n, db'.node i = some n ∧ n.dir = d ∧ n.name = base path ∧ n.kind = .generated ∧ Produces db' excl c i ∧ i ∉ log := by
  have hs := good_steps (initial_good h0) hst
  have hinv := inv_parses hs hp
  have e := ended hsort (finish_ok h).1
  obtain ⟨hg, hv, hd⟩ := facts hs hp
  obtain ⟨_, c, k⟩ := hinv.rules r hr
  obtain ⟨nc, e1, e2, e3, e4⟩ := k.node
  have hfalse : ∀ {b : Bool}, (b = true → False) → b = false := fun {b} hb => by cases b <;> simp_all
  have hck := isKind_iff.2 ⟨nc, e1, e2⟩
  have hc1 : s.gen c = false := hfalse fun hx => isKind_ne hck (hg c hx).2.1 (by decide)
  have hc2 : s.save c = false := hfalse fun hx => isKind_ne hck (hv c hx).2.1 (by decide)
  have hc : db'.node c = some nc := by rw [e.keep c hc1 hc2 k.stays.1, e1]
  refine ⟨c, nc, hc, e2, e3, e4, fun d path src hl => ?_⟩
  obtain ⟨i, n, f1, f2, f3, f4, f5⟩ := k.writes d path src hl
  have hlist : Lists r n := ⟨path, src, by rw [f2]; exact hl, f3.symm⟩
  have hun : ∀ n', p.db.node i = some n' → n'.kind = .generated → ¬ Unlisted rs n' := by
    intro n' g1 g2 hu
    obtain ⟨m, q1, _, q2, q3, _⟩ := hinv.old i n' g1 g2
    rw [f1] at q1
    cases q1
    exact hu r hr ((lists_congr q2 q3).1 hlist)
  have hi1 : s.gen i = false := hfalse fun hx => by
    obtain ⟨n', d', o⟩ := (hinv.gen i).1 hx
    exact hun n' o.node o.kind o.unlisted
  have hi2 : s.save i = false := hfalse fun hx => by
    obtain ⟨n', d', o⟩ := (hinv.save i).1 hx
    exact hun n' o.node o.kind o.unlisted
  have hi3 : s.p.doomed i = false := hfalse fun hx => isKind_ne (isKind_iff.2 ⟨n, f1, f4⟩) (hd i hx).2.1 (by decide)
  have hi : db'.node i = some n := by rw [e.keep i hi1 hi2 hi3, f1]
  refine ⟨i, n, hi, f2, f3, f4, ⟨nc, n, hc, e2, hi, f4, ?_, ?_⟩, fun hm => ?_⟩
  · have := f5.2.2.2
    rw [inDir_some f1] at this
    simpa using this
  · rw [e.normal c i (fun j hj => by
      rcases hj with rfl | rfl
      · exact ⟨hc1, hc2, k.stays.1⟩
      · exact ⟨hi1, hi2, hi3⟩)]
    exact f5.2.1
  · rw [((e.logged i).1 hm).2] at hi1
    cases hi1

/-- **A file that somebody else has changed becomes an ordinary file** when no rule lists it any more: it is not unlinked, it keeps its name, and no command
writes it. -/
theorem c67_saved (h0 : Initial p0) (hst : Steps excl p0 p) (hsort : ∀ l, (sort l).Perm l) (hp : Parses excl (start dirs p.db) ds rs s)
    (h : finish sort ok circular p.db (some s) = (db', log, true)) {i d : Nat} {n : Node} (hn : p.db.node i = some n) (hk : n.kind = .generated)
    (hsrc : n.src = some d) (hu : Unlisted rs n) (hd : d ∈ ds) (hm : p.db.modify i = true) :
    i ∉ log ∧ (∃ m, db'.node i = some m ∧ m.kind = .file ∧ m.dir = n.dir ∧ m.name = n.name) ∧ ∀ c, ¬ Produces db' excl c i := by
  have hs := good_steps (initial_good h0) hst
  have hinv := inv_parses hs hp
  have e := ended hsort (finish_ok h).1
  have hsv := (hinv.save i).2 ⟨n, d, hn, hk, hsrc, hu, hd, hm⟩
  obtain ⟨f1, _, f2, f3⟩ := (facts hs hp).2.1 i hsv
  obtain ⟨m, g1, _, g2, g3, _⟩ := hinv.old i n hn hk
  obtain ⟨k1, k2⟩ := e.saved i m hsv f2 f3 g1 f1
  refine ⟨fun hl => ?_, ⟨_, k1, rfl, g2, g3⟩, fun c hc => ?_⟩
  · have := ((e.logged i).1 hl).2
    rw [f2] at this
    cases this
  · obtain ⟨_, _, _, _, _, _, _, hx⟩ := hc
    rw [k2 c] at hx
    cases hx

/-- **Every other generated file stays as it is.** -/
theorem c67_others (h0 : Initial p0) (hst : Steps excl p0 p) (hsort : ∀ l, (sort l).Perm l) (hp : Parses excl (start dirs p.db) ds rs s)
    (h : finish sort ok circular p.db (some s) = (db', log, true)) {i d : Nat} {n : Node} (hn : p.db.node i = some n) (hk : n.kind = .generated)
    (hsrc : n.src = some d) (hu : Unlisted rs n) (hd : d ∉ ds) (hg : p.db.isKind .ghost d = false) :
    i ∉ log ∧ ∃ m, db'.node i = some m ∧ m.kind = .generated ∧ m.dir = n.dir ∧ m.name = n.name ∧ m.src = some d := by
  have hs := good_steps (initial_good h0) hst
  have hinv := inv_parses hs hp
  have e := ended hsort (finish_ok h).1
  obtain ⟨m, g1, g2, g3, g4, _, g5⟩ := hinv.old i n hn hk
  have hfalse : ∀ {b : Bool}, (b = true → False) → b = false := fun {b} hb => by cases b <;> simp_all
  have hi1 : s.gen i = false := hfalse fun hx => by
    obtain ⟨n', d', o⟩ := (hinv.gen i).1 hx
    have := hn.symm.trans o.node
    cases this
    have := hsrc.symm.trans o.src
    cases this
    rcases o.why with w | w
    · exact hd w.1
    · rw [hg] at w; cases w.2.1
  have hi2 : s.save i = false := hfalse fun hx => by
    obtain ⟨n', d', o⟩ := (hinv.save i).1 hx
    have := hn.symm.trans o.node
    cases this
    have := hsrc.symm.trans o.src
    cases this
    exact hd o.parsed
  have hi3 : s.p.doomed i = false := hfalse fun hx => isKind_ne (isKind_iff.2 ⟨m, g1, g2⟩) ((facts hs hp).2.2 i hx).2.1 (by decide)
  refine ⟨fun hl => ?_, m, by rw [e.keep i hi1 hi2 hi3, g1], g2, g3, g4, by rw [g5 hu, hsrc]⟩
  rw [((e.logged i).1 hl).2] at hi1
  cases hi1

/-- **No generated file without a rule is left**: if its directory was parsed, an accepted rule of that directory lists it. -/
theorem c67_all_made (h0 : Initial p0) (hst : Steps excl p0 p) (hsort : ∀ l, (sort l).Perm l) (hp : Parses excl (start dirs p.db) ds rs s)
    (h : finish sort ok circular p.db (some s) = (db', log, true)) {i d : Nat} {m : Node} (hm : db'.node i = some m) (hk : m.kind = .generated)
    (hsrc : m.src = some d) (hd : d ∈ ds) : ∃ r ∈ rs, r.dir = d ∧ Lists r m := by
  have hs := good_steps (initial_good h0) hst
  have hinv := inv_parses hs hp
  have e := ended hsort (finish_ok h).1
  obtain ⟨hg, hv, hdm⟩ := facts hs hp
  have hfalse : ∀ {b : Bool}, (b = true → False) → b = false := fun {b} hb => by cases b <;> simp_all
  have hi1 : s.gen i = false := hfalse fun hx => by
    obtain ⟨f1, _, f2, _⟩ := hg i hx
    rw [e.dead i m (.inl hx) f2 f1 hm] at hk
    cases hk
  have hi3 : s.p.doomed i = false := hfalse fun hx => by
    obtain ⟨f1, _, _, f2⟩ := hdm i hx
    rw [e.dead i m (.inr hx) f2 f1 hm] at hk
    cases hk
  have hi2 : s.save i = false := hfalse fun hx => by
    obtain ⟨f1, f2, _, _⟩ := hv i hx
    obtain ⟨q, q1, _⟩ := isKind_iff.1 f2
    rw [(e.saved i q hx hi1 hi3 q1 f1).1] at hm
    cases hm
    cases hk
  have hm' : s.p.db.node i = some m := by rw [← e.keep i hi1 hi2 hi3, hm]
  rcases hinv.files i m hm' hk with ⟨n, f1, f2, f3⟩ | ⟨r, hr, f1, f2⟩
  · obtain ⟨q, g1, _, _, _, _, g2⟩ := hinv.old i n f1 f2
    rw [hm'] at g1
    cases g1
    have hn := (g2 f3).symm.trans hsrc
    cases hmod : p.db.modify i with
    | false =>
      have := (hinv.gen i).2 ⟨n, d, f1, f2, hn, f3, .inl ⟨hd, hmod⟩⟩
      rw [hi1] at this
      cases this
    | true =>
      have := (hinv.save i).2 ⟨n, d, f1, f2, hn, f3, hd, hmod⟩
      rw [hi2] at this
      cases this
  · exact ⟨r, hr, by rw [hsrc] at f2; cases f2; rfl, f1⟩

/-- **The commands of a directory that was parsed are those of its rules.** -/
theorem c67_commands (h0 : Initial p0) (hst : Steps excl p0 p) (hsort : ∀ l, (sort l).Perm l) (hp : Parses excl (start dirs p.db) ds rs s)
    (h : finish sort ok circular p.db (some s) = (db', log, true)) {d : Nat} (hd : d ∈ ds) (x : Str) :
    (∃ c n, db'.node c = some n ∧ n.kind = .cmd ∧ n.dir = d ∧ n.name = x) ↔ ∃ r ∈ rs, r.dir = d ∧ r.cmd = x := by
  have hs := good_steps (initial_good h0) hst
  have hinv := inv_parses hs hp
  have e := ended hsort (finish_ok h).1
  obtain ⟨hg, hv, hdm⟩ := facts hs hp
  have hfalse : ∀ {b : Bool}, (b = true → False) → b = false := fun {b} hb => by cases b <;> simp_all
  constructor
  · rintro ⟨c, n, hn, hk, h1, h2⟩
    have hi1 : s.gen c = false := hfalse fun hx => by
      obtain ⟨f1, _, f2, _⟩ := hg c hx
      rw [e.dead c n (.inl hx) f2 f1 hn] at hk
      cases hk
    have hi3 : s.p.doomed c = false := hfalse fun hx => by
      obtain ⟨f1, _, _, f2⟩ := hdm c hx
      rw [e.dead c n (.inr hx) f2 f1 hn] at hk
      cases hk
    have hi2 : s.save c = false := hfalse fun hx => by
      obtain ⟨f1, f2, _, _⟩ := hv c hx
      obtain ⟨q, q1, _⟩ := isKind_iff.1 f2
      rw [(e.saved c q hx hi1 hi3 q1 f1).1] at hn
      cases hn
      cases hk
    rw [e.keep c hi1 hi2 hi3] at hn
    obtain ⟨r, hr, g1, g2⟩ := hinv.cmds c n hn hk (by rw [h1]; exact hd) hi3
    exact ⟨r, hr, g1.trans h1, g2.trans h2⟩
  · rintro ⟨r, hr, h1, h2⟩
    obtain ⟨c, nc, g1, g2, g3, g4, _⟩ := c67_kept h0 hst hsort hp h hr
    exact ⟨c, nc, g1, g2, g3.trans h1, g4.trans h2⟩

/-- **Nothing stands in the way**: if the files can be unlinked and there is no cycle of groups, the update succeeds. -/
theorem c67_succeeds (h0 : Initial p0) (hst : Steps excl p0 p) (hsort : ∀ l, (sort l).Perm l) (hp : Parses excl (start dirs p.db) ds rs s)
    (ho : ∀ i n d, Obsolete p.db ds rs i n d → ok i = true) : ∃ db' log, finish sort ok false p.db (some s) = (db', log, true) := by
  have hs := good_steps (initial_good h0) hst
  obtain ⟨hg, hv, hd⟩ := facts hs hp
  obtain ⟨db', h⟩ := ends hsort (ok := ok) (fun i hi => ⟨(hg i hi).2.1, (hg i hi).2.2.1⟩) (fun i hi => (hv i hi).2.1) (fun i hi => (hd i hi).2.1)
    (fun i hi => by
      obtain ⟨n, d, o⟩ := ((inv_parses hs hp).gen i).1 hi
      exact ho i n d o)
  refine ⟨db', (deleteFiles sort ok s).2, ?_⟩
  unfold finish
  simp only [h]
  rfl

/-- **The files of a directory are never in the way**: the parsing of a directory of the graph whose turn has not come yet can begin, whatever was
parsed and accepted before. -/
theorem c67_begins (h0 : Initial p0) (hst : Steps excl p0 p) (hp : Parses excl (start dirs p.db) ds rs s) {d : Nat}
    (hd : s.p.db.isKind .dir d = true) (hw : s.p.parsing d = some false) : ∃ s', Parses excl (start dirs p.db) (d :: ds) rs s' := by
  have hs := good_steps (initial_good h0) hst
  have hinv := inv_parses hs hp
  have hnot : d ∉ ds := fun hm => by
    have := (hinv.parsed d).2 hm
    rw [hw] at this
    cases this
  have hsrc : ∀ {i n d'}, p.db.node i = some n → n.kind = .generated → n.src = some d' → Unlisted rs n → owned s.p.db d i = true → d' = d := by
    intro i n d' h1 h2 h3 h4 h5
    obtain ⟨m, e1, _, _, _, _, e2⟩ := hinv.old i n h1 h2
    obtain ⟨m', f1, _, f2⟩ := owned_iff.1 h5
    rw [e1] at f1
    cases f1
    rw [e2 h4, h3] at f2
    cases f2
    rfl
  have hdup : duplicate s d = false := by
    unfold duplicate
    rw [List.any_eq_false]
    intro i _ hx
    rw [Bool.and_eq_true] at hx
    obtain ⟨h1, h2⟩ := hx
    split at h2
    · obtain ⟨n, d', c⟩ := (hinv.save i).1 h2
      have := hsrc c.node c.kind c.src c.unlisted h1
      subst this
      exact hnot c.parsed
    · obtain ⟨n, d', o⟩ := (hinv.gen i).1 h2
      have := hsrc o.node o.kind o.src o.unlisted h1
      subst this
      rcases o.why with ⟨h3, _⟩ | ⟨_, h3, _⟩
      · exact hnot h3
      · have := (hinv.ghost _ h3).2
        rw [hd] at this
        cases this
  have hpd : ∃ s', parseDir d s = some s' := by
    unfold parseDir beginParse
    rw [hd, hdup, if_pos hw]
    exact ⟨_, rfl⟩
  obtain ⟨s', h⟩ := hpd
  exact ⟨s', .dir d hp h⟩

/-- A directory whose Tupfile cannot be parsed leads to no deletions, and whenever the update fails the database stays as it was. -/
theorem c67_failed : finish sort ok circular p.db none = (p.db, [], false) ∧
    ∀ parsed, (finish sort ok circular p.db parsed).2.2 = false → (finish sort ok circular p.db parsed).1 = p.db := by
  refine ⟨rfl, fun parsed h => ?_⟩
  unfold finish at h ⊢
  cases parsed with
  | none => rfl
  | some s =>
    simp only [] at h ⊢
    split
    · rfl
    · rename_i db1 h1
      simp only [h1] at h
      split
      · rfl
      · rename_i hc
        simp [hc] at h

/-! ### Examples

The directories `.` (1) and `sub` (7) have Tupfiles.  That of `.` has the rules `: a.c |> cc a.c |> a.o <objs> ^\\.log` and `: |> old |> u w`, that of `sub` has the
rule `: |> gen |> ../x y`. -/

def exOld : Spec := { dir := 1, cmd := "old".toList, outputs := [.file 1 "u".toList none, .file 1 "w".toList none], inputs := [] }

def exGen : Spec := { dir := 7, cmd := "gen".toList, outputs := [.file 1 "../x".toList none, .file 7 "y".toList none], inputs := [] }

theorem exOld_ok {db : Db} : SpecOk db 2 exOld := by
  refine specOk_simple (fun o ho => ?_) rfl
  simp only [exOld, List.mem_append, List.mem_cons, List.not_mem_nil, or_false] at ho
  rcases ho with rfl | rfl
  · exact (by decide : (1 : Nat) ≠ 2)
  · exact (by decide : (1 : Nat) ≠ 2)

theorem exGen_ok {db : Db} : SpecOk db 2 exGen := by
  refine specOk_simple (fun o ho => ?_) rfl
  simp only [exGen, List.mem_append, List.mem_cons, List.not_mem_nil, or_false] at ho
  rcases ho with rfl | rfl
  · exact (by decide : (1 : Nat) ≠ 2)
  · exact (by decide : (7 : Nat) ≠ 2)

def exA : Parse := (doRule 2 exOld exDone).get (by decide +kernel)

def exB : Parse := (beginParse 7 exA).get (by decide +kernel)

def exC : Parse := (doRule 2 exGen exB).get (by decide +kernel)

/-- Somebody has changed `w`, and the Tupfile of `.`. -/
def exFlags (p : Parse) (create modify : List Nat) : Parse :=
  { p with db := { p.db with create := fun i => decide (i ∈ create), modify := fun i => decide (i ∈ modify), config := fun _ => false, variant := fun _ => false,
                             transient := fun _ => false } }

def exBefore : Parse := exFlags exC [1] [11]

theorem exC_steps : Steps 2 exStart exC :=
  .step (.step (.step exDone_steps (.rule exOld (by decide +kernel) exOld_ok (Option.some_get _).symm)) (.parse 7 (Option.some_get _).symm))
    (.rule exGen (by decide +kernel) exGen_ok (Option.some_get _).symm)

theorem exBefore_steps : Steps 2 exStart exBefore := .step exC_steps (.flags _ _ _ _ _ _)

/-- The nodes: 10 and 11 are `u` and `w`, 12 is the command `old`, 13 and 14 are `x` and `y`. -/
example : (List.range 16).map (fun i => (exBefore.db.node i).map fun n => (String.ofList n.name, n.dir, n.src)) = [none, some (".", 0, none), some ("^", 0, none), some ("a.c", 1, none),
    some ("b.c", 1, none), some ("a.o", 1, some 1), some ("<objs>", 1, none), some ("sub", 1, none), some ("\\.log", 2, none), some ("cc a.c", 1, none),
    some ("u", 1, some 1), some ("w", 1, some 1), some ("old", 1, none), some ("x", 1, some 7), some ("y", 7, some 7), some ("gen", 7, none)] := by decide +kernel

/-- Now the second rule has been removed from the Tupfile of `.`, which is parsed again. -/
def exNow : State := (rule 2 exRule ((parseDir 1 (start (fun d => decide (d = 1)) exBefore.db)).get (by decide +kernel))).get (by decide +kernel)

theorem exNow_parses : Parses 2 (start (fun d => decide (d = 1)) exBefore.db) [1] [exRule] exNow :=
  .rule exRule (.dir 1 .start (Option.some_get _).symm) (by decide +kernel) exRule_ok (Option.some_get _).symm

/-- `u` is unlinked; `w` is an ordinary file now; the command `old` is gone; `a.o` and `x` stay. -/
theorem exNow_result : let r := finish id (fun _ => true) false exBefore.db (some exNow)
    r.2 = ([10], true) ∧ (r.1.node 10).isNone = true ∧ r.1.isKind .file 11 = true ∧ (r.1.node 12).isNone = true ∧ r.1.isKind .generated 5 = true ∧
      r.1.isKind .generated 13 = true ∧ r.1.isKind .cmd 9 = true ∧ r.1.normal 9 5 = true := by
  refine ⟨?_, ?_, ?_, ?_, ?_, ?_, ?_, ?_⟩ <;> decide +kernel

/-- The theorems apply to it. -/
example : (∃ n d, Obsolete exBefore.db [1] [exRule] 10 n d) ∧ (∀ n d, ¬ Obsolete exBefore.db [1] [exRule] 13 n d) := by
  obtain ⟨db', log, h⟩ := c67_succeeds exStart_initial exBefore_steps (fun l => List.Perm.refl l) exNow_parses (sort := id) (ok := fun _ => true) (fun _ _ _ _ => rfl)
  obtain ⟨h1, _⟩ := c67_deleted exStart_initial exBefore_steps (fun l => List.Perm.refl l) exNow_parses h
  have hl : log = [10] := by
    have := exNow_result.1
    rw [h] at this
    exact congrArg Prod.fst this
  subst hl
  exact ⟨(h1 10).1 (by simp), fun n d ho => absurd ((h1 13).2 ⟨n, d, ho⟩) (by simp)⟩

example : ∃ db', finish id (fun _ => true) false exBefore.db (some exNow) = (db', [10], true) ∧
    (∃ m, db'.node 11 = some m ∧ m.kind = .file ∧ m.dir = 1 ∧ m.name = "w".toList) ∧ (∀ x, (∃ c n, db'.node c = some n ∧ n.kind = .cmd ∧ n.dir = 1 ∧ n.name = x) ↔ x = "cc a.c".toList) := by
  have h : finish id (fun _ => true) false exBefore.db (some exNow) = ((finish id (fun _ => true) false exBefore.db (some exNow)).1, [10], true) :=
    Prod.ext rfl exNow_result.1
  refine ⟨_, h, ?_, fun x => ?_⟩
  · refine (c67_saved exStart_initial exBefore_steps (fun l => List.Perm.refl l) exNow_parses h (i := 11) (d := 1)
      (n := { dir := 1, kind := .generated, name := "w".toList, src := some 1 }) (by decide +kernel) rfl rfl ?_ (by simp) (by decide +kernel)).2.1
    intro r hr
    simp only [List.mem_singleton] at hr
    subst hr
    rintro ⟨path, src, h1, h2⟩
    simp only [exRule, List.append_nil, List.mem_cons, Out.file.injEq, reduceCtorEq, List.not_mem_nil, or_false] at h1
    obtain ⟨_, rfl, _⟩ := h1
    exact absurd h2 (by decide +kernel)
  · rw [c67_commands exStart_initial exBefore_steps (fun l => List.Perm.refl l) exNow_parses h (d := 1) (by simp) x]
    simp only [List.mem_singleton, exists_eq_left]
    constructor
    · rintro ⟨_, h⟩; exact h.symm
    · intro h; exact ⟨rfl, h.symm⟩

/-- Both directories are to be parsed: when that is done for `.`, with its rule, `sub` can follow. -/
example : ∃ s, Parses 2 (start (fun d => decide (d = 1 ∨ d = 7)) exBefore.db) [7, 1] [exRule] s :=
  c67_begins exStart_initial exBefore_steps (s := (rule 2 exRule ((parseDir 1 (start (fun d => decide (d = 1 ∨ d = 7)) exBefore.db)).get (by decide +kernel))).get
    (by decide +kernel)) (.rule exRule (.dir 1 .start (Option.some_get _).symm) (by decide +kernel) exRule_ok (Option.some_get _).symm)
    (by decide +kernel) (by decide +kernel)

/-! ### What does not hold -/

/-- The directory `sub` was removed, and somebody has changed `x`. -/
def exRemoved : Parse := exFlags { exC with db := exC.db.deleteNameFile 7 } [7] [13]

theorem exRemoved_steps : Steps 2 exStart exRemoved := .step (.step exC_steps (.delete _ 7 (.inl (by decide +kernel)))) (.flags _ _ _ _ _ _)

/-- **A changed file is deleted if the directory of its rule was removed** as a whole, though it would be kept if only the rule was: the files of removed directories do
not go through `split_roots`. -/
theorem c67_removed_changed : Parses 2 (start (fun d => decide (d = 7)) exRemoved.db) [] [] (start (fun d => decide (d = 7)) exRemoved.db) ∧
    exRemoved.db.isKind .generated 13 = true ∧ exRemoved.db.modify 13 = true ∧
    (finish id (fun _ => true) false exRemoved.db (some (start (fun d => decide (d = 7)) exRemoved.db))).2 = ([13], true) :=
  ⟨.start, by decide +kernel, by decide +kernel, by decide +kernel⟩

/-- **Files are unlinked though the update fails** and the database still has them, if the cycle check comes to a bad end or a later file cannot be unlinked. -/
theorem c67_rollback : (let r := finish id (fun _ => true) true exBefore.db (some exNow)
    r.2 = ([10], false) ∧ r.1.isKind .generated 10 = true) ∧
    let s := (parseDir 1 (start (fun d => decide (d = 1)) (exFlags exC [1] []).db)).get (by decide +kernel)
    let r := finish id (fun i => decide (i ≠ 11)) false (exFlags exC [1] []).db (some s)
    r.2 = ([5, 10], false) ∧ r.1.isKind .generated 10 = true := by
  refine ⟨⟨?_, ?_⟩, ?_, ?_⟩ <;> decide +kernel

end Tup.Deletes
