import Verif.Todo.Lemmas

/-! C82: what `tup todo` shows. -/

namespace Tup.Todo

open Tup.Exec Tup.Graph

variable {w : World} {root : Nat} {U : List Nat}

theorem Ok.closedConfig (hk : Ok w root U) : Closed w.toLinks root U w.config := ⟨hk.config, hk.links, hk.noRoot, hk.nodup⟩
theorem Ok.closedCreate (hk : Ok w root U) : Closed w.toLinks root U w.create := ⟨hk.create, hk.links, hk.noRoot, hk.nodup⟩
theorem Ok.closedModify (hk : Ok w root U) : Closed w.toLinks root U w.modify := ⟨hk.modify, hk.links, hk.noRoot, hk.nodup⟩

theorem Ok.genDir (hk : Ok w root U) {x : Nat} (h : w.isDir x = true) : w.isGen x = false := by
  cases hg : w.isGen x with
  | false => rfl
  | true => rw [(hk.genCmd x hg).2] at h; cases h

theorem Ok.genC (hk : Ok w root U) {x : Nat} (h : w.isCmd x = true) : w.isGen x = false := by
  cases hg : w.isGen x with
  | false => rfl
  | true => rw [(hk.genCmd x hg).1] at h; cases h

/-- The lines of a phase that shows something, and of one that does not. -/
theorem lines_of {r : Shown} (h1 : r.num = r.printed.length) (h2 : r.pruned = []) (head : Line) :
    (r.printed ≠ [] → r.num ≠ 0 ∧ r.lines head = head :: r.printed.map .node) ∧ (r.printed = [] → r.num = 0 ∧ r.lines head = []) := by
  constructor
  · intro h
    have : r.num ≠ 0 := by
      rw [h1]
      exact fun h' => h (List.length_eq_zero_iff.1 h')
    refine ⟨this, ?_⟩
    rw [Shown.lines, if_pos this, h2]
    simp
  · intro h
    have : r.num = 0 := by rw [h1, h]; rfl
    refine ⟨this, ?_⟩
    rw [Shown.lines, if_neg (fun h => h this), h2, h]
    simp

/-- What is shown if nothing is named.  If something is behind the list of the tup.config files, that is shown and nothing else; otherwise, if directories are behind the list of those to be read,
these; otherwise, if commands are behind the modified nodes, these with their number; each of them once; and otherwise that everything is up to date.  The database is as before. -/
theorem c82_shown (hk : Ok w root U) {ls : List Line} {m : List Nat} (h : Todo w root U none (some (ls, m))) :
    m = w.modify ∧
    ((∃ x, Behind w w.config x) → Tells ls (fun _ => .configs) (Behind w w.config) .runRead) ∧
    ((¬ ∃ x, Behind w w.config x) → (∃ x, Behind w w.create x ∧ w.isDir x = true) → Tells ls (fun _ => .dirs) (fun x => Behind w w.create x ∧ w.isDir x = true) .runParse) ∧
    ((¬ ∃ x, Behind w w.config x) → (¬ ∃ x, Behind w w.create x ∧ w.isDir x = true) →
      ((∃ x, Behind w w.modify x ∧ w.isCmd x = true) → Tells ls .commands (fun x => Behind w w.modify x ∧ w.isCmd x = true) .runTup) ∧
      ((¬ ∃ x, Behind w w.modify x ∧ w.isCmd x = true) → ls = [.upToDate])) := by
  have p1 : ∀ {r}, Phase w root U w.config (fun _ => true) none (some r) → r.printed.Nodup ∧ (∀ x, x ∈ r.printed ↔ Behind w w.config x) ∧ r.num = r.printed.length ∧ r.pruned = [] := by
    intro r h
    obtain ⟨q1, q2, q3, q4, _⟩ := phase_none hk.closedConfig hk (fun x hx _ => hk.genConfig x hx) h
    exact ⟨q1, fun x => by rw [q2]; exact ⟨fun h => h.1, fun h => ⟨h, rfl⟩⟩, q3, q4⟩
  have p2 := fun {r} (h : Phase w root U w.create w.isDir none (some r)) => phase_none hk.closedCreate hk (fun x _ h => hk.genDir h) h
  have p3 := fun {r} (h : Phase w root U w.modify w.isCmd none (some r)) => phase_none hk.closedModify hk (fun x _ h => hk.genC h) h
  have empty1 : ∀ {r : Shown} {p : Nat → Prop}, (∀ x, x ∈ r.printed ↔ p x) → r.num = r.printed.length → r.num = 0 → ¬ ∃ x, p x := by
    rintro r p h1 h2 h3 ⟨x, hx⟩
    have := (h1 x).2 hx
    rw [List.length_eq_zero_iff.1 (h2.symm.trans h3)] at this
    cases this
  have full1 : ∀ {r : Shown} {p : Nat → Prop}, (∀ x, x ∈ r.printed ↔ p x) → r.num = r.printed.length → r.num ≠ 0 → r.printed ≠ [] ∧ ∃ x, p x := by
    intro r p h1 h2 h3
    have hne : r.printed ≠ [] := fun h => h3 (by rw [h2, h]; rfl)
    obtain ⟨x, hx⟩ := List.exists_mem_of_ne_nil _ hne
    exact ⟨hne, x, (h1 x).1 hx⟩
  generalize ho : some (ls, m) = o at h
  cases h with
  | error1 | error2 | error3 => cases ho
  | config g1 g2 =>
    cases ho
    obtain ⟨q1, q2, q3, q4⟩ := p1 g1
    obtain ⟨f1, f2⟩ := full1 q2 q3 g2
    refine ⟨rfl, fun _ => ⟨_, ?_, q1, q2⟩, fun h => absurd f2 h, fun h => absurd f2 h⟩
    rw [((lines_of q3 q4 _).1 f1).2]
  | create g1 g2 g3 g4 =>
    cases ho
    obtain ⟨q1, q2, q3, q4⟩ := p1 g1
    obtain ⟨k1, k2, k3, k4, _⟩ := p2 g3
    obtain ⟨f1, f2⟩ := full1 k2 k3 g4
    have e1 := empty1 q2 q3 g2
    refine ⟨rfl, fun h => absurd h e1, fun _ _ => ⟨_, ?_, k1, k2⟩, fun _ h => absurd f2 h⟩
    rw [((lines_of q3 q4 _).2 (List.length_eq_zero_iff.1 (q3.symm.trans g2))).2, ((lines_of k3 k4 _).1 f1).2]
    rfl
  | @update r r' r'' g1 g2 g3 g4 g5 =>
    cases ho
    obtain ⟨q1, q2, q3, q4⟩ := p1 g1
    obtain ⟨k1, k2, k3, k4, _⟩ := p2 g3
    obtain ⟨j1, j2, j3, j4, _⟩ := p3 g5
    have e1 := empty1 q2 q3 g2
    have e2 := empty1 k2 k3 g4
    rw [((lines_of q3 q4 _).2 (List.length_eq_zero_iff.1 (q3.symm.trans g2))).2, ((lines_of k3 k4 _).2 (List.length_eq_zero_iff.1 (k3.symm.trans g4))).2, j4]
    refine ⟨by simp, fun h => absurd h e1, fun _ h => absurd h e2, fun _ _ => ⟨fun ⟨x, hx⟩ => ⟨r''.printed, ?_, j1, j2⟩, fun hn => ?_⟩⟩
    · have hne : r''.printed ≠ [] := fun h => by
        have := (j2 x).2 hx
        rw [h] at this; cases this
      have := (lines_of j3 j4 (.commands r''.num)).1 hne
      rw [this.2, if_pos this.1, j3]
      rfl
    · have he : r''.printed = [] := by
        refine Classical.byContradiction fun h => hn ?_
        obtain ⟨x, hx⟩ := List.exists_mem_of_ne_nil _ h
        exact ⟨x, (j2 x).1 hx⟩
      have := (lines_of j3 j4 (.commands r''.num)).2 he
      rw [this.2, if_neg (fun h => h this.1)]
      rfl

/-- A command is shown after those that it depends on, also if something is named. -/
theorem c82_order (hk : Ok w root U) {ts : Option (List Nat)} (ht : ∀ t, ts = some t → TargetsOk w root t) {ls : List Line} {m : List Nat} (h : Todo w root U ts (some (ls, m))) {a b : Nat}
    (ha : w.isCmd a = true) (hb : w.isCmd b = true) (h1 : .node a ∈ ls) (h2 : .node b ∈ ls) (hc : ¬ ∃ x, Behind w w.config x) (hd : ¬ ∃ x, Behind w w.create x ∧ w.isDir x = true)
    (hab : Plus (Leads w w.modify) a b) : ∃ u v t, ls = u ++ .node a :: v ++ .node b :: t := by
  generalize ho : some (ls, m) = o at h
  cases h with
  | error1 | error2 | error3 => cases ho
  | @config r g1 g2 =>
    obtain ⟨q1, q2, q3, q4, _⟩ := phase_none hk.closedConfig hk (fun x hx _ => hk.genConfig x hx) g1
    exfalso
    have : r.printed ≠ [] := fun h => g2 (by rw [q3, h]; rfl)
    obtain ⟨x, hx⟩ := List.exists_mem_of_ne_nil _ this
    exact hc ⟨x, ((q2 x).1 hx).1⟩
  | @create r r' _ _ g1 g2 =>
    obtain ⟨q1, q2, q3, q4, _⟩ := phase_none hk.closedCreate hk (fun x _ h => hk.genDir h) g1
    exfalso
    have : r'.printed ≠ [] := fun h => g2 (by rw [q3, h]; rfl)
    obtain ⟨x, hx⟩ := List.exists_mem_of_ne_nil _ this
    exact hd ⟨x, (q2 x).1 hx⟩
  | @update r r' r'' g1 g2 g3 g4 g5 =>
    cases ho
    obtain ⟨q1, q2, q3, q4, _⟩ := phase_none hk.closedConfig hk (fun x hx _ => hk.genConfig x hx) g1
    obtain ⟨k1, k2, k3, k4, _⟩ := phase_none hk.closedCreate hk (fun x _ h => hk.genDir h) g3
    rw [((lines_of q3 q4 _).2 (List.length_eq_zero_iff.1 (q3.symm.trans g2))).2, ((lines_of k3 k4 _).2 (List.length_eq_zero_iff.1 (k3.symm.trans g4))).2] at h1 h2 ⊢
    have hp : ∀ x, Line.node x ∈ [] ++ [] ++ r''.lines (.commands r''.num) ++ [if r''.num ≠ 0 then Line.runTup else .upToDate] → x ∈ r''.printed := by
      intro x hx
      simp only [Shown.lines, List.nil_append, List.mem_append, List.mem_map, Line.node.injEq, exists_eq_right, List.mem_singleton] at hx
      rcases hx with ((hx | hx) | hx) | hx
      · split at hx
        · cases List.mem_singleton.1 hx
        · cases hx
      · exact hx
      · split at hx
        · cases List.mem_singleton.1 hx
        · cases hx
      · split at hx <;> cases hx
    have hord : Before r''.printed a b := by
      cases ts with
      | none => exact (phase_none hk.closedModify hk (fun x _ h => hk.genC h) g5).2.2.2.2 a b (hp a h1) (hp b h2) hab
      | some t => exact (phase_some hk.closedModify hk (ht t rfl) g5).2.2.2.2.2 a b (hp a h1) (hp b h2) hab
    obtain ⟨u, v, t, e⟩ := hord
    simp only [Shown.lines, e, List.map_append, List.map_cons]
    refine ⟨(if r''.num ≠ 0 then [.commands r''.num] else []) ++ u.map .node, v.map .node, t.map .node ++ (if r''.pruned.length ≠ 0 then [.skipped r''.pruned.length] else []) ++
      [if r''.num ≠ 0 then Line.runTup else .upToDate], ?_⟩
    simp only [List.nil_append, List.append_assoc, List.cons_append]

/-- If something is named: those commands are shown, with their number, on which something named depends; the others are only counted, but each of them is in the modify list afterwards. -/
theorem c82_named (hk : Ok w root U) {ts : List Nat} (ht : TargetsOk w root ts) {ls : List Line} {m : List Nat} (h : Todo w root U (some ts) (some (ls, m)))
    (hc : ¬ ∃ x, Behind w w.config x) (hd : ¬ ∃ x, Behind w w.create x ∧ w.isDir x = true) :
    ∃ l k : List Nat, l.Nodup ∧ k.Nodup ∧ (∀ x, x ∈ l ↔ Behind w w.modify x ∧ w.isCmd x = true ∧ ∃ t ∈ ts, Star (Leads w w.modify) x t) ∧
      (∀ x, x ∈ k ↔ Behind w w.modify x ∧ w.isCmd x = true ∧ ¬ ∃ t ∈ ts, Star (Leads w w.modify) x t) ∧
      ls = (if l = [] then [] else [.commands l.length]) ++ l.map .node ++ (if k = [] then [] else [.skipped k.length]) ++ [if l = [] then .upToDate else .runTup] ∧
      (∀ x, x ∈ m ↔ x ∈ w.modify ∨ x ∈ k) := by
  generalize ho : some (ls, m) = o at h
  cases h with
  | error1 | error2 | error3 => cases ho
  | @config r g1 g2 =>
    obtain ⟨q1, q2, q3, q4, _⟩ := phase_none hk.closedConfig hk (fun x hx _ => hk.genConfig x hx) g1
    exfalso
    have : r.printed ≠ [] := fun h => g2 (by rw [q3, h]; rfl)
    obtain ⟨x, hx⟩ := List.exists_mem_of_ne_nil _ this
    exact hc ⟨x, ((q2 x).1 hx).1⟩
  | @create r r' _ _ g1 g2 =>
    obtain ⟨q1, q2, q3, q4, _⟩ := phase_none hk.closedCreate hk (fun x _ h => hk.genDir h) g1
    exfalso
    have : r'.printed ≠ [] := fun h => g2 (by rw [q3, h]; rfl)
    obtain ⟨x, hx⟩ := List.exists_mem_of_ne_nil _ this
    exact hd ⟨x, (q2 x).1 hx⟩
  | @update r r' r'' g1 g2 g3 g4 g5 =>
    cases ho
    obtain ⟨q1, q2, q3, q4, _⟩ := phase_none hk.closedConfig hk (fun x hx _ => hk.genConfig x hx) g1
    obtain ⟨k1, k2, k3, k4, _⟩ := phase_none hk.closedCreate hk (fun x _ h => hk.genDir h) g3
    obtain ⟨j1, j2, j3, j4, j5, _⟩ := phase_some hk.closedModify hk ht g5
    rw [((lines_of q3 q4 _).2 (List.length_eq_zero_iff.1 (q3.symm.trans g2))).2, ((lines_of k3 k4 _).2 (List.length_eq_zero_iff.1 (k3.symm.trans g4))).2]
    refine ⟨r''.printed, r''.pruned, j1, j4, j2, ?_, ?_, ?_⟩
    · intro x
      rw [j5, j2]
      constructor
      · rintro ⟨e1, e2, e3⟩
        exact ⟨e1, e2, fun h => e3 ⟨e1, e2, h⟩⟩
      · rintro ⟨e1, e2, e3⟩
        exact ⟨e1, e2, fun h => e3 h.2.2⟩
    · rw [Shown.lines, j3]
      cases r''.printed <;> cases r''.pruned <;> simp
    · intro x
      simp only [List.mem_append, List.mem_filter, decide_not, Bool.not_eq_true', decide_eq_false_iff_not]
      constructor
      · rintro (h | h)
        · exact .inl h
        · exact .inr h.1
      · rintro (h | h)
        · exact .inl h
        · by_cases hm : x ∈ w.modify
          · exact .inl hm
          · exact .inr ⟨h, hm⟩

/-- Without circles `tup todo` can get to its end. -/
theorem c82_completes (hk : Ok w root U) (h1 : NoCircle w w.config) (h2 : NoCircle w w.create) (h3 : NoCircle w w.modify) (ts : Option (List Nat))
    (ht : ∀ t, ts = some t → TargetsOk w root t) : ∃ r, Todo w root U ts (some r) := by
  obtain ⟨r, hr⟩ := phase_ends (counts := fun _ => true) hk.closedConfig hk h1
  by_cases hn : r.num = 0
  · obtain ⟨r', hr'⟩ := phase_ends (counts := w.isDir) hk.closedCreate hk h2
    by_cases hn' : r'.num = 0
    · cases ts with
      | none =>
        obtain ⟨r'', hr''⟩ := phase_ends (counts := w.isCmd) hk.closedModify hk h3
        exact ⟨_, .update hr hn hr' hn' hr''⟩
      | some t =>
        obtain ⟨r'', hr''⟩ := phase_ends_some hk.closedModify hk h3 (ht t rfl)
        exact ⟨_, .update hr hn hr' hn' hr''⟩
    · exact ⟨_, .create hr hn hr' hn'⟩
  · exact ⟨_, .config hr hn⟩

theorem behind_of_changed (hkept : ∀ x ∈ w.kept, w.isCmd x = true → x ∈ w.modify) {x : Nat} (hx : w.isCmd x = true)
    (h : Transient.Changed w.toDb x ∨ Transient.Wanted w.toDb x) : Behind w w.modify x := by
  rcases h with ⟨s, hs, hst⟩ | h
  · have hst' : Star (Linked w.toLinks) s x := by
      rcases hst with h | h
      · exact .inl h
      · exact .inr (h.mono fun a b hab => hab.1)
    rcases hs with hs | hs
    · exact ⟨s, hs.1, hst'⟩
    · by_cases hm : s ∈ w.modify
      · exact ⟨s, hm, hst'⟩
      · by_cases hc : w.isCmd s = true
        · exact absurd (hkept s hs hc) hm
        · exfalso
          have hpk : Transient.Parked w.toDb s := ⟨hs, by simpa using hc, hm⟩
          rcases hst with h | h
          · subst h; exact hc hx
          · have : ∃ y, Transient.Follows w.toDb s y := by
              clear hx hst'
              induction h with
              | one h => exact ⟨_, h⟩
              | tail _ _ ih => exact ih
            obtain ⟨y, hy⟩ := this
            exact hy.2 hpk
  · refine ⟨x, ?_, .inl rfl⟩
    cases h with
    | reached h => exact h.1
    | wanted h => exact h.1

/-- Every command that an update would have in its graph is shown, if phases 1 and 2 have nothing to do.  `hkept`: a command gets into the list of transient nodes together with the modify list
(src/tup/db.c:6416-6430). -/
theorem c82_covers (hk : Ok w root U) (hdb : Transient.DbOk w.toDb root U) (hkept : ∀ x ∈ w.kept, w.isCmd x = true → x ∈ w.modify) {ls : List Line} {m : List Nat}
    (h : Todo w root U none (some (ls, m))) (hc : ¬ ∃ x, Behind w w.config x) (hd : ¬ ∃ x, Behind w w.create x ∧ w.isDir x = true) {b : B} (hb : Transient.build w.toDb root U = .ok b) {x : Nat}
    (hx : w.isCmd x = true) (hxb : x ∈ b.nodeList) : .node x ∈ ls := by
  have hbe := behind_of_changed hkept hx ((Transient.c61_commands hdb hb hx).1 hxb)
  obtain ⟨l, e, _, hl⟩ := ((c82_shown hk h).2.2.2 hc hd).1 ⟨x, hbe, hx⟩
  rw [e]
  exact List.mem_append_left _ (List.mem_cons_of_mem _ (List.mem_map.2 ⟨x, (hl x).2 ⟨hbe, hx⟩, rfl⟩))

/-- Without transient commands the commands that are shown are exactly those of the update. -/
theorem c82_exact (hk : Ok w root U) (hdb : Transient.DbOk w.toDb root U) (hkept : w.kept = []) (htr : ∀ x, ¬ Transient.Waiting w.toDb x) {ls : List Line} {m : List Nat}
    (h : Todo w root U none (some (ls, m))) (hc : ¬ ∃ x, Behind w w.config x) (hd : ¬ ∃ x, Behind w w.create x ∧ w.isDir x = true) {b : B} (hb : Transient.build w.toDb root U = .ok b) (x : Nat) :
    .node x ∈ ls ↔ w.isCmd x = true ∧ x ∈ b.nodeList := by
  constructor
  · intro hx
    have hs := (c82_shown hk h).2.2.2 hc hd
    by_cases he : ∃ x, Behind w w.modify x ∧ w.isCmd x = true
    · obtain ⟨l, e, _, hl⟩ := hs.1 he
      have hxl : Behind w w.modify x ∧ w.isCmd x = true := by
        rw [e] at hx
        refine (hl x).1 ?_
        simpa using hx
      refine ⟨hxl.2, (Transient.c61_commands hdb hb hxl.2).2 (.inl ?_)⟩
      obtain ⟨⟨s, hs, hst⟩, _⟩ := hxl
      refine ⟨s, .inl ⟨hs, fun h => htr s ⟨hs, h⟩⟩, ?_⟩
      rcases hst with h | h
      · exact .inl h
      · refine .inr (h.mono fun a b hab => ⟨hab, fun hp => ?_⟩)
        have := hp.1
        rw [hkept] at this
        cases this
    · rw [hs.2 he] at hx
      cases List.mem_singleton.1 hx
  · rintro ⟨h1, h2⟩
    exact c82_covers hk hdb (by rw [hkept]; intro x hx; cases hx) h hc hd hb h1 h2

/-! ### Cases -/

/-- A database given by lists; the declared inputs are the links to commands. -/
def ofLists (links : List (Nat × Nat)) (cmds gens temps config create modify : List Nat) : World where
  toDb := Transient.ofLists links (links.filter fun p => decide (p.2 ∈ cmds)) cmds temps modify []
  config := config
  create := create
  inputs n := ((links.filter fun p => decide (p.2 = n)).map (·.1)).filter fun _ => decide (n ∈ cmds)
  isDir n := decide (n ∈ create)
  isFile n := decide (n ∉ cmds ∧ n ∉ gens ∧ n ∉ create)
  isGroup _ := false
  isGen n := decide (n ∈ gens)
  excl _ := false

variable {links : List (Nat × Nat)} {cmds gens temps config create modify : List Nat}

theorem linked_iff {a b : Nat} : Linked (ofLists links cmds gens temps config create modify).toLinks a b ↔ (a, b) ∈ links := by
  constructor
  · rintro (h | h)
    · exact Transient.mem_look.1 h
    · cases h
  · exact fun h => .inl (Transient.mem_look.2 h)

theorem input_mem {a b : Nat} (h : a ∈ (ofLists links cmds gens temps config create modify).inputs b) : (a, b) ∈ links := by
  simp only [ofLists, List.mem_filter, List.mem_map, decide_eq_true_eq] at h
  obtain ⟨⟨⟨x, y⟩, ⟨h1, h2⟩, h3⟩, _⟩ := h
  cases h2
  cases h3
  exact h1

theorem behind_in {l : List Nat} (S : List Nat) (h1 : ∀ n ∈ l, n ∈ S) (h2 : ∀ p ∈ links, p.1 ∈ S → p.2 ∈ S) {x : Nat} (h : Behind (ofLists links cmds gens temps config create modify) l x) : x ∈ S := by
  obtain ⟨s, hs, h | h⟩ := h
  · subst h; exact h1 _ hs
  · have key : ∀ {y}, Plus (Linked (ofLists links cmds gens temps config create modify).toLinks) s y → y ∈ S := by
      intro y h
      induction h with
      | one h => exact h2 _ (linked_iff.1 h) (h1 _ hs)
      | tail _ h ih => exact h2 _ (linked_iff.1 h) ih
    exact key h

theorem noCircle_of {l : List Nat} (h : ∀ p ∈ links, p.1 < p.2) : NoCircle (ofLists links cmds gens temps config create modify) l := by
  have h1 : ∀ {a b}, Leads (ofLists links cmds gens temps config create modify) l a b → a < b := by
    rintro a b ⟨_, _, q | ⟨_, q⟩⟩
    · exact h _ (linked_iff.1 q)
    · exact h _ (input_mem q)
  have h2 : ∀ {a b}, Plus (Leads (ofLists links cmds gens temps config create modify) l) a b → a < b := by
    intro a b h
    induction h with
    | one h => exact h1 h
    | tail _ h ih => exact Nat.lt_trans ih (h1 h)
  exact fun x hx => Nat.lt_irrefl x (h2 hx)

theorem ofLists_ok {U : List Nat} (h : (∀ n ∈ config, n ∈ U) ∧ (∀ n ∈ create, n ∈ U) ∧ (∀ n ∈ modify, n ∈ U) ∧ (∀ p ∈ links, p.2 ∈ U) ∧ 0 ∉ U ∧ U.Nodup ∧ modify.Nodup ∧ 0 ∉ cmds ∧ 0 ∉ gens ∧
    (∀ p ∈ links, p.1 ≠ 0) ∧ (∀ n ∈ gens, n ∉ cmds ∧ n ∉ create) ∧ (∀ p ∈ links, p.1 ∈ gens → p.2 ∉ gens)) (S : List Nat) (hS : (∀ n ∈ config, n ∈ S) ∧ (∀ p ∈ links, p.1 ∈ S → p.2 ∈ S) ∧ ∀ n ∈ S, n ∉ gens) :
    Ok (ofLists links cmds gens temps config create modify) 0 U := by
  obtain ⟨h1, h2, h3, h4, h5, h6, h7, h8, h9, h10, h11, h12⟩ := h
  refine ⟨h1, h2, h3, ?_, h5, h6, h7, ?_, ?_, ?_, ?_, ?_, ?_⟩
  · exact fun n _ m hm => h4 _ (linked_iff.1 hm)
  · simpa [ofLists, Transient.ofLists] using h8
  · simpa [ofLists] using h9
  · intro n hn
    exact h10 _ (input_mem hn) rfl
  · intro n hn
    have := h11 n (by simpa [ofLists] using hn)
    exact ⟨by simpa [ofLists, Transient.ofLists] using this.1, by simpa [ofLists] using this.2⟩
  · intro a b hab ha
    have := h12 _ (linked_iff.1 hab) (by simpa [ofLists] using ha)
    simpa [ofLists] using this
  · intro x hx
    have := hS.2.2 x (behind_in S hS.1 hS.2.1 hx)
    simpa [ofLists] using this

/-- The file 1 is an input of the command 2, which makes 3, an input of the command 4, which makes 5.  The file was changed. -/
def exW : World := ofLists [(1, 2), (2, 3), (3, 4), (4, 5)] [2, 4] [3, 5] [] [] [] [1]

theorem exW_ok : Ok exW 0 [1, 2, 3, 4, 5] := ofLists_ok (by decide) [] (by decide)

theorem exW_none : (¬ ∃ x, Behind exW exW.config x) ∧ ¬ ∃ x, Behind exW exW.create x ∧ exW.isDir x = true := by
  constructor
  · rintro ⟨x, s, hs, _⟩; cases hs
  · rintro ⟨x, ⟨s, hs, _⟩, _⟩; cases hs

theorem exW_behind : Behind exW exW.modify 2 ∧ Behind exW exW.modify 3 ∧ Behind exW exW.modify 4 := by
  have h2 : Plus (Linked exW.toLinks) 1 2 := .one (linked_iff.2 (by decide))
  have h3 : Plus (Linked exW.toLinks) 1 3 := .tail h2 (linked_iff.2 (by decide))
  have h4 : Plus (Linked exW.toLinks) 1 4 := .tail h3 (linked_iff.2 (by decide))
  exact ⟨⟨1, by decide, .inr h2⟩, ⟨1, by decide, .inr h3⟩, ⟨1, by decide, .inr h4⟩⟩

/-- The hypotheses of the theorems hold for it, and the commands are shown in their order. -/
example : ∃ ls m, Todo exW 0 [1, 2, 3, 4, 5] none (some (ls, m)) ∧ m = [1] ∧ .node 2 ∈ ls ∧ .node 4 ∈ ls ∧ (∃ u v t, ls = u ++ .node 2 :: v ++ .node 4 :: t) ∧ .upToDate ∉ ls := by
  obtain ⟨⟨ls, m⟩, h⟩ := c82_completes exW_ok (noCircle_of (by decide)) (noCircle_of (by decide)) (noCircle_of (by decide)) none (by intro t ht; cases ht)
  obtain ⟨hm, _, _, hs⟩ := c82_shown exW_ok h
  obtain ⟨l, e, _, hl⟩ := (hs exW_none.1 exW_none.2).1 ⟨2, exW_behind.1, by decide⟩
  have h2 : .node 2 ∈ ls := by rw [e]; simpa using (hl 2).2 ⟨exW_behind.1, by decide⟩
  have h4 : .node 4 ∈ ls := by rw [e]; simpa using (hl 4).2 ⟨exW_behind.2.2, by decide⟩
  refine ⟨ls, m, h, hm, h2, h4, ?_, by rw [e]; simp⟩
  refine c82_order exW_ok (by intro t ht; cases ht) h (by decide) (by decide) h2 h4 exW_none.1 exW_none.2 ?_
  exact .tail (.one ⟨exW_behind.1, exW_behind.2.1, .inl (linked_iff.2 (by decide))⟩) ⟨exW_behind.2.1, exW_behind.2.2, .inl (linked_iff.2 (by decide))⟩

theorem exW_db : Transient.DbOk exW.toDb 0 [1, 2, 3, 4, 5] := Transient.ofLists_ok (by decide)

/-- The hypotheses of `c82_exact` hold for it. -/
example : ∃ ls m b, Todo exW 0 [1, 2, 3, 4, 5] none (some (ls, m)) ∧ Transient.build exW.toDb 0 [1, 2, 3, 4, 5] = .ok b ∧ ∀ x, .node x ∈ ls ↔ exW.isCmd x = true ∧ x ∈ b.nodeList := by
  obtain ⟨⟨ls, m⟩, h⟩ := c82_completes exW_ok (noCircle_of (by decide)) (noCircle_of (by decide)) (noCircle_of (by decide)) none (by intro t ht; cases ht)
  refine ⟨ls, m, _, h, rfl, ?_⟩
  refine c82_exact exW_ok exW_db rfl ?_ h exW_none.1 exW_none.2 rfl
  rintro x ⟨_, _, hx⟩
  cases hx

theorem exW_targets : TargetsOk exW 0 [3] := by
  have hl : ∀ {a b}, Leads exW exW.modify a b → (a, b) ∈ [(1, 2), (2, 3), (3, 4), (4, 5)] := by
    rintro a b ⟨_, _, h | ⟨_, h⟩⟩
    · exact linked_iff.1 h
    · exact input_mem h
  refine ⟨?_, ?_, ?_, ?_⟩
  · intro t ht
    rw [List.mem_singleton.1 ht]
    exact exW_behind.2.1
  · intro c d h hc _ _
    have h1 := hl h
    simp only [List.mem_cons, Prod.mk.injEq, List.not_mem_nil, or_false] at h1
    rcases h1 with ⟨rfl, rfl⟩ | ⟨rfl, rfl⟩ | ⟨rfl, rfl⟩ | ⟨rfl, rfl⟩
    · exact absurd hc (by decide)
    · refine ⟨by decide, fun a ha => ?_⟩
      have := hl ha
      simp at this
      exact this
    · exact absurd hc (by decide)
    · refine ⟨by decide, fun a ha => ?_⟩
      have := hl ha
      simp at this
      exact this
  · intro a f h
    have h1 := hl h
    simp only [List.mem_cons, Prod.mk.injEq, List.not_mem_nil, or_false] at h1
    rcases h1 with ⟨_, rfl⟩ | ⟨_, rfl⟩ | ⟨_, rfl⟩ | ⟨_, rfl⟩ <;> decide
  · intro n hn
    cases hn

/-- `tup todo` with a name is not a mere question.  If 3 is named, 2 is shown and 4 is put into the modify list: the next update runs it, also if the new 3 is the same as the old one. -/
theorem c82_marks : ∃ ls m, Todo exW 0 [1, 2, 3, 4, 5] (some [3]) (some (ls, m)) ∧ .node 2 ∈ ls ∧ .node 4 ∉ ls ∧ 4 ∉ exW.modify ∧ 4 ∈ m := by
  obtain ⟨⟨ls, m⟩, h⟩ := c82_completes exW_ok (noCircle_of (by decide)) (noCircle_of (by decide)) (noCircle_of (by decide)) (some [3]) (by intro t ht; cases ht; exact exW_targets)
  obtain ⟨l, k, _, _, h3, h4, h5, h6⟩ := c82_named exW_ok exW_targets h exW_none.1 exW_none.2
  have hn : ¬ ∃ t ∈ [3], Star (Leads exW exW.modify) 4 t := by
    rintro ⟨t, ht, hst⟩
    rw [List.mem_singleton.1 ht] at hst
    rcases hst with h | h
    · cases h
    · have key : ∀ {y}, Plus (Leads exW exW.modify) 4 y → 4 < y := by
        have h1 : ∀ {a b}, Leads exW exW.modify a b → a < b := by
          intro a b hab
          exact Classical.byContradiction fun hlt => by
            have hq : ∀ p ∈ [(1, 2), (2, 3), (3, 4), (4, 5)], p.1 < p.2 := by decide
            rcases hab with ⟨_, _, q | ⟨_, q⟩⟩
            · exact hlt (hq _ (linked_iff.1 q))
            · exact hlt (hq _ (input_mem q))
        intro y hy
        induction hy with
        | one h => exact h1 h
        | tail _ h ih => exact Nat.lt_trans ih (h1 h)
      exact absurd (key h) (by decide)
  refine ⟨ls, m, h, ?_, ?_, by decide, (h6 4).2 (.inr ((h4 4).2 ⟨exW_behind.2.2, by decide, hn⟩))⟩
  · have : 2 ∈ l := (h3 2).2 ⟨exW_behind.1, by decide, 3, by decide, .inr (.one ⟨exW_behind.1, exW_behind.2.1, .inl (linked_iff.2 (by decide))⟩)⟩
    rw [h5]
    simp [this]
  · have : 4 ∉ l := fun h => hn ((h3 4).1 h).2.2
    rw [h5]
    simp only [List.mem_append, List.mem_map, Line.node.injEq, exists_eq_right, List.mem_singleton, this, or_false, not_or]
    refine ⟨⟨?_, ?_⟩, ?_⟩
    · split <;> simp
    · split <;> simp
    · split <;> simp

/-- The same commands after an update; 2 is transient, so that 3 does not exist any more, and the scan has put 2 into the modify list (`tup_db_modify_cmds_by_output`,
src/tup/create_name_file.c:428-470). -/
def trW : World := ofLists [(1, 2), (2, 3), (3, 4), (4, 5)] [2, 4] [3, 5] [2, 3] [] [] [2]

/-- The update has nothing to do.  `tup todo` nevertheless shows both commands, and never that everything is up to date. -/
theorem c82_transient : Ok trW 0 [1, 2, 3, 4, 5] ∧ Transient.DbOk trW.toDb 0 [1, 2, 3, 4, 5] ∧ (∃ b, Transient.build trW.toDb 0 [1, 2, 3, 4, 5] = .ok b ∧ b.nodeList = [0]) ∧
    (∃ r, Todo trW 0 [1, 2, 3, 4, 5] none (some r)) ∧ ∀ ls m, Todo trW 0 [1, 2, 3, 4, 5] none (some (ls, m)) → .node 2 ∈ ls ∧ .node 4 ∈ ls ∧ .commands 2 ∈ ls ∧ .upToDate ∉ ls := by
  have hok : Ok trW 0 [1, 2, 3, 4, 5] := ofLists_ok (by decide) [] (by decide)
  have h3 : Plus (Linked trW.toLinks) 2 3 := .one (linked_iff.2 (by decide))
  have h4 : Plus (Linked trW.toLinks) 2 4 := .tail h3 (linked_iff.2 (by decide))
  have hb2 : Behind trW trW.modify 2 := ⟨2, by decide, .inl rfl⟩
  have hb4 : Behind trW trW.modify 4 := ⟨2, by decide, .inr h4⟩
  refine ⟨hok, Transient.ofLists_ok (by decide), ⟨_, rfl, by decide⟩, c82_completes hok (noCircle_of (by decide)) (noCircle_of (by decide)) (noCircle_of (by decide)) none (by intro t ht; cases ht), ?_⟩
  intro ls m h
  obtain ⟨l, e, hn, hl⟩ := ((c82_shown hok h).2.2.2 (by rintro ⟨x, s, hs, _⟩; cases hs) (by rintro ⟨x, ⟨s, hs, _⟩, _⟩; cases hs)).1 ⟨2, hb2, by decide⟩
  have hm : ∀ x, x ∈ l ↔ x ∈ [2, 4] := by
    intro x
    rw [hl]
    constructor
    · rintro ⟨_, hx⟩
      exact of_decide_eq_true hx
    · intro hx
      simp only [List.mem_cons, List.not_mem_nil, or_false] at hx
      rcases hx with rfl | rfl
      · exact ⟨hb2, by decide⟩
      · exact ⟨hb4, by decide⟩
  have hlen := perm_length hn (by decide) hm
  rw [e, hlen]
  simp [hm]

end Tup.Todo
