import Verif.Cache.Sticky

/-! C71: the copies in memory are not to be seen. -/

namespace Tup.Cache

open Tup.Db (Kind)

/-- A table with the top directory 1, a directory 2 in it, a file 3 in that, and a file 4 at the top. -/
def exTab : Table :=
  { row := fun i =>
      if i = 1 then some { dir := 0, kind := .dir, name := ['.'] }
      else if i = 2 then some { dir := 1, kind := .dir, name := ['d'] }
      else if i = 3 then some { dir := 2, kind := .file, name := ['a'], mtime := (7, 8) }
      else if i = 4 then some { dir := 1, kind := .file, name := ['a'] }
      else none,
    top := 5 }

theorem exTab_row {i : Nat} {r : Row} (h : exTab.row i = some r) :
    (i = 1 ∧ r = { dir := 0, kind := .dir, name := ['.'] }) ∨ (i = 2 ∧ r = { dir := 1, kind := .dir, name := ['d'] }) ∨
    (i = 3 ∧ r = { dir := 2, kind := .file, name := ['a'], mtime := (7, 8) }) ∨ (i = 4 ∧ r = { dir := 1, kind := .file, name := ['a'] }) := by
  simp only [exTab] at h
  split at h
  · cases h; exact .inl ⟨by assumption, rfl⟩
  split at h
  · cases h; exact .inr (.inl ⟨by assumption, rfl⟩)
  split at h
  · cases h; exact .inr (.inr (.inl ⟨by assumption, rfl⟩))
  split at h
  · cases h; exact .inr (.inr (.inr ⟨by assumption, rfl⟩))
  · cases h

theorem exTab_sound : Sound exTab := by
  refine ⟨rfl, ?_, ?_, ?_, ?_⟩
  · intro i hi
    cases hr : exTab.row i with
    | none => rfl
    | some r =>
      have : exTab.top = 5 := rfl
      rcases exTab_row hr with h | h | h | h <;> omega
  · intro i j r q hi hj hd hn
    rcases exTab_row hi with ⟨rfl, rfl⟩ | ⟨rfl, rfl⟩ | ⟨rfl, rfl⟩ | ⟨rfl, rfl⟩ <;> rcases exTab_row hj with ⟨rfl, rfl⟩ | ⟨rfl, rfl⟩ | ⟨rfl, rfl⟩ | ⟨rfl, rfl⟩ <;>
      first | rfl | exact absurd hd (by decide) | exact absurd hn (by decide)
  · intro i r hi
    rcases exTab_row hi with ⟨rfl, rfl⟩ | ⟨rfl, rfl⟩ | ⟨rfl, rfl⟩ | ⟨rfl, rfl⟩ <;> simp [exTab]
  · intro i r hi
    rcases exTab_row hi with ⟨rfl, rfl⟩ | ⟨rfl, rfl⟩ | ⟨rfl, rfl⟩ | ⟨rfl, rfl⟩ <;> decide

/-- The outputs of some calls, and the rows that are there then. -/
def shown (x : Option (St × List (List (Nat × Row)))) : Option (List (List (Nat × Row)) × List (Option Row)) := x.map fun x => (x.2, (List.range 8).map x.1.tab.row)

/-- **C71.** After any calls, a call does to the table, and returns, what it would if there were only the table; and it fails only if the table allows nothing that it could do. -/
theorem c71_exact {s : St} (h : Reach s) {o : Op} (ho : Ok s.tab o) :
    match step s o with
    | some (s', out) => Does s.tab o s'.tab out
    | none => ∀ t' out, ¬ Does s.tab o t' out := by
  obtain ⟨h1, h2⟩ := reach_agree h
  have := good h1 h2 ho
  unfold Good at this
  cases hst : step s o with
  | none => rw [hst] at this; exact this
  | some x => rw [hst] at this; exact this.1

/-- A file is looked for, moved to where a new one is then made, and the names at both places are asked for again. -/
example : shown (run { tab := exTab } [.select 2 ['a'], .setName 3 ['b'] 1, .insert { dir := 2, kind := .file, name := ['a'] }, .select 2 ['a'], .select 1 ['b'], .delete 4, .select 1 ['a']]) =
    some ([[(3, { dir := 2, kind := .file, name := ['a'], mtime := (7, 8) })], [], [(5, { dir := 2, kind := .file, name := ['a'] })], [(5, { dir := 2, kind := .file, name := ['a'] })],
        [(3, { dir := 1, kind := .file, name := ['b'], mtime := (7, 8) })], [], []],
      [none, some { dir := 0, kind := .dir, name := ['.'] }, some { dir := 1, kind := .dir, name := ['d'] }, some { dir := 1, kind := .file, name := ['b'], mtime := (7, 8) }, none,
        some { dir := 2, kind := .file, name := ['a'] }, none, none]) := by decide +kernel

example : Reach { tab := exTab } ∧ Ok exTab (.setName 3 ['b'] 1) ∧ ¬ Ok exTab (.delete 2) := by
  refine ⟨.start exTab_sound, ⟨by decide, by decide⟩, ?_⟩
  rintro ⟨_, h⟩
  exact h 3 _ rfl rfl

/-- A name that is taken: the call fails. -/
example : (step { tab := exTab } (.setName 3 ['a'] 1)).isNone = true ∧ (step { tab := exTab } (.insert { dir := 1, kind := .cmd, name := ['d'] })).isNone = true := by decide +kernel

/-- **C71.** Every entry in memory is a copy of the row with its id, the directory of an entry has an entry too and leads to it under its name, and nothing else is to be found in a directory. -/
theorem c71_agree {s : St} (h : Reach s) {i : Nat} {e : Ent} (he : s.cache.ent i = some e) :
    (if i = 0 then e.row = rootRow else s.tab.row i = some e.row) ∧
    (e.row.dir ≠ 0 → findName s.cache e.row.dir e.row.name = some i) ∧
    (∀ n k, findName s.cache i n = some k → ∃ x, s.cache.ent k = some x ∧ x.row.name = n ∧ x.row.dir = i) := by
  obtain ⟨h1, h2⟩ := reach_agree h
  refine ⟨?_, ?_, ?_⟩
  · rcases h2.row i e he with ⟨g1, g2⟩ | ⟨g1, g2⟩
    · rw [if_pos g1]; exact g2
    · rw [if_neg g1]; exact g2
  · intro hd
    rcases h2.done i e he (fun h => h) with ⟨g, _⟩ | ⟨_, _, p, g4, g5⟩
    · exact absurd g hd
    · unfold findName
      rw [g4]
      simp only
      cases hf : p.kids.find? fun k => decide (k.1 = e.row.name) with
      | none =>
        have := List.find?_eq_none.1 hf _ g5
        simp at this
      | some k =>
        obtain ⟨n, k⟩ := k
        have hn := List.find?_some hf
        simp only [decide_eq_true_eq] at hn
        subst hn
        obtain ⟨_, f2, y, f3, f4, f5⟩ := h2.kid _ p _ k g4 (List.mem_of_find?_eq_some hf)
        have hk : s.tab.row k = some y.row := by
          rcases h2.row k y f3 with g | g
          · rw [g.2] at f5
            exact absurd f5.symm hd
          · exact g.2
        have hi : s.tab.row i = some e.row := by
          rcases h2.row i e he with g | g
          · rw [g.2] at hd
            exact absurd rfl hd
          · exact g.2
        show some k = some i
        rw [h1.unique k i y.row e.row hk hi f5 f4]
  · intro n k hf
    unfold findName at hf
    rw [he] at hf
    simp only at hf
    cases hx : e.kids.find? fun k => decide (k.1 = n) with
    | none => rw [hx] at hf; cases hf
    | some x =>
      rw [hx] at hf
      obtain ⟨m, j⟩ := x
      cases hf
      have hn := List.find?_some hx
      simp only [decide_eq_true_eq] at hn
      subst hn
      obtain ⟨_, _, y, f3, f4, f5⟩ := h2.kid i e _ j he (List.mem_of_find?_eq_some hx)
      exact ⟨y, f3, f4, f5⟩

/-- After a call there are entries, also for the directories. -/
example : ((step { tab := exTab } (.get 3)).map fun x => ((x.1.cache.ent 1).isSome, (x.1.cache.ent 2).isSome, (x.1.cache.ent 4).isSome, findName x.1.cache 2 ['a'], findName x.1.cache 1 ['a'])) =
    some (true, true, false, some 3, none) := by decide +kernel

/-- All the calls are ones that the callers make. -/
def AllOk : St → List Op → Prop
  | _, [] => True
  | s, o :: os => Ok s.tab o ∧ ∀ s' out, step s o = some (s', out) → AllOk s' os

/-- **C71.** What any calls return, and the table in the end, do not depend on what is in memory in the beginning; and so not on what was called before, as long as the table is the same. -/
theorem c71_invisible (os : List Op) {s1 s2 : St} (h1 : Reach s1) (h2 : Reach s2) (ht : s1.tab = s2.tab) (ho : AllOk s1 os) :
    (run s1 os).map (fun x => (x.1.tab, x.2)) = (run s2 os).map (fun x => (x.1.tab, x.2)) := by
  induction os generalizing s1 s2 with
  | nil =>
    show some (s1.tab, []) = some (s2.tab, [])
    rw [ht]
  | cons o os ih =>
    have h := same_step (reach_agree h1) (reach_agree h2) ht ho.1
    simp only [run]
    cases e1 : step s1 o with
    | none =>
      rw [e1] at h
      cases e2 : step s2 o with
      | none => rfl
      | some x => rw [e2] at h; cases h
    | some x =>
      rw [e1] at h
      cases e2 : step s2 o with
      | none => rw [e2] at h; cases h
      | some y =>
        rw [e2] at h
        obtain ⟨s1', out1⟩ := x
        obtain ⟨s2', out2⟩ := y
        obtain ⟨g1, g2⟩ := Prod.mk.inj (Option.some.inj h)
        simp only at g1 g2
        subst g2
        have hi := ih (h1.step ho.1 e1) (h2.step (by rw [← ht]; exact ho.1) e2) g1 (ho.2 _ _ e1)
        simp only
        cases r1 : run s1' os with
        | none =>
          rw [r1] at hi
          cases r2 : run s2' os with
          | none => rfl
          | some y => rw [r2] at hi; cases hi
        | some x =>
          rw [r1] at hi
          cases r2 : run s2' os with
          | none => rw [r2] at hi; cases hi
          | some y =>
            rw [r2] at hi
            obtain ⟨k1, k2⟩ := Prod.mk.inj (Option.some.inj hi)
            show some (x.1.tab, out1 :: x.2) = some (y.1.tab, out1 :: y.2)
            rw [k1, k2]

/-- **C71.** A process that ends and another that goes on, at any place, change nothing of what the calls return. -/
theorem c71_restart (os : List Op) {s : St} (h : Reach s) (ho : AllOk s os) : (run s os).map (fun x => (x.1.tab, x.2)) = (run { tab := s.tab } os).map (fun x => (x.1.tab, x.2)) :=
  c71_invisible os h (.start (reach_agree h).1) rfl ho

/-- All is loaded, or only what is asked for. -/
example : shown (run { tab := exTab } [.load, .glob 1 (fun _ => true) (fun _ => true) (fun _ => false)]) = shown (run { tab := exTab } [.restart, .glob 1 (fun _ => true) (fun _ => true) (fun _ => false)]) ∧
    (run { tab := exTab } [.glob 1 (fun _ => true) (fun n => decide (n ≠ ['d'])) (fun _ => false)]).map (fun x => x.2) = some [[(4, { dir := 1, kind := .file, name := ['a'] })]] := by decide +kernel

/-- What `Ok` asks for is needed: a time after January 2038 comes back as another one from a process that reads it with `tup_db_fill_tup_entry`, but as it was from one that has it in memory. -/
theorem c71_year_2038 :
    (run { tab := exTab } [.setMtime 3 (2147483648, 0), .get 3]).map (fun x => x.2.map fun l => l.map fun y => y.2.mtime.1) = some [[], [2147483648]] ∧
    (run { tab := exTab } [.setMtime 3 (2147483648, 0), .restart, .get 3]).map (fun x => x.2.map fun l => l.map fun y => y.2.mtime.1) = some [[], [], [-2147483648]] ∧
    (run { tab := exTab } [.setMtime 3 (2147483648, 0), .restart, .glob 2 (fun _ => true) (fun _ => true) (fun _ => false)]).map (fun x => x.2.map fun l => l.map fun y => y.2.mtime.1) =
      some [[], [], [2147483648]] := by decide +kernel

/-- `tup_db_rollback` (src/tup/db.c:815-838) changes the table and leaves the entries alone; if the process went on, it would see a file that is not there. -/
theorem c71_rollback : ((step { tab := exTab } (.insert { dir := 2, kind := .file, name := ['n'] })).map fun x =>
      ((step { x.1 with tab := exTab } (.select 2 ['n'])).map fun y => y.2.map Prod.fst, (step { tab := exTab } (.select 2 ['n'])).map fun y => y.2.map Prod.fst)) =
    some (some [5], some []) := by decide +kernel

/-- **C71.** Whatever links are inserted and removed, nodes deleted and entries dropped: the inputs that are returned for a command are those in the table at that moment. -/
theorem c71_inputs {link : Nat → List Nat} {group : Nat → Bool} {os : List SOp} {s : Sticky} {out : List (List Nat × List Nat)}
    (h : srun { link := link, group := group } os = some (s, out)) : out = inputs group link os :=
  (srun_fresh os ⟨Nat.one_pos, fun _ => Nat.zero_le _, fun b hb => by cases hb⟩ h).2

/-- Inputs are asked for, changed by the command and by the deletion of an input, and asked for again. -/
example : (srun { link := fun b => if b = 9 then [3, 2] else [], group := fun a => decide (a = 4) } [.get 9, .insert 4 9, .get 9, .remove 3 9, .get 9, .clear 2, .get 9, .forget 9, .get 9]).map (fun x => x.2) =
    some [([3, 2], []), ([4, 3, 2], [4]), ([4, 2], [4]), ([4], [4]), ([4], [4])] := by decide +kernel

/-- **C71.** A link that is not there yet, between two nodes, is inserted, unless the command has a copy of its inputs that is from before the deletion of a node. -/
theorem c71_insert {link : Nat → List Nat} {group : Nat → Bool} {os : List SOp} {s : Sticky} {out : List (List Nat × List Nat)}
    (h : srun { link := link, group := group } os = some (s, out)) {a b : Nat} (hab : a ≠ b) (ha : a ≠ 0) (hb : b ≠ 0) (hl : a ∉ s.link b) :
    (s.got b = 0 ∨ s.got b = s.count → ∃ s', sstep s (.insert a b) = some (s', []) ∧ s'.link b = a :: s.link b ∧ ∀ x, x ≠ b → s'.link x = s.link x) := by
  have hf := (srun_fresh os (s := { link := link, group := group }) ⟨Nat.one_pos, fun _ => Nat.zero_le _, fun b hb => by cases hb⟩ h).1
  intro hg
  simp only [sstep]
  rw [if_neg (by rintro (h | h | h) <;> contradiction), if_neg hl]
  by_cases h0 : s.got b = 0
  · rw [if_pos h0]
    exact ⟨_, rfl, put_same _ _ _, fun x hx => put_ne _ _ hx⟩
  · rw [if_neg h0]
    obtain ⟨h1, h2⟩ := hf.kept b (hg.resolve_left h0)
    have t1 : treeAdd (s.kept b) a = some (a :: s.kept b) := by
      unfold treeAdd
      rw [h1, if_neg hl]
    have t2 : treeAdd (s.keptGroups b) a = some (a :: s.keptGroups b) := by
      unfold treeAdd
      rw [h2, if_neg fun hx => hl (List.mem_filter.1 hx).1]
    rw [t1]
    simp only
    split
    · rw [t2]
      exact ⟨_, rfl, put_same _ _ _, fun x hx => put_ne _ _ hx⟩
    · exact ⟨_, rfl, put_same _ _ _, fun x hx => put_ne _ _ hx⟩

/-- The copy is from before: node 2 is deleted, its id is given to a new node, and the link from that one cannot be inserted though it is not in the table. -/
theorem c71_old_copy :
    ((srun { link := fun b => if b = 9 then [2] else [], group := fun _ => false } [.get 9, .clear 2]).map fun x => (x.1.link 9, (sstep x.1 (.insert 2 9)).isNone)) = some ([], true) ∧
    (srun { link := fun b => if b = 9 then [2] else [], group := fun _ => false } [.get 9, .clear 2, .get 9, .insert 2 9, .get 9]).map (fun x => x.2) = some [([2], []), ([], []), ([2], [])] := by
  decide +kernel

end Tup.Cache
