import Verif.Logs.Model

/-! C95: the logs. -/

namespace Tup.Logs

theorem digits_inj {n m : Nat} (h : Nat.toDigits 10 n = Nat.toDigits 10 m) : n = m := by
  rw [← Nat.ofDigitChars_ten_toDigits (n := n), h, Nat.ofDigitChars_ten_toDigits]

theorem log_inj {name : Str} {n m : Nat} : getLog name n = getLog name m ↔ n = m := by
  unfold getLog
  constructor
  · intro h
    have := List.append_cancel_left h
    injection this with _ h2
    exact digits_inj h2
  · rintro rfl; rfl

/-- Three kinds of logs. -/
def Base (b : Str) : Prop := b = "debug.log".toList ∨ b = "create.dot".toList ∨ b = "update.dot".toList

theorem lits : ("debug.log".toList : Str) ≠ "create.dot".toList ∧ ("debug.log".toList : Str) ≠ "update.dot".toList ∧
    ("create.dot".toList : Str) ≠ "update.dot".toList ∧ ("debug.log.0".toList : Str) = "debug.log".toList ++ ['.', '0'] ∧
    ("create.dot".toList : Str) = "create".toList ++ ".dot".toList ∧ ("update.dot".toList : Str) = "update".toList ++ ".dot".toList := by
  decide +kernel

theorem heads : ("debug.log".toList : Str).head? = some 'd' ∧ ("create.dot".toList : Str).head? = some 'c' ∧
    ("update.dot".toList : Str).head? = some 'u' := by decide +kernel

theorem head_inj {x y z a b : Str} {p q r : Char} (hx : x.head? = some p) (hy : y.head? = some q) (hz : z.head? = some r)
    (hpq : p ≠ q) (hpr : p ≠ r) (hqr : q ≠ r) (ha : a = x ∨ a = y ∨ a = z) (hb : b = x ∨ b = y ∨ b = z) {n m : Nat}
    (h : getLog a n = getLog b m) : a = b := by
  have hh := congrArg List.head? h
  unfold getLog at hh
  rw [List.head?_append, List.head?_append, List.head?_cons, List.head?_cons] at hh
  clear h
  rcases ha with rfl | rfl | rfl <;> rcases hb with rfl | rfl | rfl <;> simp_all

theorem base_inj {a b : Str} {n m : Nat} (ha : Base a) (hb : Base b) (h : getLog a n = getLog b m) : a = b :=
  head_inj heads.1 heads.2.1 heads.2.2 (by decide) (by decide) (by decide) ha hb h

theorem renames_ok {bad : Str → Bool} {name : Str} (hb : ∀ m, bad m = false) (k : Nat) : ∀ f : Str → Option Nat, f (getLog name k) = none →
    (renames bad name k f).2 = true ∧ (renames bad name k f).1 (getLog name 0) = none ∧
      (∀ i, i < k → (renames bad name k f).1 (getLog name (i + 1)) = f (getLog name i)) ∧
      (∀ m, (∀ i, i ≤ k → m ≠ getLog name i) → (renames bad name k f).1 m = f m) := by
  induction k with
  | zero => intro f h; exact ⟨rfl, h, by simp, fun _ _ => rfl⟩
  | succ k ih =>
    intro f h
    have hne : getLog name k ≠ getLog name (k + 1) := fun he => by have := log_inj.1 he; omega
    rw [renames]
    have hr : ∃ g, rename bad f (getLog name k) (getLog name (k + 1)) = some g ∧ g (getLog name k) = none ∧
        g (getLog name (k + 1)) = f (getLog name k) ∧ ∀ m, m ≠ getLog name k → m ≠ getLog name (k + 1) → g m = f m := by
      unfold rename
      cases hf : f (getLog name k) with
      | none => exact ⟨f, rfl, hf, by rw [h], fun _ _ _ => rfl⟩
      | some c =>
        dsimp only
        rw [if_neg (by rw [hb]; decide)]
        refine ⟨_, rfl, ?_, ?_, fun m h1 h2 => ?_⟩
        · rw [if_neg hne, if_pos rfl]
        · rw [if_pos rfl]
        · rw [if_neg h2, if_neg h1]
    obtain ⟨g, hg, g1, g2, g3⟩ := hr
    rw [hg]
    dsimp only
    obtain ⟨r1, r2, r3, r4⟩ := ih g g1
    refine ⟨r1, r2, fun i hi => ?_, fun m hm => ?_⟩
    · by_cases hik : i = k
      · subst hik
        rw [r4 _ (fun j hj he => by have := log_inj.1 he; omega)]
        exact g2
      · rw [r3 i (by omega)]
        exact g3 _ (fun he => hik (log_inj.1 he)) (fun he => by have := log_inj.1 he; omega)
    · rw [r4 m fun i hi => hm i (by omega)]
      exact g3 m (hm k (by omega)) (hm (k + 1) (Nat.le_refl _))

/-- Rotating a log moves each file on by one and drops the last; no other file changes. -/
theorem c95_rotate {bad : Str → Bool} {name : Str} {d : Dir} (hb : ∀ m, bad m = false) (hd : d.there = true) :
    (rotate bad name d).2 = true ∧ (rotate bad name d).1.file (getLog name 0) = none ∧
      (∀ i, i < 19 → (rotate bad name d).1.file (getLog name (i + 1)) = d.file (getLog name i)) ∧
      (∀ m, (∀ i, i < 20 → m ≠ getLog name i) → (rotate bad name d).1.file m = d.file m) := by
  unfold rotate
  rw [if_pos hd]
  unfold unlink
  rw [if_neg (by rw [hb]; simp)]
  dsimp only
  obtain ⟨r1, r2, r3, r4⟩ := renames_ok hb (numLogs - 1) (fun m => if m = getLog name (numLogs - 1) then none else d.file m) (if_pos rfl)
  refine ⟨r1, r2, fun i hi => ?_, fun m hm => ?_⟩
  · rw [r3 i hi, if_neg]
    intro he
    have := log_inj.1 he
    simp only [numLogs] at this
    omega
  · rw [r4 m fun i hi => hm i (by simp only [numLogs] at hi; omega), if_neg (show m ≠ getLog name (numLogs - 1) from hm 19 (by omega))]

/-- What a run leaves of each kind. -/
def Run.left (r : Run) (b : Str) : Option Nat :=
  if b = "debug.log".toList then some r.log else if b = "create.dot".toList then r.create else r.update

/-- The files of the last runs, the newest first: with the number k, those of the k-th. -/
structure Kept (runs : List Run) (d : Dir) : Prop where
  there : runs ≠ [] → d.there = true
  file : ∀ b, Base b → ∀ k, d.file (getLog b k) = if k < 20 then (runs[k]?).bind fun r => r.left b else none

theorem enable_ok {bad : Str → Bool} {log : Nat} {d : Dir} (hb : ∀ m, bad m = false) (hd : d.there = true)
    (h20 : ∀ b, Base b → ∀ k, 20 ≤ k → d.file (getLog b k) = none) :
    (enable bad log d).2 = true ∧ (enable bad log d).1.there = true ∧
      ∀ b, Base b → (enable bad log d).1.file (getLog b 0) = (if b = "debug.log".toList then some log else none) ∧
        ∀ k, (enable bad log d).1.file (getLog b (k + 1)) = if k < 19 then d.file (getLog b k) else none := by
  have B1 : Base "debug.log".toList := .inl rfl
  have B2 : Base "create.dot".toList := .inr (.inl rfl)
  have B3 : Base "update.dot".toList := .inr (.inr rfl)
  obtain ⟨n12, n13, n23, hl0, hcr, hup⟩ := lits
  have hl0 : ("debug.log.0".toList : Str) = getLog "debug.log".toList 0 := hl0
  have hl0 : ("debug.log.0".toList : Str) = getLog "debug.log".toList 0 := by decide
  obtain ⟨a1, a2, a3, a4⟩ := c95_rotate (name := "debug.log".toList) hb hd
  have ht1 : (rotate bad "debug.log".toList d).1.there = true := by
    unfold rotate at a1 ⊢
    rw [if_pos hd] at a1 ⊢
    split at a1
    · exact hd
    · exact hd
  unfold enable
  generalize hr1 : rotate bad "debug.log".toList d = r1 at *
  obtain ⟨b1, b2, b3, b4⟩ := c95_rotate (name := "create.dot".toList) hb ht1
  have ht2 : (rotate bad "create.dot".toList r1.1).1.there = true := by
    unfold rotate at b1 ⊢
    rw [if_pos ht1] at b1 ⊢
    split at b1
    · exact ht1
    · exact ht1
  dsimp only
  rw [a1]
  simp only [Bool.not_true, Bool.false_eq_true, if_false]
  generalize hr2 : rotate bad "create.dot".toList r1.1 = r2 at *
  obtain ⟨c1, c2, c3, c4⟩ := c95_rotate (name := "update.dot".toList) hb ht2
  rw [b1]
  simp only [Bool.not_true, Bool.false_eq_true, if_false]
  generalize hr3 : rotate bad "update.dot".toList r2.1 = r3 at *
  rw [c1]
  simp only [Bool.not_true, Bool.false_eq_true, if_false]
  refine ⟨trivial, trivial, fun b hbb => ?_⟩
  have other : ∀ {x y : Str} (_ : Base x) (_ : Base y) (_ : x ≠ y) (k : Nat), ∀ i, i < 20 → getLog x k ≠ getLog y i :=
    fun hx hy hne k i _ he => hne (base_inj hx hy he)
  have far : ∀ {x : Str} (k : Nat), ∀ i, i < 20 → getLog x (k + 20) ≠ getLog x i := fun k i hi he => by
    have := log_inj.1 he; omega
  rw [hl0]
  rcases hbb with rfl | rfl | rfl
  · refine ⟨by rw [if_pos rfl, if_pos rfl], fun k => ?_⟩
    rw [if_neg (fun he => by have := log_inj.1 he; omega), c4 _ (other B1 B3 n13 _), b4 _ (other B1 B2 n12 _)]
    by_cases hk : k < 19
    · rw [if_pos hk, a3 k hk]
    · rw [if_neg hk]
      obtain ⟨j, rfl⟩ : ∃ j, k = j + 19 := ⟨k - 19, by omega⟩
      rw [a4 _ (far j), h20 _ B1 _ (by omega)]
  · refine ⟨by rw [if_neg (fun he => n12 (base_inj B1 B2 he.symm)), if_neg n12.symm, c4 _ (other B2 B3 n23 _), b2], fun k => ?_⟩
    rw [if_neg (fun he => n12 (base_inj B1 B2 he.symm)), c4 _ (other B2 B3 n23 _)]
    by_cases hk : k < 19
    · rw [if_pos hk, b3 k hk, a4 _ (other B2 B1 n12.symm _)]
    · rw [if_neg hk]
      obtain ⟨j, rfl⟩ : ∃ j, k = j + 19 := ⟨k - 19, by omega⟩
      rw [b4 _ (far j), a4 _ (other B2 B1 n12.symm _), h20 _ B2 _ (by omega)]
  · refine ⟨by rw [if_neg (fun he => n13 (base_inj B1 B3 he.symm)), if_neg n13.symm, c2], fun k => ?_⟩
    rw [if_neg (fun he => n13 (base_inj B1 B3 he.symm))]
    by_cases hk : k < 19
    · rw [if_pos hk, c3 k hk, b4 _ (other B3 B2 n23.symm _), a4 _ (other B3 B1 n13.symm _)]
    · rw [if_neg hk]
      obtain ⟨j, rfl⟩ : ∃ j, k = j + 19 := ⟨k - 19, by omega⟩
      rw [c4 _ (far j), b4 _ (other B3 B2 n23.symm _), a4 _ (other B3 B1 n13.symm _), h20 _ B3 _ (by omega)]

theorem graph_file {name : Str} {c : Nat} {d : Dir} {m : Str} :
    (logGraph name c true d).file m = if m = getLog (name ++ ".dot".toList) 0 then some c else d.file m := by
  unfold logGraph
  rw [if_pos rfl]
  have : name ++ ".dot.0".toList = getLog (name ++ ".dot".toList) 0 := by
    unfold getLog
    rw [List.append_assoc]
    rfl
  dsimp only
  rw [this]

theorem graph_there {name : Str} {c : Nat} {e : Bool} {d : Dir} : (logGraph name c e d).there = d.there := by
  unfold logGraph; split <;> rfl

theorem enable_first {bad : Str → Bool} {log : Nat} {d : Dir} (hd : d.there = false) :
    enable bad log d = (⟨true, fun m => if m = "debug.log.0".toList then some log else d.file m⟩, true) := by
  have hr : ∀ name, rotate bad name d = (d, true) := by
    intro name
    unfold rotate
    rw [if_neg (by rw [hd]; decide)]
  unfold enable
  rw [hr]
  dsimp only
  rw [hr]
  dsimp only
  rw [hr]
  rfl

theorem kept_step {bad : Str → Bool} {r : Run} {runs : List Run} {d : Dir} (hb : ∀ m, bad m = false) (hk : Kept runs d) : Kept (r :: runs) (r.go bad d) := by
  have B1 : Base "debug.log".toList := .inl rfl
  have B2 : Base "create.dot".toList := .inr (.inl rfl)
  have B3 : Base "update.dot".toList := .inr (.inr rfl)
  obtain ⟨n12, n13, n23, hl0, hcr, hup⟩ := lits
  have hl0 : ("debug.log.0".toList : Str) = getLog "debug.log".toList 0 := hl0
  -- after `enable`
  have he : (enable bad r.log d).2 = true ∧ (enable bad r.log d).1.there = true ∧
      ∀ b, Base b → (enable bad r.log d).1.file (getLog b 0) = (if b = "debug.log".toList then some r.log else none) ∧
        ∀ k, (enable bad r.log d).1.file (getLog b (k + 1)) = if k < 19 then d.file (getLog b k) else none := by
    cases hd : d.there with
    | true => exact enable_ok hb hd fun b hbb k hk20 => by rw [hk.file b hbb k, if_neg (by omega)]
    | false =>
      have hnil : runs = [] := by
        apply Classical.byContradiction
        intro hne
        rw [hk.there hne] at hd
        cases hd
      have hempty : ∀ b, Base b → ∀ k, d.file (getLog b k) = none := by
        intro b hbb k
        rw [hk.file b hbb k, hnil]
        simp
      rw [enable_first hd]
      refine ⟨rfl, rfl, fun b hbb => ?_⟩
      dsimp only
      rw [hl0]
      refine ⟨?_, fun k => ?_⟩
      · by_cases hbd : b = "debug.log".toList
        · rw [if_pos (by rw [hbd]), if_pos hbd]
        · rw [if_neg (fun h => hbd (base_inj hbb B1 h)), if_neg hbd, hempty b hbb]
      · rw [if_neg, hempty b hbb, hempty b hbb, ite_self]
        intro h
        have hbd := base_inj hbb B1 h
        rw [hbd] at h
        have := log_inj.1 h
        omega
  obtain ⟨e1, e2, e3⟩ := he
  -- after the graphs
  have hfile : ∀ b, Base b → ∀ k, (r.go bad d).file (getLog b k) =
      if k = 0 then r.left b else (enable bad r.log d).1.file (getLog b k) := by
    intro b hbb k
    have hgo : (r.go bad d).file (getLog b k) =
        if r.update.isSome ∧ getLog b k = getLog "update.dot".toList 0 then r.update
        else if r.create.isSome ∧ getLog b k = getLog "create.dot".toList 0 then r.create
        else (enable bad r.log d).1.file (getLog b k) := by
      unfold Run.go
      dsimp only
      rw [e1, hcr, hup]
      cases r.create <;> cases r.update <;> dsimp only <;> (repeat rw [graph_file]) <;> simp only [Option.isSome_some, Option.isSome_none, true_and, false_and, if_false, Bool.false_eq_true]
    rw [hgo]
    unfold Run.left
    rcases hbb with rfl | rfl | rfl
    · rw [if_neg (fun h => n13 (base_inj B1 B3 h.2)), if_neg (fun h => n12 (base_inj B1 B2 h.2)), if_pos rfl]
      by_cases hk0 : k = 0
      · rw [if_pos hk0, hk0, (e3 _ B1).1, if_pos rfl]
      · rw [if_neg hk0]
    · rw [if_neg (fun h => n23 (base_inj B2 B3 h.2)), if_neg n12.symm, if_pos rfl]
      by_cases hk0 : k = 0
      · rw [if_pos hk0, hk0, (e3 _ B2).1, if_neg n12.symm]
        cases r.create <;> simp
      · rw [if_neg hk0, if_neg (fun h => hk0 (log_inj.1 h.2))]
    · rw [if_neg n13.symm, if_neg n23.symm]
      by_cases hk0 : k = 0
      · rw [if_pos hk0, hk0, (e3 _ B3).1, if_neg n13.symm, if_neg (c := r.create.isSome = true ∧ _) (fun h => n23 (base_inj B2 B3 h.2.symm))]
        cases r.update <;> simp
      · rw [if_neg hk0, if_neg (fun h => hk0 (log_inj.1 h.2)), if_neg (fun h => n23 (base_inj B2 B3 h.2.symm))]
  refine ⟨fun _ => ?_, fun b hbb k => ?_⟩
  · unfold Run.go
    cases r.create <;> cases r.update <;> simp [graph_there, e2]
  · rw [hfile b hbb k]
    cases k with
    | zero => simp
    | succ k =>
      rw [if_neg (by omega), (e3 b hbb).2 k, List.getElem?_cons_succ]
      by_cases h19 : k < 19
      · rw [if_pos h19, if_pos (by omega), hk.file b hbb k, if_pos (by omega)]
      · rw [if_neg h19, if_neg (by omega)]

/-- All runs, the newest first, from a project with no logs. -/
def after (bad : Str → Bool) (d : Dir) : List Run → Dir
  | [] => d
  | r :: runs => r.go bad (after bad d runs)

/-- After any number of updates with logging, the files with the number k are those of the k-th last update, for all k below 20: the
log, and the graphs if that update came to them; there are no others. -/
theorem c95_runs {bad : Str → Bool} (hb : ∀ m, bad m = false) (runs : List Run) :
    ∀ b, Base b → ∀ k, (after bad ⟨false, fun _ => none⟩ runs).file (getLog b k) =
      if k < 20 then (runs[k]?).bind fun r => r.left b else none := by
  have : Kept runs (after bad ⟨false, fun _ => none⟩ runs) := by
    induction runs with
    | nil => exact ⟨fun h => absurd rfl h, fun b _ k => by simp [after]⟩
    | cons r runs ih => exact kept_step hb ih
  exact this.file

/-- If a graph cannot be moved, the log has been moved already and none is written, and from then on the numbers of logs and
graphs do not belong together. -/
theorem c95_stuck :
    let bad : Str → Bool := fun m => m = "create.dot.0".toList
    let d1 := (Run.mk 1 (some 10) none).go (fun _ => false) ⟨false, fun _ => none⟩
    let d2 := (Run.mk 2 (some 20) none).go bad d1
    let d3 := (Run.mk 3 (some 30) none).go (fun _ => false) d2
    d2.file "debug.log.1".toList = some 1 ∧ d2.file "create.dot.0".toList = some 10 ∧ d2.file "debug.log.0".toList = none ∧
      d3.file "debug.log.2".toList = some 1 ∧ d3.file "create.dot.1".toList = some 10 := by decide +kernel

theorem format_plain {args : List Nat} {s : Str} (h : '%' ∉ s) : ∀ rest, format args (s ++ rest) = (format args rest).map (s ++ ·) := by
  induction s with
  | nil => intro rest; cases h1 : format args rest <;> simp [h1]
  | cons c s ih =>
    intro rest
    have hc : c ≠ '%' := fun he => h (he ▸ List.mem_cons_self)
    have hs := ih fun hm => h (List.mem_cons_of_mem _ hm)
    rw [List.cons_append, format, hs rest]
    · cases format args rest <;> simp
    all_goals grind

/-- A graph is saved in the project if its path has no percent sign. -/
theorem c95_graph {pid count : Nat} {top name : Str} (ht : '%' ∉ top) (hn : '%' ∉ name) :
    graphFile pid count top name = some (top ++ "/.tup/log/".toList ++ name ++ ".dot.0".toList) := by
  unfold graphFile
  have h1 : '%' ∉ top ++ "/.tup/log/".toList ++ name ++ ".dot.0".toList := by
    simp only [List.mem_append, not_or]
    exact ⟨⟨⟨ht, by decide⟩, hn⟩, by decide⟩
  have := format_plain (args := [pid, count]) h1 []
  rw [List.append_nil] at this
  rw [this, format]
  simp

/-- If the path of the project has a percent sign and a letter other than i and d behind it, saving a graph is not defined; with i
the graph goes to another directory. -/
theorem c95_percent {pid count : Nat} {a b name : Str} {c : Char} (ha : '%' ∉ a) (hc : c ≠ '%' ∧ c ≠ 'i' ∧ c ≠ 'd') :
    graphFile pid count (a ++ '%' :: c :: b) name = none ∧
      ∀ f, graphFile pid count (a ++ '%' :: 'i' :: b) name = some f → ∃ t, f = a ++ Nat.toDigits 10 pid ++ t := by
  unfold graphFile
  constructor
  · simp only [List.append_assoc, List.cons_append]
    rw [format_plain ha, format]
    · rfl
    all_goals grind
  · intro f hf
    simp only [List.append_assoc, List.cons_append] at hf
    rw [format_plain ha, format] at hf
    cases h : format [count] (b ++ ("/.tup/log/".toList ++ (name ++ ".dot.0".toList))) with
    | none => rw [h] at hf; cases hf
    | some t =>
      rw [h] at hf
      simp only [Option.map_some, Option.some.injEq] at hf
      exact ⟨t, by rw [← hf, List.append_assoc]⟩

/-- Two percent signs in the path of the project become one: the graph goes to another directory. -/
theorem c95_double {pid count : Nat} {a b name : Str} (ha : '%' ∉ a) (hb : '%' ∉ b) (hn : '%' ∉ name) :
    graphFile pid count (a ++ '%' :: '%' :: b) name = some (a ++ '%' :: b ++ "/.tup/log/".toList ++ name ++ ".dot.0".toList) := by
  unfold graphFile
  simp only [List.append_assoc, List.cons_append]
  rw [format_plain ha, format]
  have h1 : '%' ∉ b ++ ("/.tup/log/".toList ++ (name ++ ".dot.0".toList)) := by
    simp only [List.mem_append, not_or]
    exact ⟨hb, by decide, hn, by decide⟩
  have := format_plain (args := [pid, count]) h1 []
  rw [List.append_nil] at this
  rw [this, format]
  simp

/-- If the oldest log is there and cannot be removed, no log is moved and nothing is logged. -/
theorem c95_unremovable {bad : Str → Bool} {log : Nat} {d : Dir} (hd : d.there = true)
    (hf : (d.file (getLog "debug.log".toList 19)).isSome = true) (hb : bad (getLog "debug.log".toList 19) = true) :
    enable bad log d = (d, false) := by
  have : rotate bad "debug.log".toList d = (d, false) := by
    unfold rotate
    rw [if_pos hd]
    have : unlink bad d.file (getLog "debug.log".toList (numLogs - 1)) = none := by
      unfold unlink
      rw [if_pos]
      rw [show numLogs - 1 = 19 from rfl, hf, hb]; rfl
    rw [this]
  unfold enable
  rw [this]
  rfl

/-! ### Cases -/

example : (after (fun _ => false) ⟨false, fun _ => none⟩ [⟨3, none, none⟩, ⟨2, some 20, some 21⟩, ⟨1, some 10, none⟩]).file "create.dot.1".toList = some 20 ∧
    (after (fun _ => false) ⟨false, fun _ => none⟩ [⟨3, none, none⟩, ⟨2, some 20, some 21⟩, ⟨1, some 10, none⟩]).file "create.dot.0".toList = none ∧
    (after (fun _ => false) ⟨false, fun _ => none⟩ [⟨3, none, none⟩, ⟨2, some 20, some 21⟩, ⟨1, some 10, none⟩]).file "debug.log.2".toList = some 1 := by
  decide +kernel

example : graphFile 77 0 "/home/u/p".toList "create".toList = some "/home/u/p/.tup/log/create.dot.0".toList ∧
    graphFile 77 0 "/home/u/100%i".toList "create".toList = some "/home/u/10077/.tup/log/create.dot.0".toList ∧
    graphFile 77 0 "/home/u/100%sure".toList "create".toList = none ∧
    graphFile 77 0 "/home/u/100%%".toList "create".toList = some "/home/u/100%/.tup/log/create.dot.0".toList := by decide +kernel

example : enable (fun m => m = "debug.log.19".toList) 5 ⟨true, fun m => if m = "debug.log.19".toList then some 1 else none⟩ =
    (⟨true, fun m => if m = "debug.log.19".toList then some 1 else none⟩, false) :=
  c95_unremovable rfl (by decide +kernel) (by decide +kernel)

end Tup.Logs
