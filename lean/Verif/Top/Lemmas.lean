import Verif.Top.Spec

/-! Lemmas for C88. -/

namespace Tup.Top

open Tup (Str)

/-! ### where tup looks -/

theorem looked_nil {p : Dir} : Looked [] p ↔ p = [] :=
  ⟨fun ⟨r, e, _⟩ => (List.append_eq_nil_iff.mp e.symm).2, fun e => ⟨[], by rw [e]; rfl, fun _ => rfl⟩⟩

theorem looked_cons {c : Str} {d p : Dir} : Looked (c :: d) p ↔ p = c :: d ∨ (d ≠ [] ∧ Looked d p) := by
  constructor
  · rintro ⟨r, e, h⟩
    cases r with
    | nil => exact Or.inl e.symm
    | cons x r =>
      injection e with _ e
      refine Or.inr ⟨fun hd => ?_, r, e, fun hp => ?_⟩
      · rw [hd] at e
        have := h (List.append_eq_nil_iff.mp e.symm).2
        cases this
      · cases h hp
  · rintro (rfl | ⟨hd, r, e, h⟩)
    · exact ⟨[], rfl, fun h => h⟩
    · exact ⟨c :: r, by rw [e]; rfl, fun hp => absurd (h hp) hd⟩

theorem project_looked {w : World} {d p : Dir} (h : Project w d p) : Looked d p ∧ w.tup p = true := by
  obtain ⟨r, e, h1, h2, _⟩ := h
  exact ⟨⟨r, e, h1⟩, h2⟩

theorem project_here {w : World} {d : Dir} (h : w.tup d = true) : Project w d d :=
  ⟨[], rfl, fun e => e, h, fun r1 r2 e hr => absurd (List.append_eq_nil_iff.mp e.symm).2 hr⟩

theorem project_up {w : World} {c : Str} {d p : Dir} (hd : d ≠ []) (hc : w.tup (c :: d) = false) (h : Project w d p) : Project w (c :: d) p := by
  obtain ⟨r, e, h1, h2, h3⟩ := h
  refine ⟨c :: r, by rw [e]; rfl, fun hp => absurd (h1 hp) hd, h2, fun r1 r2 er hr => ?_⟩
  cases r1 with
  | nil =>
    have : r2 = c :: r := er.symm
    rw [this]
    show w.tup (c :: (r ++ p)) = false
    rw [← e]
    exact hc
  | cons x r1 =>
    injection er with _ er
    exact h3 r1 r2 er hr

/-- There is a project, or tup looks at no directory with `.tup`. -/
theorem project_or {w : World} : ∀ d : Dir, (∃ p, Project w d p) ∨ ∀ p, Looked d p → w.tup p = false
  | [] => by
    cases h : w.tup [] with
    | true => exact Or.inl ⟨[], project_here h⟩
    | false => exact Or.inr fun p hp => by rw [looked_nil.mp hp]; exact h
  | c :: d => by
    cases h : w.tup (c :: d) with
    | true => exact Or.inl ⟨_, project_here h⟩
    | false =>
      by_cases hd : d = []
      · refine Or.inr fun p hp => ?_
        rcases looked_cons.mp hp with rfl | ⟨h1, _⟩
        · exact h
        · exact absurd hd h1
      · rcases project_or (w := w) d with ⟨p, hp⟩ | hp
        · exact Or.inl ⟨p, project_up hd h hp⟩
        · refine Or.inr fun p hp1 => ?_
          rcases looked_cons.mp hp1 with rfl | ⟨_, h1⟩
          · exact h
          · exact hp p h1

/-! ### paths -/

theorem slashed_append : ∀ (r q : Dir), slashed (r ++ q) = slashed q ++ slashed r
  | [], q => by simp [slashed]
  | c :: r, q => by
    show slashed (r ++ q) ++ '/' :: c = _
    rw [slashed_append r q]
    show _ = slashed q ++ (slashed r ++ '/' :: c)
    rw [List.append_assoc]

theorem join_append : ∀ (l : List Str) (c : Str), l ≠ [] → join (l ++ [c]) = join l ++ '/' :: c
  | [], _, h => absurd rfl h
  | [a], c, _ => rfl
  | a :: b :: l, c, _ => by
    show a ++ '/' :: join ((b :: l) ++ [c]) = (a ++ '/' :: join (b :: l)) ++ '/' :: c
    rw [join_append (b :: l) c (by simp)]
    simp

theorem slashed_join : ∀ r : Dir, r ≠ [] → slashed r = '/' :: join r.reverse
  | [], h => absurd rfl h
  | [c], _ => rfl
  | c :: d :: r, _ => by
    show slashed (d :: r) ++ '/' :: c = _
    rw [slashed_join (d :: r) (by simp), List.reverse_cons (a := c), join_append _ _ (by simp)]
    rfl

theorem back_spec {a c rest : Str} (hc : '/' ∉ c) : ∀ (k : Nat) (sub : Int), k ≤ c.length → back (a ++ '/' :: (c ++ rest)) (a.length + 1 + k) sub = (a.length, sub + k + 1)
  | 0, sub, _ => by
    show (if (a ++ '/' :: (c ++ rest))[a.length]? = some '/' then _ else _) = _
    rw [List.getElem?_append_right (Nat.le_refl _), Nat.sub_self]
    simp
  | k + 1, sub, hk => by
    show (if (a ++ '/' :: (c ++ rest))[a.length + 1 + k]? = some '/' then _ else _) = _
    have : (a ++ '/' :: (c ++ rest))[a.length + 1 + k]? = c[k]? := by
      rw [List.getElem?_append_right (by omega), show a.length + 1 + k - a.length = k + 1 from by omega]
      show (c ++ rest)[k]? = _
      exact List.getElem?_append_left (by omega)
    rw [this, if_neg (fun h => hc (List.mem_of_getElem? h))]
    show back _ (a.length + 1 + k) (sub + 1) = _
    rw [back_spec hc k (sub + 1) (by omega)]
    simp only [Prod.mk.injEq, true_and]
    omega

/-- What `find` gives for a project. -/
def foundAt (d r p : Dir) : Found := ⟨p, getcwd d, (getcwd p).length, (getcwd p).length + (if r = [] then 0 else 1), (join r.reverse).length⟩

theorem lead {r : Dir} (h : DirOk r) (hr : r ≠ []) : ((slashed r).takeWhile (· = '/')).length = 1 := by
  rw [slashed_join r hr]
  cases hx : r.reverse with
  | nil => exact absurd (List.reverse_eq_nil_iff.mp hx) hr
  | cons x l =>
    have hm : x ∈ r := by
      rw [← List.mem_reverse, hx]
      exact List.mem_cons_self
    obtain ⟨h1, h2, _⟩ := h x hm
    cases x with
    | nil => exact absurd rfl h1
    | cons y x =>
      have hy : y ≠ '/' := fun e => h2 (by rw [e]; exact List.mem_cons_self)
      cases l with
      | nil => simp [join, hy]
      | cons z l => simp [join, hy]

theorem findLoop_spec {w : World} : ∀ (p r : Dir) (n : Nat), p ≠ [] → DirOk (r ++ p) → p.length < n →
    (∃ r1 q, p = r1 ++ q ∧ Project w p q ∧ findLoop w (slashed (r ++ p)) n p (slashed p).length (slashed r).length = .found (foundAt (r ++ p) (r ++ r1) q))
    ∨ ((∀ q, Looked p q → w.tup q = false) ∧ findLoop w (slashed (r ++ p)) n p (slashed p).length (slashed r).length = .notFound)
  | [], _, _, h, _, _ => absurd rfl h
  | c :: p, r, n + 1, _, ok, hn => by
    have hc : '/' ∉ c := (ok c (by simp)).2.1
    cases ht : w.tup (c :: p) with
    | true =>
      refine Or.inl ⟨[], c :: p, rfl, project_here ht, ?_⟩
      unfold findLoop
      rw [if_pos ht]
      have e1 : (slashed (r ++ c :: p)).drop (slashed (c :: p)).length = slashed r := by
        rw [slashed_append, List.drop_left]
      have okr : DirOk r := fun x hx => ok x (List.mem_append_left _ hx)
      dsimp only
      rw [e1]
      have g1 : getcwd (r ++ c :: p) = slashed (r ++ c :: p) := if_neg (by simp)
      have g2 : getcwd (c :: p) = slashed (c :: p) := if_neg (by simp)
      unfold foundAt
      rw [g1, g2, List.append_nil]
      by_cases hr : r = []
      · subst hr
        rfl
      · rw [lead okr hr, if_neg hr, slashed_join r hr]
        simp
    | false =>
      have e2 : slashed (r ++ c :: p) = slashed p ++ '/' :: (c ++ slashed r) := by
        rw [slashed_append]
        simp [slashed]
      have e3 : back (slashed (r ++ c :: p)) (slashed (c :: p)).length (slashed r).length = ((slashed p).length, ((slashed (r ++ [c])).length : Int)) := by
        rw [e2, show (slashed (c :: p)).length = (slashed p).length + 1 + c.length from by simp [slashed]; omega, back_spec hc _ _ (Nat.le_refl _)]
        rw [slashed_append]
        simp [slashed]
        omega
      unfold findLoop
      rw [if_neg (by rw [ht]; simp)]
      dsimp only
      rw [e3]
      dsimp only
      by_cases hp : p = []
      · subst hp
        refine Or.inr ⟨fun q hq => ?_, if_pos rfl⟩
        rcases looked_cons.mp hq with rfl | ⟨h1, _⟩
        · exact ht
        · exact absurd rfl h1
      · have hl : (slashed p).length ≠ 0 := by
          rw [slashed_join p hp]
          simp
        rw [if_neg hl]
        have e4 : r ++ c :: p = (r ++ [c]) ++ p := by simp
        rw [e4]
        rw [e4] at ok
        rcases findLoop_spec (w := w) p (r ++ [c]) n hp ok (by simpa using hn) with ⟨r1, q, e5, h1, h2⟩ | ⟨h1, h2⟩
        · refine Or.inl ⟨c :: r1, q, by rw [e5]; rfl, project_up hp ht h1, ?_⟩
          have e6 : r ++ c :: r1 = (r ++ [c]) ++ r1 := by simp
          rw [e6]
          exact h2
        · refine Or.inr ⟨fun q hq => ?_, h2⟩
          rcases looked_cons.mp hq with rfl | ⟨_, h3⟩
          · exact ht
          · exact h1 q h3

theorem length_le_slashed : ∀ d : Dir, d.length ≤ (slashed d).length
  | [] => Nat.le_refl _
  | c :: d => by
    have := length_le_slashed d
    simp [slashed]
    omega

theorem find_spec {w : World} {d : Dir} (ok : DirOk d) :
    (∃ r p, d = r ++ p ∧ Project w d p ∧ find w d = .found (foundAt d r p)) ∨ ((∀ p, Looked d p → w.tup p = false) ∧ find w d = .notFound) := by
  by_cases hd : d = []
  · subst hd
    cases ht : w.tup [] with
    | true =>
      refine Or.inl ⟨[], [], rfl, project_here ht, ?_⟩
      unfold find findLoop
      rw [if_pos ht]
      rfl
    | false =>
      refine Or.inr ⟨fun p hp => by rw [looked_nil.mp hp]; exact ht, ?_⟩
      unfold find findLoop
      rw [if_neg (by rw [ht]; simp)]
      rfl
  · have g : getcwd d = slashed d := if_neg hd
    unfold find
    rw [g]
    have := length_le_slashed d
    rcases findLoop_spec (w := w) d [] ((slashed d).length + 1) hd ok (by omega) with ⟨r, p, e, h1, h2⟩ | ⟨h1, h2⟩
    · exact Or.inl ⟨r, p, e, h1, h2⟩
    · exact Or.inr ⟨h1, h2⟩

/-- There is only one project. -/
theorem project_unique {w : World} {d p q : Dir} (hp : Project w d p) (hq : Project w d q) : p = q := by
  obtain ⟨r, e, _, t, h⟩ := hp
  obtain ⟨r', e', _, t', h'⟩ := hq
  rw [e] at e'
  rcases List.append_eq_append_iff.mp e' with ⟨u, h1, h2⟩ | ⟨u, h1, h2⟩
  · cases u with
    | nil => exact h2
    | cons x u =>
      have := h' r (x :: u) h1 (by simp)
      rw [← h2, t] at this
      cases this
  · cases u with
    | nil => exact h2.symm
    | cons x u =>
      have := h r' (x :: u) h1 (by simp)
      rw [← h2, t'] at this
      cases this

/-! ### Tupfile.ini -/

theorem iniLoop_tup {w : World} : ∀ (d : Dir) (best : Option Dir), ((iniLoop w d best).2 = true ↔ ∃ p, Looked d p ∧ w.tup p = true)
  | [], best => by
    show w.tup [] = true ↔ _
    exact ⟨fun h => ⟨[], looked_nil.mpr rfl, h⟩, fun ⟨p, h1, h2⟩ => by rw [← looked_nil.mp h1]; exact h2⟩
  | c :: d, best => by
    unfold iniLoop
    dsimp only
    cases ht : w.tup (c :: d) with
    | true =>
      rw [if_pos rfl]
      exact ⟨fun _ => ⟨_, looked_cons.mpr (Or.inl rfl), ht⟩, fun _ => rfl⟩
    | false =>
      rw [if_neg (by simp)]
      by_cases hd : d = []
      · rw [if_pos hd]
        refine ⟨fun h => (by cases h), fun ⟨p, h1, h2⟩ => ?_⟩
        rcases looked_cons.mp h1 with rfl | ⟨h, _⟩
        · rw [ht] at h2; cases h2
        · exact absurd hd h
      · rw [if_neg hd, iniLoop_tup d _]
        constructor
        · rintro ⟨p, h1, h2⟩
          exact ⟨p, looked_cons.mpr (Or.inr ⟨hd, h1⟩), h2⟩
        · rintro ⟨p, h1, h2⟩
          rcases looked_cons.mp h1 with rfl | ⟨_, h⟩
          · rw [ht] at h2; cases h2
          · exact ⟨p, h, h2⟩

theorem looked_self (d : Dir) : Looked d d := ⟨[], rfl, fun h => h⟩

theorem iniLoop_ini {w : World} : ∀ (d : Dir) (best : Option Dir), (∀ p, Looked d p → w.tup p = false) →
    (∃ p, TopIni w d p ∧ (iniLoop w d best).1 = some p) ∨ ((∀ p, Looked d p → w.ini p = false) ∧ (iniLoop w d best).1 = best)
  | [], best, _ => by
    cases hi : w.ini [] with
    | true =>
      refine Or.inl ⟨[], ⟨looked_self _, hi, fun q hq hn => absurd (looked_nil.mp hq) hn⟩, ?_⟩
      show (if w.ini [] then _ else _) = _
      rw [if_pos hi]
    | false =>
      refine Or.inr ⟨fun p hp => by rw [looked_nil.mp hp]; exact hi, ?_⟩
      show (if w.ini [] then _ else _) = _
      rw [if_neg (by rw [hi]; simp)]
  | c :: d, best, ht => by
    unfold iniLoop
    dsimp only
    rw [if_neg (by rw [ht _ (looked_self _)]; simp)]
    by_cases hd : d = []
    · rw [if_pos hd]
      cases hi : w.ini (c :: d) with
      | true =>
        refine Or.inl ⟨c :: d, ⟨looked_self _, hi, fun q hq hn => ?_⟩, rfl⟩
        rcases looked_cons.mp hq with h | ⟨h, _⟩
        · exact absurd h hn
        · exact absurd hd h
      | false =>
        refine Or.inr ⟨fun p hp => ?_, rfl⟩
        rcases looked_cons.mp hp with rfl | ⟨h, _⟩
        · exact hi
        · exact absurd hd h
    · rw [if_neg hd]
      rcases iniLoop_ini (w := w) d (if w.ini (c :: d) = true then some (c :: d) else best) (fun p hp => ht p (looked_cons.mpr (Or.inr ⟨hd, hp⟩))) with ⟨p, ⟨h1, h2, h3⟩, h4⟩ | ⟨h1, h2⟩
      · exact Or.inl ⟨p, ⟨looked_cons.mpr (Or.inr ⟨hd, h1⟩), h2, h3⟩, h4⟩
      · cases hi : w.ini (c :: d) with
        | true =>
          rw [hi] at h2
          refine Or.inl ⟨c :: d, ⟨looked_self _, hi, fun q hq hn => ?_⟩, h2⟩
          rcases looked_cons.mp hq with h | ⟨_, h⟩
          · exact absurd h hn
          · exact h1 q h
        | false =>
          rw [hi] at h2
          refine Or.inr ⟨fun p hp => ?_, h2⟩
          rcases looked_cons.mp hp with rfl | ⟨_, h⟩
          · exact hi
          · exact h1 p h

/-! ### directories that are made -/

theorem split_name {c : Str} (h : '/' ∉ c) : split c = [c] := by
  induction c with
  | nil => rfl
  | cons x c ih =>
    have hx : x ≠ '/' := fun e => h (by rw [e]; exact List.mem_cons_self)
    unfold split
    rw [if_neg hx, ih fun e => h (List.mem_cons_of_mem _ e)]

theorem split_slash {c s : Str} (h : '/' ∉ c) : split (c ++ '/' :: s) = c :: split s := by
  induction c with
  | nil =>
    show (if '/' = '/' then _ else _) = _
    rw [if_pos rfl]
  | cons x c ih =>
    have hx : x ≠ '/' := fun e => h (by rw [e]; exact List.mem_cons_self)
    have : split (x :: (c ++ '/' :: s)) = (match split (c ++ '/' :: s) with | [] => [[x]] | y :: l => (x :: y) :: l) := if_neg hx
    show split (x :: (c ++ '/' :: s)) = _
    rw [this, ih fun e => h (List.mem_cons_of_mem _ e)]

theorem split_join : ∀ {l : List Str}, l ≠ [] → (∀ c, c ∈ l → '/' ∉ c) → split (join l) = l
  | [], h, _ => absurd rfl h
  | [c], _, h => split_name (h c List.mem_cons_self)
  | c :: d :: l, _, h => by
    show split (c ++ '/' :: join (d :: l)) = _
    rw [split_slash (h c List.mem_cons_self), split_join (by simp) (fun x hx => h x (List.mem_cons_of_mem _ hx))]

theorem prefixes_name {c : Str} (h : '/' ∉ c) : prefixes c = [c] := by
  induction c with
  | nil => rfl
  | cons x c ih =>
    have hx : x ≠ '/' := fun e => h (by rw [e]; exact List.mem_cons_self)
    unfold prefixes
    rw [if_neg hx, ih fun e => h (List.mem_cons_of_mem _ e)]
    rfl

theorem prefixes_slash {c s : Str} (h : '/' ∉ c) : prefixes (c ++ '/' :: s) = c :: (prefixes s).map (fun p => c ++ '/' :: p) := by
  induction c with
  | nil =>
    show (if '/' = '/' then _ else _) = _
    rw [if_pos rfl]
    rfl
  | cons x c ih =>
    have hx : x ≠ '/' := fun e => h (by rw [e]; exact List.mem_cons_self)
    have : prefixes (x :: (c ++ '/' :: s)) = (prefixes (c ++ '/' :: s)).map (x :: ·) := if_neg hx
    show prefixes (x :: (c ++ '/' :: s)) = _
    rw [this, ih fun e => h (List.mem_cons_of_mem _ e), List.map_cons, List.map_map]
    rfl

/-- The non-empty initial parts of a list. -/
def heads : List Str → List (List Str)
  | [] => []
  | c :: l => [c] :: (heads l).map (c :: ·)

theorem heads_ne {l x : List Str} (h : x ∈ heads l) : x ≠ [] := by
  cases l with
  | nil => cases h
  | cons c l =>
    rcases List.mem_cons.mp h with rfl | h
    · simp
    · obtain ⟨y, _, rfl⟩ := List.mem_map.mp h
      simp

theorem prefixes_join : ∀ {l : List Str}, l ≠ [] → (∀ c, c ∈ l → '/' ∉ c) → prefixes (join l) = (heads l).map join
  | [], h, _ => absurd rfl h
  | [c], _, h => prefixes_name (h c List.mem_cons_self)
  | c :: d :: l, _, h => by
    show prefixes (c ++ '/' :: join (d :: l)) = _
    rw [prefixes_slash (h c List.mem_cons_self), prefixes_join (l := d :: l) (by simp) (fun x hx => h x (List.mem_cons_of_mem _ hx))]
    show _ = join [c] :: ((heads (d :: l)).map (c :: ·)).map join
    rw [List.map_map, List.map_map]
    refine congrArg (c :: ·) (List.map_congr_left fun x hx => ?_)
    cases x with
    | nil => exact absurd rfl (heads_ne hx)
    | cons y x => rfl

theorem heads_append (c : Str) : ∀ l : List Str, heads (l ++ [c]) = heads l ++ [l ++ [c]]
  | [] => rfl
  | x :: l => by
    show [x] :: (heads (l ++ [c])).map (x :: ·) = _
    rw [heads_append c l, List.map_append]
    rfl

/-- The file system with the directories of `l` under `d`. -/
def withDirs (w : World) (d : Dir) (l : List Str) : World := { w with isDir := fun x => w.isDir x || decide (∃ y, y ∈ heads l ∧ x = y.reverse ++ d) }

theorem walk_made {w : World} : ∀ (l : List Str) (e : Dir), (∀ c, c ∈ l → NameOk c) → (∀ l1 l2, l = l1 ++ l2 → l1 ≠ [] → w.isDir (l1.reverse ++ e) = true) → walk w e l = some (l.reverse ++ e)
  | [], _, _, _ => rfl
  | c :: l, e, h, hd => by
    obtain ⟨h1, _, h3, h4⟩ := h c List.mem_cons_self
    unfold walk
    rw [if_neg (fun h => h.elim h1 h3), if_neg h4, if_pos (show w.isDir (c :: e) = true from hd [c] l rfl (by simp))]
    rw [walk_made l (c :: e) (fun x hx => h x (List.mem_cons_of_mem _ hx)) (fun l1 l2 e1 _ => by
      have := hd (c :: l1) l2 (by rw [e1]; rfl) (by simp)
      simpa using this)]
    simp

theorem heads_mem : ∀ {l l1 l2 : List Str}, l = l1 ++ l2 → l1 ≠ [] → l1 ∈ heads l
  | _, [], _, _, h => absurd rfl h
  | _, [c], l2, rfl, _ => List.mem_cons_self
  | _, c :: d :: l1, l2, rfl, _ => List.mem_cons_of_mem _ (List.mem_map.mpr ⟨d :: l1, heads_mem (l2 := l2) rfl (by simp), rfl⟩)

theorem join_head {c : Str} {l : List Str} (h : NameOk c) : ∃ x t, join (c :: l) = x :: t ∧ x ≠ '/' := by
  obtain ⟨h1, h2, _⟩ := h
  cases c with
  | nil => exact absurd rfl h1
  | cons x c =>
    have hx : x ≠ '/' := fun e => h2 (by rw [e]; exact List.mem_cons_self)
    cases l with
    | nil => exact ⟨x, c, rfl, hx⟩
    | cons d l => exact ⟨x, c ++ '/' :: join (d :: l), rfl, hx⟩

theorem walk_withDirs {w : World} {d : Dir} {l : List Str} (h : ∀ c, c ∈ l → NameOk c) : walk (withDirs w d l) d l = some (l.reverse ++ d) :=
  walk_made l d h fun l1 l2 e hl => by
    show (w.isDir _ || decide _) = true
    rw [Bool.or_eq_true]
    exact Or.inr (decide_eq_true ⟨l1, heads_mem e hl, rfl⟩)

theorem mkdir_next {w : World} {d : Dir} {l : List Str} {c : Str} (h : ∀ x, x ∈ l ++ [c] → NameOk x) : mkdir (withDirs w d l) d (join (l ++ [c])) = some (withDirs w d (l ++ [c])) := by
  have hsp : split (join (l ++ [c])) = l ++ [c] := split_join (by simp) (fun x hx => (h x hx).2.1)
  obtain ⟨x, t, e, hx⟩ : ∃ x t, join (l ++ [c]) = x :: t ∧ x ≠ '/' := by
    cases l with
    | nil => exact join_head (h c (by simp))
    | cons y l => exact join_head (h y (by simp))
  obtain ⟨h1, _, h3, h4⟩ := h c (by simp)
  unfold mkdir
  rw [hsp, e]
  dsimp only
  rw [if_neg hx, List.reverse_append, List.reverse_singleton, List.singleton_append, List.dropWhile_cons_of_neg (by simpa using h1)]
  dsimp only
  rw [List.reverse_reverse, walk_withDirs fun x hx => h x (List.mem_append_left _ hx)]
  dsimp only
  rw [if_neg fun e => e.elim h3 h4]
  unfold withDirs
  simp only [Option.some.injEq, World.mk.injEq, and_true]
  funext y
  rw [Bool.or_assoc]
  congr 1
  rw [heads_append, ← Bool.decide_or]
  apply decide_eq_decide.mpr
  constructor
  · rintro (⟨z, h1, h2⟩ | rfl)
    · exact ⟨z, List.mem_append_left _ h1, h2⟩
    · exact ⟨l ++ [c], by simp, by simp⟩
  · rintro ⟨z, h1, rfl⟩
    rcases List.mem_append.mp h1 with h1 | h1
    · exact Or.inl ⟨z, h1, rfl⟩
    · rw [List.mem_singleton.mp h1]
      exact Or.inr (by simp)

theorem mkdirs {w : World} {d : Dir} : ∀ m : List Str, (∀ x, x ∈ m → NameOk x) → ((heads m.reverse).map join).foldl (fun r p => match r with | none => none | some w => mkdir w d p) (some w) = some (withDirs w d m.reverse)
  | [], _ => by
    show some w = some _
    unfold withDirs
    simp [heads]
  | c :: m, h => by
    rw [List.reverse_cons, heads_append, List.map_append, List.foldl_append, mkdirs m fun x hx => h x (List.mem_cons_of_mem _ hx)]
    exact mkdir_next fun x hx => h x (by simpa [or_comm] using hx)

theorem mkdirtree_spec {w : World} {d : Dir} {l : List Str} (hl : l ≠ []) (h : ∀ x, x ∈ l → NameOk x) : mkdirtree w d (join l) = some (withDirs w d l) := by
  unfold mkdirtree
  rw [prefixes_join hl fun x hx => (h x hx).2.1]
  have := mkdirs (w := w) (d := d) l.reverse (fun x hx => h x (List.mem_reverse.mp hx))
  rw [List.reverse_reverse] at this
  exact this

end Tup.Top
