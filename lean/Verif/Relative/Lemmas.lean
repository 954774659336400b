import Verif.Relative.Spec
import Verif.Pel.Lemmas

/-! Lemmas for C14. -/

namespace Tup.Relative

open Tup.Pel

/-- A list of entries, each the parent of the next. -/
def Linked (T : Table) : Option Nat → List (Nat × Str) → Prop
  | _, [] => True
  | par, (i, n) :: c => T i = some ⟨n, par⟩ ∧ Linked T (some i) c

theorem fullPath_linked {T : Table} : ∀ {fuel id acc l}, fullPath T fuel id acc = some l → Linked T (some id) acc →
    Linked T none l ∧ ∃ c n, l = c ++ (id, n) :: acc := by
  intro fuel
  induction fuel with
  | zero => intro id acc l h; cases h
  | succ fuel ih =>
    intro id acc l h hl
    rw [fullPath] at h
    cases hT : T id with
    | none => rw [hT] at h; cases h
    | some n =>
      rw [hT] at h
      obtain ⟨n, par⟩ := n
      cases par with
      | none =>
        simp only at h
        cases h
        exact ⟨⟨hT, hl⟩, [], n, rfl⟩
      | some p =>
        simp only at h
        obtain ⟨h1, c, m, rfl⟩ := ih h ⟨hT, hl⟩
        exact ⟨h1, c ++ [(p, m)], n, by simp⟩

theorem linked_place {T : Table} : ∀ {c : List (Nat × Str)} {i : Nat} {p : List Str} {k : Nat} {n : Str} {d : List (Nat × Str)},
    c = d ++ [(k, n)] → Place T i p → Linked T (some i) c → Place T k (p ++ c.map (·.2)) := by
  intro c
  induction c with
  | nil => intro i p k n d h; simp at h
  | cons x c ih =>
    intro i p k n d h hp hl
    obtain ⟨j, m⟩ := x
    obtain ⟨h1, h2⟩ := hl
    cases d with
    | nil =>
      simp only [List.nil_append, List.cons.injEq, Prod.mk.injEq] at h
      obtain ⟨⟨rfl, rfl⟩, rfl⟩ := h
      exact .child h1 hp
    | cons y d =>
      simp only [List.cons_append, List.cons.injEq] at h
      have := ih h.2 (.child h1 hp) h2
      simpa using this

theorem place_unique {T : Table} {i : Nat} {p q : List Str} (h : Place T i p) (h' : Place T i q) : p = q := by
  induction h generalizing q with
  | top h =>
    cases h' with
    | top _ => rfl
    | child h1 _ => rw [h] at h1; cases h1
  | child h _ ih =>
    cases h' with
    | top h1 => rw [h] at h1; cases h1
    | child h1 h2 => rw [h] at h1; cases h1; rw [ih h2]

/-- The place of an entry is made of the names that `fullPath` finds below the top. -/
theorem fullPath_place {T : Table} {fuel id : Nat} {l : List (Nat × Str)} {p : List Str}
    (h : fullPath T fuel id [] = some l) (hp : Place T id p) :
    Linked T none l ∧ ∃ x c, l = x :: c ∧ p = c.map (·.2) := by
  obtain ⟨h1, c, n, rfl⟩ := fullPath_linked h trivial
  refine ⟨h1, ?_⟩
  cases c with
  | nil =>
    refine ⟨_, [], rfl, ?_⟩
    exact place_unique hp (.top h1.1)
  | cons x c =>
    refine ⟨x, c ++ [(id, n)], rfl, ?_⟩
    have := linked_place rfl (Place.top h1.1) h1.2
    exact place_unique hp this

theorem fullPath_exists {T : Table} {id : Nat} {p : List Str} (h : Place T id p) :
    ∀ fuel, p.length < fuel → ∀ acc, ∃ l, fullPath T fuel id acc = some l := by
  induction h with
  | top h =>
    intro fuel hf acc
    cases fuel with
    | zero => omega
    | succ fuel => rw [fullPath, h]; exact ⟨_, rfl⟩
  | child h _ ih =>
    intro fuel hf acc
    simp only [List.length_append, List.length_singleton] at hf
    cases fuel with
    | zero => omega
    | succ fuel =>
      rw [fullPath, h]
      exact ih fuel (by omega) _

/-- What is left after the common part has been removed. -/
theorem dropCommon_linked {T : Table} (hT : Proper T) : ∀ {l m : List (Nat × Str)} {par : Option Nat}, Linked T par l →
    Linked T par m → ∃ k, l = k ++ (dropCommon l m).1 ∧ m = k ++ (dropCommon l m).2 ∧
      ∀ x y a b, (dropCommon l m).1 = x :: a → (dropCommon l m).2 = y :: b → x.1 ≠ y.1 ∧ x.2 ≠ y.2 := by
  intro l
  induction l with
  | nil => intro m par _ _; exact ⟨[], rfl, rfl, by intro x y a b h; cases h⟩
  | cons x l ih =>
    intro m par hl hm
    obtain ⟨i, n⟩ := x
    cases m with
    | nil => exact ⟨[], rfl, rfl, by intro x y a b _ h; cases h⟩
    | cons y m =>
      obtain ⟨j, n'⟩ := y
      obtain ⟨h1, h2⟩ := hl
      obtain ⟨h3, h4⟩ := hm
      rw [dropCommon]
      by_cases hij : i = j
      · rw [if_pos hij]
        subst hij
        rw [h1] at h3
        cases h3
        obtain ⟨k, h5, h6, h7⟩ := ih h2 h4
        exact ⟨(i, n) :: k, by rw [List.cons_append, ← h5], by rw [List.cons_append, ← h6], h7⟩
      · rw [if_neg hij]
        refine ⟨[], rfl, rfl, ?_⟩
        intro x y a b hx hy
        cases hx; cases hy
        refine ⟨hij, fun hn => hij ?_⟩
        simp only at hn
        subst hn
        exact hT.unique h1 h3

theorem linked_names {T : Table} (hT : Proper T) : ∀ {l : List (Nat × Str)} {i : Nat}, Linked T (some i) l →
    ∀ n ∈ l.map (·.2), Name n := by
  intro l
  induction l with
  | nil => intro i _ n hn; cases hn
  | cons x l ih =>
    intro i h n hn
    obtain ⟨j, m⟩ := x
    simp only [List.map_cons, List.mem_cons] at hn
    rcases hn with rfl | hn
    · exact hT.names h.1
    · exact ih h.2 n hn

theorem leads_ups {D : List Str → Prop} (p : List Str) (a : List Str) :
    Leads D (p ++ a) (List.replicate a.length "..".toList) p := by
  generalize hn : a.length = n
  induction n generalizing a with
  | zero =>
    have := List.length_eq_zero_iff.1 hn
    subst this
    rw [List.append_nil]
    exact .here
  | succ n ih =>
    have hne : a ≠ [] := by intro h; rw [h] at hn; cases hn
    rw [List.replicate_succ]
    refine .up ?_
    rw [List.dropLast_append_of_ne_nil hne]
    exact ih a.dropLast (by rw [List.length_dropLast]; omega)

theorem leads_downs {D : List Str → Prop} (b : List Str) : ∀ (p : List Str), (∀ n ∈ b, Name n) →
    (∀ c d, b = c ++ d → c ≠ [] → D (p ++ c)) → Leads D p b (p ++ b) := by
  induction b with
  | nil => intro p _ _; rw [List.append_nil]; exact .here
  | cons n b ih =>
    intro p hn hd
    refine .down (hn n List.mem_cons_self) (hd [n] b rfl (by simp)) ?_
    have := ih (p ++ [n]) (fun x hx => hn x (List.mem_cons_of_mem _ hx)) (by
      intro c d h hc
      have := hd (n :: c) d (by rw [h]; rfl) (by simp)
      simpa using this)
    simpa using this

/-- The number of steps between two places. -/
def dist : List Str → List Str → Nat
  | x :: p, y :: q => if x = y then dist p q else p.length + q.length + 2
  | p, q => p.length + q.length

theorem dist_self (p : List Str) : dist p p = 0 := by
  induction p with
  | nil => rfl
  | cons x p ih => rw [dist, if_pos rfl, ih]

theorem dist_le (p q : List Str) : dist p q ≤ p.length + q.length := by
  induction p generalizing q with
  | nil => simp [dist]
  | cons x p ih =>
    cases q with
    | nil => simp [dist]
    | cons y q =>
      rw [dist]
      split
      · have := ih q; simp only [List.length_cons]; omega
      · simp only [List.length_cons]; omega

theorem dist_up (p q : List Str) : dist p q ≤ dist p.dropLast q + 1 := by
  induction p generalizing q with
  | nil => simp
  | cons x p ih =>
    cases q with
    | nil =>
      have h1 : ∀ r : List Str, dist r [] = r.length := by intro r; cases r <;> simp [dist]
      rw [h1, h1, List.length_dropLast]; omega
    | cons y q =>
      cases p with
      | nil =>
        simp only [List.dropLast_singleton, dist]
        split
        · simp only [List.length_nil, List.length_cons]; omega
        · simp only [List.length_nil, List.length_cons]; omega
      | cons z p =>
        rw [List.dropLast_cons_of_ne_nil (by simp)]
        simp only [dist]
        split
        · exact ih q
        · simp only [List.length_cons, List.length_dropLast]; omega

theorem dist_down (p q : List Str) (n : Str) : dist p q ≤ dist (p ++ [n]) q + 1 := by
  induction p generalizing q with
  | nil =>
    cases q with
    | nil => simp [dist]
    | cons y q =>
      simp only [List.nil_append, dist]
      split
      · simp only [List.length_nil, List.length_cons]; omega
      · simp only [List.length_nil, List.length_cons]; omega
  | cons x p ih =>
    cases q with
    | nil => simp only [dist, List.cons_append, List.length_cons, List.length_append, List.length_nil]; omega
    | cons y q =>
      rw [List.cons_append]
      simp only [dist]
      split
      · exact ih q
      · simp only [List.length_append, List.length_singleton]; omega

theorem leads_dist {D : List Str → Prop} {p l q : List Str} (h : Leads D p l q) : dist p q ≤ l.length := by
  induction h with
  | here => rw [dist_self]; exact Nat.zero_le _
  | dot _ ih => simp only [List.length_cons]; omega
  | up _ ih =>
    simp only [List.length_cons]
    exact Nat.le_trans (dist_up _ _) (by omega)
  | down _ _ _ ih =>
    simp only [List.length_cons]
    exact Nat.le_trans (dist_down _ _ _) (Nat.succ_le_succ ih)

theorem dist_common (k : List Str) {a b : List Str} (h : ∀ x y s t, a = x :: s → b = y :: t → x ≠ y) :
    dist (k ++ a) (k ++ b) = a.length + b.length := by
  induction k with
  | nil =>
    cases a with
    | nil => rfl
    | cons x a =>
      cases b with
      | nil => rfl
      | cons y b =>
        simp only [List.nil_append, dist]
        rw [if_neg (h x y a b rfl rfl)]
        simp only [List.length_cons]; omega
  | cons x k ih => simp only [List.cons_append, dist, if_true]; exact ih

/-! The output. -/

theorem put_foldl (sep : Char) (l : List Str) : ∀ (s : Str), l.foldl (put sep) (true, s) =
    (true, s ++ (l.map fun x => sep :: x).flatten) := by
  induction l with
  | nil => intro s; simp
  | cons x l ih =>
    intro s
    rw [List.foldl_cons]
    rw [show put sep (true, s) x = (true, s ++ [sep] ++ x) from rfl, ih]
    simp

theorem put_text (l : List Str) : l.foldl (put '/') (false, []) = (!l.isEmpty, text l) := by
  cases l with
  | nil => rfl
  | cons x l =>
    rw [List.foldl_cons]
    rw [show put '/' (false, []) x = (true, x) from rfl, put_foldl]
    simp only [List.isEmpty_cons, Bool.not_false, Prod.mk.injEq, true_and]
    induction l generalizing x with
    | nil => simp [text, List.intercalate]
    | cons y l ih =>
      have : text (x :: y :: l) = x ++ '/' :: text (y :: l) := by simp [text, List.intercalate, List.intersperse]
      rw [this, ← ih]
      simp

end Tup.Relative
