import Verif.Relative.Lemmas
import Verif.Pel.Props

/-! C14: relative paths lead where they should. -/

namespace Tup.Relative

open Tup.Pel

/-- The components of the result. -/
theorem relative_comps {T : Table} {fuel s e : Nat} {t : Str} {p q : List Str} (hT : Proper T) (hp : Place T s p)
    (hq : Place T e q) (h : relative T fuel s e '/' = some t) :
    ∃ k a b, p = k ++ a ∧ q = k ++ b ∧ (∀ x y c d, a = x :: c → b = y :: d → x ≠ y) ∧ (∀ n ∈ b, Name n) ∧
      t = if a = [] ∧ b = [] then ".".toList else text (List.replicate a.length "..".toList ++ b) := by
  unfold relative at h
  cases hl : fullPath T fuel s [] with
  | none => rw [hl] at h; cases h
  | some l =>
    cases hm : fullPath T fuel e [] with
    | none => rw [hl, hm] at h; cases h
    | some m =>
      rw [hl, hm] at h
      simp only at h
      obtain ⟨h1, x, c, rfl, rfl⟩ := fullPath_place hl hp
      obtain ⟨h2, y, d, rfl, rfl⟩ := fullPath_place hm hq
      have hxy : x = y := by
        obtain ⟨i, n⟩ := x
        obtain ⟨j, n'⟩ := y
        have := hT.top h1.1 h2.1
        subst this
        have := h1.1.symm.trans h2.1
        cases this
        rfl
      subst hxy
      obtain ⟨i, n⟩ := x
      have hd : dropCommon ((i, n) :: c) ((i, n) :: d) = dropCommon c d := by rw [dropCommon, if_pos rfl]
      rw [hd] at h
      obtain ⟨k, h3, h4, h5⟩ := dropCommon_linked hT h1.2 h2.2
      generalize dropCommon c d = r at h h3 h4 h5
      obtain ⟨a, b⟩ := r
      simp only at h h3 h4 h5
      refine ⟨k.map (·.2), a.map (·.2), b.map (·.2), by rw [h3, List.map_append], by rw [h4, List.map_append], ?_, ?_, ?_⟩
      · intro x y c' d' hx hy
        cases a with
        | nil => cases hx
        | cons x' a =>
          cases b with
          | nil => cases hy
          | cons y' b =>
            simp only [List.map_cons, List.cons.injEq] at hx hy
            rw [← hx.1, ← hy.1]
            exact (h5 x' y' a b rfl rfl).2
      · intro n hn
        refine linked_names hT h2.2 n ?_
        rw [h4, List.map_append]
        exact List.mem_append_right _ hn
      · have hup : ∀ (a : List (Nat × Str)) o, a.foldl (fun o _ => put '/' o "..".toList) o =
            (List.replicate a.length "..".toList).foldl (put '/') o := by
          intro a
          induction a with
          | nil => intro o; rfl
          | cons x a ih => intro o; rw [List.foldl_cons, ih]; rfl
        have hdown : ∀ o, b.foldl (fun o b => put '/' o b.2) o = (b.map (·.2)).foldl (put '/') o := by
          intro o; rw [List.foldl_map]
        rw [hup, hdown, ← List.foldl_append, put_text] at h
        rw [List.length_map]
        cases a with
        | nil =>
          cases b with
          | nil => cases h; rfl
          | cons y b =>
            rw [if_neg (by simp)]
            cases h; rfl
        | cons x a =>
          rw [if_neg (by simp)]
          cases h; rfl

/-- C14: the relative path between two nodes, taken apart into its components, leads from the one to the other, and
everything on the way exists. -/
theorem c14_arrives {T : Table} {fuel s e : Nat} {t : Str} {p q : List Str} (hT : Proper T) (hp : Place T s p)
    (hq : Place T e q) (h : relative T fuel s e '/' = some t) : ∃ l, Comps t l ∧ Leads (Exists T) p l q := by
  obtain ⟨k, a, b, rfl, rfl, _, hn, rfl⟩ := relative_comps hT hp hq h
  have hpre : ∀ {id : Nat} {q : List Str}, Place T id q → ∀ c d, q = c ++ d → Exists T c := by
    intro id q hq
    induction hq with
    | top h =>
      intro c d hc
      obtain ⟨rfl, rfl⟩ := List.append_eq_nil_iff.1 hc.symm
      exact ⟨_, .top h⟩
    | child h hq' ih =>
      intro c d hc
      by_cases hd : d = []
      · subst hd
        rw [List.append_nil] at hc
        rw [← hc]
        exact ⟨_, .child h hq'⟩
      · apply ih c d.dropLast
        have := congrArg List.dropLast hc
        rwa [List.dropLast_concat, List.dropLast_append_of_ne_nil hd] at this
  by_cases hab : a = [] ∧ b = []
  · rw [if_pos hab]
    obtain ⟨rfl, rfl⟩ := hab
    refine ⟨[".".toList], ?_, .dot .here⟩
    exact comps_text (l := [".".toList]) (by
      intro e he; rw [List.mem_singleton.1 he]; exact ⟨by decide, by decide⟩) (w := []) (by simp)
  · rw [if_neg hab]
    refine ⟨List.replicate a.length "..".toList ++ b, ?_, ?_⟩
    · exact comps_text (normal_good ⟨_, _, rfl, hn⟩) (w := []) (by simp)
    · refine (leads_append _ _).2 ⟨k, leads_ups k a, leads_downs b k hn ?_⟩
      intro c d hc _
      exact hpre hq (k ++ c) d (by rw [hc, List.append_assoc])

/-- C14: it is in normal form, parent steps and then names, and nothing shorter does it: whatever path leads from the
one to the other, in whatever tree, has at least as many components as the normal form of the result (which is the
result itself, but for `.`). -/
theorem c14_shortest {T : Table} {fuel s e : Nat} {t : Str} {p q : List Str} (hT : Proper T) (hp : Place T s p)
    (hq : Place T e q) (h : relative T fuel s e '/' = some t) :
    ∃ g, splitPath t = some (false, g) ∧ (t = if g.elems = [] then ".".toList else text g.elems) ∧
      ∀ D l, Leads D p l q → g.elems.length ≤ l.length := by
  obtain ⟨k, a, b, rfl, rfl, hne, hn, rfl⟩ := relative_comps hT hp hq h
  have hdist : ∀ D l, Leads D (k ++ a) l (k ++ b) → a.length + b.length ≤ l.length := by
    intro D l hl
    rw [← dist_common k hne]
    exact leads_dist hl
  by_cases hab : a = [] ∧ b = []
  · rw [if_pos hab]
    exact ⟨⟨[], 0⟩, by decide +kernel, rfl, by intro D l _; exact Nat.zero_le _⟩
  · rw [if_neg hab]
    have hg : ∀ e ∈ List.replicate a.length "..".toList ++ b, Good e := normal_good ⟨_, _, rfl, hn⟩
    have hc : Comps (text (List.replicate a.length "..".toList ++ b)) (List.replicate a.length "..".toList ++ b) :=
      comps_text hg (w := []) (by simp)
    obtain ⟨g, hs, _⟩ := c11_form (text (List.replicate a.length "..".toList ++ b))
    have hs' := hs
    unfold splitPath at hs'
    rw [splitLoop_comps hc, fold_normal hn] at hs'
    simp only [Option.map_some, Option.some.injEq, Prod.mk.injEq, true_and] at hs'
    subst hs'
    have hnil : List.replicate a.length "..".toList ++ b ≠ [] := by
      intro h0
      obtain ⟨h1, h2⟩ := List.append_eq_nil_iff.1 h0
      exact hab ⟨by simpa using h1, h2⟩
    have hhead : ((text (List.replicate a.length "..".toList ++ b)).head? == some '/') = false := by
      generalize hx : List.replicate a.length "..".toList ++ b = x at hg hnil
      cases x with
      | nil => exact absurd rfl hnil
      | cons e l =>
        obtain ⟨h3, h4⟩ := hg e List.mem_cons_self
        cases e with
        | nil => exact absurd rfl h3
        | cons c e =>
          have hc : c ≠ '/' := by intro hc; apply h4; rw [hc]; exact List.mem_cons_self
          have : (text ((c :: e) :: l)).head? = some c := by
            cases l with
            | nil => simp [text, List.intercalate]
            | cons f l => simp [text, List.intercalate, List.intersperse]
          rw [this]
          simpa using hc
    rw [hhead] at hs
    refine ⟨_, hs, ?_, ?_⟩
    · rw [if_neg hnil]
    · intro D l hl
      have := hdist D l hl
      simp only [List.length_append, List.length_replicate]
      exact this

/-- C14: there is a result for every two nodes of the tree. -/
theorem c14_defined {T : Table} {s e : Nat} {p q : List Str} (hp : Place T s p) (hq : Place T e q) {fuel : Nat}
    (h1 : p.length < fuel) (h2 : q.length < fuel) (sep : Char) : ∃ t, relative T fuel s e sep = some t := by
  obtain ⟨l, hl⟩ := fullPath_exists hp fuel h1 []
  obtain ⟨m, hm⟩ := fullPath_exists hq fuel h2 []
  unfold relative
  rw [hl, hm]
  exact ⟨_, rfl⟩

/-- A tree: `src/a.c`, `src/lib/b.c`, `srcx`. -/
def exT : Table
  | 1 => some ⟨".".toList, none⟩
  | 2 => some ⟨"src".toList, some 1⟩
  | 3 => some ⟨"a.c".toList, some 2⟩
  | 4 => some ⟨"lib".toList, some 2⟩
  | 5 => some ⟨"b.c".toList, some 4⟩
  | 6 => some ⟨"srcx".toList, some 1⟩
  | _ => none

theorem exT_cases {i : Nat} {n : Node} (h : exT i = some n) :
    (i, n) ∈ [(1, ⟨".".toList, none⟩), (2, ⟨"src".toList, some 1⟩), (3, ⟨"a.c".toList, some 2⟩),
      (4, ⟨"lib".toList, some 2⟩), (5, ⟨"b.c".toList, some 4⟩), (6, (⟨"srcx".toList, some 1⟩ : Node))] := by
  unfold exT at h
  split at h <;> cases h <;> simp

theorem exT_proper : Proper exT where
  top := by
    intro i j n m h1 h2
    have h1 := exT_cases h1
    have h2 := exT_cases h2
    simp at h1 h2
    omega
  unique := by
    intro i j n h1 h2
    have h1 := exT_cases h1
    have h2 := exT_cases h2
    simp only [List.mem_cons, Prod.mk.injEq, List.not_mem_nil, or_false] at h1 h2
    rcases h1 with h1 | h1 | h1 | h1 | h1 | h1 <;> rcases h2 with h2 | h2 | h2 | h2 | h2 | h2 <;>
      obtain ⟨rfl, rfl⟩ := h1 <;> obtain ⟨rfl, h⟩ := h2 <;> first | rfl | (exact absurd h (by decide))
  names := by
    intro i n d h
    have h := exT_cases h
    simp only [List.mem_cons, Prod.mk.injEq, Node.mk.injEq, List.not_mem_nil, or_false, reduceCtorEq, and_false,
      false_or] at h
    rcases h with ⟨_, rfl, _⟩ | ⟨_, rfl, _⟩ | ⟨_, rfl, _⟩ | ⟨_, rfl, _⟩ | ⟨_, rfl, _⟩ <;>
      exact ⟨by decide, by decide, by decide, by decide⟩

example : relative exT 10 6 5 '/' = some "../src/lib/b.c".toList := by decide
example : relative exT 10 4 3 '/' = some "../a.c".toList := by decide
example : relative exT 10 2 2 '/' = some ".".toList := by decide
example : relative exT 10 4 1 '/' = some "../..".toList := by decide
example : Place exT 5 ["src".toList, "lib".toList, "b.c".toList] :=
  .child (p := ["src".toList, "lib".toList]) rfl (.child (p := ["src".toList]) rfl (.child (p := []) rfl (.top rfl)))

/-- Without the requirement on names C14 fails: files outside of the project hang below a node named `/`, and the path
to one of them from a directory of the project is not its path. -/
theorem c14_external : ∃ T : Table, T 1 = some ⟨".".toList, none⟩ ∧ T 2 = some ⟨"src".toList, some 1⟩ ∧
    T 3 = some ⟨"/".toList, some 1⟩ ∧ T 4 = some ⟨"usr".toList, some 3⟩ ∧
    relative T 10 2 4 '/' = some "..///usr".toList :=
  ⟨fun
    | 1 => some ⟨".".toList, none⟩
    | 2 => some ⟨"src".toList, some 1⟩
    | 3 => some ⟨"/".toList, some 1⟩
    | 4 => some ⟨"usr".toList, some 3⟩
    | _ => none, rfl, rfl, rfl, rfl, by decide⟩

end Tup.Relative
