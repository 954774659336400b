import Verif.Symlink.Spec
import Verif.Pel.Lemmas

/-! Lemmas about symbolic links. -/

namespace Tup.Symlink

open Tup.Pel (Comps Name)

variable {fs : Fs}

theorem comps_lead {w s : Str} {l : List Str} (hw : ∀ c ∈ w, c = '/') (h : Comps s l) : Comps (w ++ s) l := by
  cases h with
  | nil h1 =>
    refine .nil fun c hc => ?_
    rcases List.mem_append.1 hc with h | h
    · exact hw c h
    · exact h1 c h
  | @cons w' e t l h1 h2 h3 h4 h5 =>
    have : w ++ (w' ++ e ++ t) = (w ++ w') ++ e ++ t := by simp
    rw [this]
    refine .cons (fun c hc => ?_) h2 h3 h4 h5
    rcases List.mem_append.1 hc with h | h
    · exact hw c h
    · exact h1 c h

/-- Two paths with a slash between them. -/
theorem comps_join {u t : Str} {l m : List Str} (hu : Comps u l) (ht : Comps t m) :
    (u.getLast? = some '/' ∨ u = []) → Comps (u ++ t) (l ++ m) := by
  induction hu with
  | nil h1 => intro _; exact comps_lead h1 ht
  | @cons w e t' l h1 h2 h3 h4 h5 ih =>
    intro hlast
    have hl' : t'.getLast? = some '/' := by
      rcases hlast with h | h
      · cases t' with
        | nil =>
          rw [List.append_nil, List.getLast?_append] at h
          cases he : e.getLast? with
          | none => exact absurd (List.getLast?_eq_none_iff.1 he) h2
          | some c =>
            rw [he] at h
            simp only [Option.some_or, Option.some.injEq] at h
            subst h
            exact absurd (List.mem_of_getLast? he) h3
        | cons c t' =>
          rw [List.getLast?_append] at h
          cases hc : (c :: t').getLast? with
          | none => simp at hc
          | some x => rw [hc] at h; simpa using h
      · exfalso
        have := congrArg List.length h
        simp only [List.length_append, List.length_nil] at this
        have := List.length_pos_iff.2 h2
        omega
    have : w ++ e ++ t' ++ t = w ++ e ++ (t' ++ t) := by simp
    rw [this]
    refine .cons h1 h2 h3 (fun c hc => ?_) (ih (.inl hl'))
    cases t' with
    | nil => simp at hl'
    | cons x t' => exact h4 c (by simpa using hc)

theorem comps_unique {s : Str} {l m : List Str} (h : Comps s l) (h' : Comps s m) : l = m := by
  have key : ∀ {s : Str} {l : List Str}, Comps s l → ∀ m, Comps s m → l = m := by
    intro s l h
    induction h with
    | nil h1 =>
      intro m h'
      cases h' with
      | nil _ => rfl
      | @cons w e t m g1 g2 g3 g4 g5 =>
        obtain ⟨c, e', rfl⟩ := List.exists_cons_of_ne_nil g2
        exact absurd (h1 c (by simp)) (fun hc => g3 (by rw [hc]; exact List.mem_cons_self))
    | @cons w e t l h1 h2 h3 h4 h5 ih =>
      intro m h'
      generalize hs : w ++ e ++ t = s at h'
      cases h' with
      | nil g1 =>
        obtain ⟨c, e', rfl⟩ := List.exists_cons_of_ne_nil h2
        exact absurd (g1 c (by rw [← hs]; simp)) (fun hc => h3 (by rw [hc]; exact List.mem_cons_self))
      | @cons w' e' t' m g1 g2 g3 g4 g5 =>
        have d1 : (w ++ e ++ t).dropWhile (· == '/') = e ++ t := by
          rw [List.append_assoc]
          refine Tup.Pel.dropSlashes h1 fun c hc => ?_
          obtain ⟨x, e2, rfl⟩ := List.exists_cons_of_ne_nil h2
          simp only [List.cons_append, List.head?_cons, Option.some.injEq] at hc
          subst hc
          exact fun hx => h3 (by rw [hx]; exact List.mem_cons_self)
        have d2 : (w' ++ e' ++ t').dropWhile (· == '/') = e' ++ t' := by
          rw [List.append_assoc]
          refine Tup.Pel.dropSlashes g1 fun c hc => ?_
          obtain ⟨x, e2, rfl⟩ := List.exists_cons_of_ne_nil g2
          simp only [List.cons_append, List.head?_cons, Option.some.injEq] at hc
          subst hc
          exact fun hx => g3 (by rw [hx]; exact List.mem_cons_self)
        rw [hs] at d1
        rw [d1] at d2
        have a1 := Tup.Pel.takeElem h3 h4
        have a2 := Tup.Pel.takeElem g3 g4
        rw [d2] at a1
        have he : e = e' := a1.1.symm.trans a2.1
        have ht : t = t' := a1.2.symm.trans a2.2
        subst he; subst ht
        rw [ih m g5]
  exact key h m h'

theorem name_dot : ¬ Name ".".toList := fun h => h.2.2.1 rfl
theorem name_up : ¬ Name "..".toList := fun h => h.2.2.2 rfl
theorem dot_up : ".".toList ≠ "..".toList := by decide

/-- The kernel is deterministic. -/
theorem walk_unique {d q : Nat} {l : List Str} (h : Walk fs d l q) : ∀ q', Walk fs d l q' → q = q' := by
  induction h with
  | here d => intro q' h; cases h; rfl
  | dot _ ih =>
    intro q' h
    generalize hl : ".".toList :: _ = m at h
    cases h with
    | here => cases hl
    | dot h => cases hl; exact ih q' h
    | up h => exact absurd (List.cons.inj hl).1 dot_up
    | down hn => exact absurd ((List.cons.inj hl).1 ▸ hn) name_dot
    | link hn => exact absurd ((List.cons.inj hl).1 ▸ hn) name_dot
  | up _ ih =>
    intro q' h
    generalize hl : "..".toList :: _ = m at h
    cases h with
    | here => cases hl
    | dot h => exact absurd (List.cons.inj hl).1.symm dot_up
    | up h => cases hl; exact ih q' h
    | down hn => exact absurd ((List.cons.inj hl).1 ▸ hn) name_up
    | link hn => exact absurd ((List.cons.inj hl).1 ▸ hn) name_up
  | @down d i q n l h1 h2 h3 _ ih =>
    intro q' h
    generalize hl : n :: l = m at h
    cases h with
    | here => cases hl
    | dot h => exact absurd ((List.cons.inj hl).1 ▸ h1) name_dot
    | up h => exact absurd ((List.cons.inj hl).1 ▸ h1) name_up
    | down _ g2 g3 g4 =>
      cases hl
      rw [h2] at g2; cases g2
      exact ih q' g4
    | link _ g2 g3 =>
      cases hl
      rw [h2] at g2; cases g2
      rw [h3] at g3; cases g3
  | @link d i j q n t lt l h1 h2 h3 h4 h5 _ _ ih1 ih2 =>
    intro q' h
    generalize hl : n :: l = m at h
    cases h with
    | here => cases hl
    | dot h => exact absurd ((List.cons.inj hl).1 ▸ h1) name_dot
    | up h => exact absurd ((List.cons.inj hl).1 ▸ h1) name_up
    | down _ g2 g3 =>
      cases hl
      rw [h2] at g2; cases g2
      rw [h3] at g3; cases g3
    | link _ g2 g3 g4 g5 g6 g7 =>
      cases hl
      rw [h2] at g2; cases g2
      rw [h3] at g3; cases g3
      rw [← comps_unique h5 g5] at g6
      rw [← ih1 _ g6] at g7
      exact ih2 q' g7

theorem walk_append {d q : Nat} {l m : List Str} : Walk fs d (l ++ m) q ↔ ∃ j, Walk fs d l j ∧ Walk fs j m q := by
  constructor
  · induction l generalizing d with
    | nil => intro h; exact ⟨d, .here d, h⟩
    | cons n l ih =>
      intro h
      cases h with
      | dot h => obtain ⟨j, a, b⟩ := ih h; exact ⟨j, .dot a, b⟩
      | up h => obtain ⟨j, a, b⟩ := ih h; exact ⟨j, .up a, b⟩
      | down h1 h2 h3 h => obtain ⟨j, a, b⟩ := ih h; exact ⟨j, .down h1 h2 h3 a, b⟩
      | link h1 h2 h3 h4 h5 h6 h => obtain ⟨j, a, b⟩ := ih h; exact ⟨j, .link h1 h2 h3 h4 h5 h6 a, b⟩
  · rintro ⟨j, h1, h2⟩
    induction h1 with
    | here d => exact h2
    | dot _ ih => exact .dot (ih h2)
    | up _ ih => exact .up (ih h2)
    | down a b c _ ih => exact .down a b c (ih h2)
    | link a b c d e f _ _ ih => exact .link a b c d e f (ih h2)

theorem comps_name {n : Str} (h : Name n) : Comps n [n] := by
  have := Comps.cons (w := []) (e := n) (t := []) (l := []) (by simp) h.1 h.2.1 (by simp) (.nil (by simp))
  simpa using this

/-- Where a path from a directory part leads. -/
theorem opens_join {d D q : Nat} {u t : Str} (hu : Opens fs d u D) (hd : u = [] ∨ u.getLast? = some '/')
    (ht : t.head? ≠ some '/') : Opens fs d (u ++ t) q ↔ Opens fs D t q := by
  obtain ⟨l, hl, hw⟩ := hu
  have hs : fs.start D t = D := by unfold Fs.start; rw [if_neg ht]
  have hsu : fs.start d (u ++ t) = fs.start d u := by
    cases u with
    | nil => unfold Fs.start; rw [List.nil_append, if_neg ht, if_neg (by simp)]
    | cons c u => rfl
  unfold Opens
  rw [hs, hsu]
  constructor
  · rintro ⟨m, hm, hwm⟩
    obtain ⟨mt, hmt⟩ := Tup.Pel.comps_exists t
    have := comps_unique hm (comps_join hl hmt hd.symm)
    subst this
    obtain ⟨j, h1, h2⟩ := walk_append.1 hwm
    rw [walk_unique hw _ h1]
    exact ⟨mt, hmt, h2⟩
  · rintro ⟨mt, hmt, h⟩
    exact ⟨l ++ mt, comps_join hl hmt hd.symm, walk_append.2 ⟨D, hw, h⟩⟩

/-- A link opens what its text opens. -/
theorem opens_link {D i q : Nat} {n t : Str} (hn : Name n) (he : fs.entry D n = some i) (hl : fs.link i = some t) (ht : t ≠ []) :
    Opens fs D n q ↔ Opens fs D t q := by
  have hh : n.head? ≠ some '/' := by
    obtain ⟨c, n', rfl⟩ := List.exists_cons_of_ne_nil hn.1
    intro h
    simp only [List.head?_cons, Option.some.injEq] at h
    exact hn.2.1 (by rw [h]; exact List.mem_cons_self)
  have hs : fs.start D n = D := by unfold Fs.start; rw [if_neg hh]
  unfold Opens
  rw [hs]
  constructor
  · rintro ⟨m, hm, hw⟩
    rw [comps_unique hm (comps_name hn)] at hw
    cases hw with
    | dot => exact absurd hn name_dot
    | up => exact absurd hn name_up
    | down _ g2 g3 => rw [he] at g2; cases g2; rw [hl] at g3; cases g3
    | link _ g2 g3 _ g5 g6 g7 =>
      rw [he] at g2; cases g2
      rw [hl] at g3; cases g3
      cases g7
      exact ⟨_, g5, g6⟩
  · rintro ⟨m, hm, hw⟩
    exact ⟨[n], comps_name hn, .link hn he hl ht hm hw (.here _)⟩

theorem dirPart_last {u n : Str} (hn : '/' ∉ n) (hu : u = [] ∨ u.getLast? = some '/') : dirPart (u ++ n) = u := by
  unfold dirPart
  rw [List.reverse_append]
  have h1 : ∀ (a b : Str), '/' ∉ a → (b.head? = some '/' ∨ b = []) → (a ++ b).dropWhile (· ≠ '/') = b := by
    intro a b ha hb
    induction a with
    | nil =>
      rcases hb with h | rfl
      · cases b with
        | nil => rfl
        | cons c b =>
          simp only [List.head?_cons, Option.some.injEq] at h
          subst h
          simp
      · rfl
    | cons c a ih =>
      simp only [List.mem_cons, not_or] at ha
      rw [List.cons_append, List.dropWhile_cons, if_pos (by simpa using Ne.symm ha.1)]
      exact ih ha.2
  rw [h1 _ _ (by simpa using hn) (by
    rcases hu with rfl | h
    · exact .inr rfl
    · rw [List.head?_reverse]; exact .inl h), List.reverse_reverse]

end Tup.Symlink
