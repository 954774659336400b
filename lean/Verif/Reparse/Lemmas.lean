import Verif.Reparse.Spec

/-! Lemmas for C74: what a Tupfile looks at, meanings, paths. -/

namespace Tup.Reparse

theorem set_same {α : Type} (f : Dir → α) (d : Dir) (a : α) : set f d a d = a := by simp [set]

theorem set_other {α : Type} (f : Dir → α) {d x : Dir} (a : α) (h : x ≠ d) : set f d a x = f x := by simp [set, h]

/-- The commands of a Tupfile with the directories it looks at, when the commands of the other Tupfiles are given. -/
def trace (src : Dir → Str → Bool) (R : Dir → List Rule) (d : Dir) : Prog → List Rule → Option (List Rule × List Dir)
  | .done, m => some (m, [])
  | .fail, _ => none
  | .rule r k, m => trace src R d k (m ++ [r])
  | .look b k, m =>
    if b = d then trace src R d (k (sees (src b) b m m)) m
    else (trace src R d (k (sees (src b) b (R b) m)) m).map (fun x => (x.1, b :: x.2))

theorem trace_congr {src src' : Dir → Str → Bool} {R R' : Dir → List Rule} {d : Dir} (hd : src' d = src d) :
    ∀ (p : Prog) (m : List Rule) {r : List Rule} {lk : List Dir}, trace src R d p m = some (r, lk) → (∀ b ∈ lk, R' b = R b ∧ src' b = src b) → trace src' R' d p m = some (r, lk) := by
  intro p
  induction p with
  | done => intro m r lk h _; exact h
  | fail => intro m r lk h _; cases h
  | rule r k ih => intro m r lk h hb; exact ih _ h hb
  | look b k ih =>
    intro m r lk h hb
    unfold trace at h ⊢
    split
    · next e =>
      rw [if_pos e] at h
      have : src' b = src b := by rw [e]; exact hd
      rw [this]
      exact ih _ _ h hb
    · next e =>
      rw [if_neg e] at h
      obtain ⟨⟨r', lk'⟩, h1, h2⟩ := Option.map_eq_some_iff.1 h
      cases h2
      have hbb := hb b (by simp)
      rw [hbb.1, hbb.2, ih _ _ h1 (fun x hx => hb x (by simp [hx]))]
      rfl

theorem trace_eval {src : Dir → Str → Bool} {R : Dir → List Rule} {V : Dir → Option (List Rule)} {d : Dir} :
    ∀ (p : Prog) (m : List Rule) {r : List Rule} {lk : List Dir}, trace src R d p m = some (r, lk) → (∀ b ∈ lk, V b = some (R b)) → eval src V d p m = some r := by
  intro p
  induction p with
  | done => intro m r lk h _; simp [trace] at h; simp [eval, h]
  | fail => intro m r lk h _; cases h
  | rule r k ih => intro m r lk h hb; exact ih _ h hb
  | look b k ih =>
    intro m r lk h hb
    unfold trace at h
    unfold eval
    split
    · next e =>
      rw [if_pos e] at h
      exact ih _ _ h hb
    · next e =>
      rw [if_neg e] at h
      obtain ⟨⟨r', lk'⟩, h1, h2⟩ := Option.map_eq_some_iff.1 h
      cases h2
      rw [hb b (by simp)]
      exact ih _ _ h1 (fun x hx => hb x (by simp [hx]))

/-- Where both are there they agree, and what was looked at has a meaning. -/
theorem eval_trace {src : Dir → Str → Bool} {R : Dir → List Rule} {V : Dir → Option (List Rule)} {d : Dir} :
    ∀ (p : Prog) (m : List Rule) {r r' : List Rule} {lk : List Dir}, trace src R d p m = some (r, lk) → eval src V d p m = some r' →
      (∀ b ∈ lk, ∀ l, V b = some l → l = R b) → r' = r ∧ ∀ b ∈ lk, (V b).isSome := by
  intro p
  induction p with
  | done => intro m r r' lk h h' _; simp [trace] at h; simp [eval] at h'; simp [h.2, ← h.1, ← h']
  | fail => intro m r r' lk h; cases h
  | rule r k ih => intro m r r' lk h h' hb; exact ih _ h h' hb
  | look b k ih =>
    intro m r r' lk h h' hb
    unfold trace at h
    unfold eval at h'
    split at h
    · next e =>
      rw [if_pos e] at h'
      exact ih _ _ h h' hb
    · next e =>
      rw [if_neg e] at h'
      obtain ⟨⟨r1, lk'⟩, h1, h2⟩ := Option.map_eq_some_iff.1 h
      cases h2
      cases hv : V b with
      | none => rw [hv] at h'; cases h'
      | some l =>
        rw [hv] at h'
        have := hb b (by simp) l hv
        subst this
        obtain ⟨e1, e2⟩ := ih _ _ h1 h' (fun x hx => hb x (by simp [hx]))
        refine ⟨e1, ?_⟩
        intro x hx
        simp only [List.mem_cons] at hx
        rcases hx with rfl | hx
        · rw [hv]; rfl
        · exact e2 x hx

theorem eval_mono {src : Dir → Str → Bool} {V W : Dir → Option (List Rule)} {d : Dir} (h : ∀ b l, V b = some l → W b = some l) :
    ∀ (p : Prog) (m : List Rule) {r : List Rule}, eval src V d p m = some r → eval src W d p m = some r := by
  intro p
  induction p with
  | done => intro m r h; exact h
  | fail => intro m r h; cases h
  | rule r k ih => intro m r h; exact ih _ h
  | look b k ih =>
    intro m r h'
    unfold eval at h' ⊢
    split
    · next e => rw [if_pos e] at h'; exact ih _ _ h'
    · next e =>
      rw [if_neg e] at h'
      cases hv : V b with
      | none => rw [hv] at h'; cases h'
      | some l =>
        rw [hv] at h'
        rw [h b l hv]
        exact ih _ _ h'

theorem meaning_succ {s : St} : ∀ {n : Nat} {d : Dir} {l : List Rule}, meaning s n d = some l → meaning s (n + 1) d = some l := by
  intro n
  induction n with
  | zero => intro d l h; cases h
  | succ n ih =>
    intro d l h
    rw [meaning] at h ⊢
    exact eval_mono (fun b l h => ih h) _ _ h

theorem meaning_le {s : St} {n m : Nat} (h : n ≤ m) {d : Dir} {l : List Rule} (hm : meaning s n d = some l) : meaning s m d = some l := by
  induction h with
  | refl => exact hm
  | step _ ih => exact meaning_succ ih

theorem means_unique {s : St} {d : Dir} {l l' : List Rule} (h : Means s d l) (h' : Means s d l') : l = l' := by
  obtain ⟨n, h⟩ := h
  obtain ⟨m, h'⟩ := h'
  have a := meaning_le (Nat.le_max_left n m) h
  have b := meaning_le (Nat.le_max_right n m) h'
  rw [a] at b
  exact Option.some.inj b

/-- Directories that have just the commands which follow from those they look at have the commands they should, if there are such. -/
theorem closed_meaning {s : St} {R : Dir → List Rule} {S : Dir → Prop} (h : ∀ x, S x → ∃ lk, trace s.src R x (s.prog x) [] = some (R x, lk) ∧ ∀ b ∈ lk, S b) :
    ∀ n x l, S x → meaning s n x = some l → l = R x := by
  intro n
  induction n with
  | zero => intro x l _ h; cases h
  | succ n ih =>
    intro x l hx hm
    obtain ⟨lk, h1, h2⟩ := h x hx
    rw [meaning] at hm
    exact (eval_trace _ _ h1 hm (fun b hb l hl => ih b l (h2 b hb) hl)).1

/-! ### Paths -/

theorem Path.trans {L : List (Dir × Dir)} {a b c : Dir} (h : Path L a b) (h' : Path L b c) : Path L a c := by
  induction h with
  | one h => exact .cons h h'
  | cons h _ ih => exact .cons h (ih h')

theorem Path.mono {L L' : List (Dir × Dir)} (hs : ∀ x ∈ L, x ∈ L') {a b : Dir} (h : Path L a b) : Path L' a b := by
  induction h with
  | one h => exact .one (hs _ h)
  | cons h _ ih => exact .cons (hs _ h) ih

theorem countP_lt {p q : Dir → Bool} {l : List Dir} (hpq : ∀ x, p x = true → q x = true) {b : Dir} (hb : b ∈ l) (hq : q b = true) (hp : p b = false) : l.countP p < l.countP q := by
  induction l with
  | nil => cases hb
  | cons c l ih =>
    have hle : l.countP p ≤ l.countP q := List.countP_mono_left (fun x _ h => hpq x h)
    rw [List.countP_cons, List.countP_cons]
    rcases List.mem_cons.1 hb with e | hb'
    · subst e
      simp only [hp, hq, if_true, Bool.false_eq_true, if_false]
      omega
    · have := ih hb'
      have : (if p c = true then 1 else 0) ≤ (if q c = true then 1 else 0) := by
        split
        · next h => rw [if_pos (hpq c h)]; omega
        · omega
      omega

open Classical in
/-- The number of directories with a path to a directory. -/
noncomputable def depth (L : List (Dir × Dir)) (d : Dir) : Nat := (L.map (·.1)).countP (fun x => decide (Path L x d))

theorem depth_lt {L : List (Dir × Dir)} (h : Acyclic L) {b d : Dir} (hb : (b, d) ∈ L) : depth L b < depth L d := by
  unfold depth
  refine countP_lt (b := b) ?_ ?_ ?_ ?_
  · intro x hx
    simp only [decide_eq_true_eq] at hx ⊢
    exact hx.trans (.one hb)
  · exact List.mem_map.2 ⟨(b, d), hb, rfl⟩
  · simpa using Path.one hb
  · simpa using h b

/-- What a directory has in the database is what its Tupfile gives with what the others have, and the links are to those it looks at. -/
def Local (s : St) (x : Dir) : Prop := ∃ lk, trace s.src s.rules x (s.prog x) [] = some (s.rules x, lk) ∧ ∀ b, (b, x) ∈ s.links ↔ b ∈ lk

theorem local_means {s : St} (hl : ∀ x, Local s x) (ha : Acyclic s.links) (d : Dir) : Means s d (s.rules d) := by
  suffices h : ∀ n d, depth s.links d < n → meaning s n d = some (s.rules d) from ⟨_, h _ d (Nat.lt_succ_self _)⟩
  intro n
  induction n with
  | zero => intro d h; omega
  | succ n ih =>
    intro d h
    obtain ⟨lk, h1, h2⟩ := hl d
    rw [meaning]
    refine trace_eval _ _ h1 (fun b hb => ih b ?_)
    have := depth_lt ha ((h2 b).2 hb)
    omega

theorem writes_eq (l : List Rule) (b : Dir) (n : Str) : writes l b n = l.any (fun r => r.outs.contains (b, n)) := by
  unfold writes
  congr 1
  funext r
  induction r.outs with
  | nil => rfl
  | cons o l ih =>
    rw [List.any_cons, ih, List.contains_cons]
    congr 1
    rw [Bool.eq_iff_iff]
    obtain ⟨o1, o2⟩ := o
    simp only [Bool.and_eq_true, beq_iff_eq, Prod.mk.injEq]
    exact ⟨fun h => ⟨h.1.symm, h.2.symm⟩, fun h => ⟨h.1.symm, h.2.symm⟩⟩

theorem view_eq (src : Dir → Str → Bool) (t : Run) (d b : Dir) : view src t d b = sees (src b) b (t.rules b) (t.rules d) := by
  funext n
  unfold view sees
  rw [writes_eq, writes_eq]

end Tup.Reparse
