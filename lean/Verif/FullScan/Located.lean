import Verif.FullScan.Spec
import Verif.FullScan.Mono

/-! From paths on the disk to rows, and back. -/

namespace Tup.FullScan

open Tup.Db Tup.Scan

variable {db db' : Db} {d i j k x : Nat} {name : Str}

/-- The outcome of a scan. -/
theorem scan_spec {sort : List (Nat × Kind) → List (Nat × Kind)} {order : List Nat → List Nat} (hsort : ∀ l, (sort l).Perm l)
    (horder : ∀ l, (order l).Perm l) {l : Listing} (hs : Start db l) {fuel : Nat} (h : scan sort order fuel db l = some db') :
    Good db' ∧ Top db' ∧ Since db db' ∧ Recorded db' 1 l ∧ Only db' 1 l.names := by
  obtain ⟨m, m1, m2, m3, m4⟩ := hs.top
  obtain ⟨x, ⟨F, hF⟩, s, h1, h2⟩ := scan_lim hsort horder hs.good m1 m2 hs.distinct hs.free
  have e1 := hF (F + fuel) (by omega)
  have e2 := scan_le (fuel' := F + fuel) (by omega) h
  simp only at e1
  rw [e1] at e2
  cases e2
  obtain ⟨m', a1, a2, a3, a4⟩ := s.dir hs.good m1 m2
  exact ⟨s.good, ⟨m', a1, a2, a4.trans m3, by rw [a3]; exact m4⟩, s.since, h1, h2⟩

theorem At.cons {n : Node} (hn : db.node k = some n) {p : List Str} (h : At db k p j) : At db n.dir (n.name :: p) j := by
  induction h with
  | nil => exact .snoc .nil hn rfl
  | snoc _ hm hd ih => exact .snoc ih hm hd

theorem At.root {r : Nat} (h : At db r [] j) : j = r := by
  have key : ∀ q, At db r q j → q = [] → j = r := by
    intro q hq e
    cases hq with
    | nil => rfl
    | snoc => simp at e
  exact key _ h rfl

theorem At.uncons {r : Nat} {a : Str} {p : List Str} (h : At db r (a :: p) j) :
    ∃ k n, db.node k = some n ∧ n.dir = r ∧ n.name = a ∧ At db k p j := by
  have key : ∀ q, At db r q j → ∀ a p, q = a :: p → ∃ k n, db.node k = some n ∧ n.dir = r ∧ n.name = a ∧ At db k p j := by
    intro q hq
    clear h
    induction hq with
    | nil => intro a p e; cases e
    | @snoc q i j m hq hm hd ih =>
      intro a p e
      cases q with
      | nil =>
        have := hq.root
        subst this
        simp only [List.nil_append, List.cons.injEq] at e
        obtain ⟨rfl, rfl⟩ := e
        exact ⟨j, m, hm, hd, rfl, .nil⟩
      | cons b q =>
        simp only [List.cons_append, List.cons.injEq] at e
        obtain ⟨rfl, rfl⟩ := e
        obtain ⟨k, n, h1, h2, h3, h4⟩ := ih b q rfl
        exact ⟨k, n, h1, h2, h3, .snoc h4 hm hd⟩
  exact key _ h a p rfl

theorem At.is_below {r : Nat} {p : List Str} (h : At db r p j) : Below db r j := by
  induction h with
  | nil => exact .refl
  | snoc _ hm hd ih => exact .step hm (by rw [hd]; exact ih)

theorem At.unique (hg : Good db) {p : List Str} : ∀ {r i j : Nat}, At db r p i → At db r p j → i = j := by
  induction p with
  | nil => intro r i j h1 h2; rw [h1.root, h2.root]
  | cons a p ih =>
    intro r i j h1 h2
    obtain ⟨k, n, a1, a2, a3, a4⟩ := h1.uncons
    obtain ⟨k', n', b1, b2, b3, b4⟩ := h2.uncons
    have := hg.unique k k' n n' a1 b1 (a2.trans b2.symm) (a3.trans b3.symm)
    subst this
    exact ih a4 b4

theorem not_config (hg : Good db) (ht : Top db) {p : List Str} (h : At db 1 p j) (hp : tupConfig ∉ p) : ¬ InConfig db j := by
  obtain ⟨m, m1, m2, m3, m4⟩ := ht
  induction h with
  | nil =>
    rintro ⟨x, q, hb, hq, hx⟩
    cases hb with
    | refl => rw [m1] at hq; cases hq; exact m4 hx
    | step h1 h2 =>
      rw [m1] at h1
      cases h1
      rw [m3] at h2
      cases h2 with
      | refl => rw [hg.zero] at hq; cases hq
      | step h3 _ => rw [hg.zero] at h3; cases h3
  | snoc hp' hn hd ih =>
    rintro ⟨x, q, hb, hq, hx⟩
    cases hb with
    | refl =>
      rw [hn] at hq
      cases hq
      exact hp (List.mem_append_right _ (by rw [hx]; exact .head _))
    | step h1 h2 =>
      rw [hn] at h1
      cases h1
      rw [hd] at h2
      exact ih (fun hc => hp (List.mem_append_left _ hc)) ⟨x, q, h2, hq, hx⟩

theorem has_ne {l : Listing} {p : List Str} {w : Thing} (h : l.Has p w) : p ≠ [] := by
  induction h <;> simp_all

/-- What is on the disk is found under its path. -/
theorem has_at {l : Listing} {p : List Str} {w : Thing} (h : l.Has p w) : ∀ {k : Nat}, Recorded db k l → (∀ a ∈ p, Pel.ignored a = false) →
    (∀ t, w = .file t → ∃ f n, At db k p f ∧ db.node f = some n ∧ (n.kind = .file ∨ n.kind = .generated) ∧ n.mtime = t) ∧
    (w = .dir → ∃ f n, At db k p f ∧ db.node f = some n ∧ isDir n) := by
  induction h with
  | file =>
    intro k hr hp
    refine ⟨fun t e => ?_, fun e => by cases e⟩
    cases e
    obtain ⟨f, n, h1, h2, h3, h4, h5⟩ := hr.1 (hp _ (.head _))
    refine ⟨f, n, ?_, h1, h4, h5⟩
    have := At.cons h1 .nil
    rw [h2, h3] at this
    exact this
  | dir =>
    intro k hr hp
    refine ⟨(fun t e => by cases e), fun _ => ?_⟩
    obtain ⟨f, n, h1, h2, h3, h4, _⟩ := hr.1 (hp _ (.head _))
    refine ⟨f, n, ?_, h1, h4⟩
    have := At.cons h1 .nil
    rw [h2, h3] at this
    exact this
  | other =>
    intro k _ _
    exact ⟨(fun t e => by cases e), (fun e => by cases e)⟩
  | inside _ ih =>
    intro k hr hp
    obtain ⟨f, n, h1, h2, h3, h4, h5, h6⟩ := hr.1 (hp _ (.head _))
    obtain ⟨a, b⟩ := ih h5 fun c hc => hp c (.tail _ hc)
    refine ⟨fun t e => ?_, fun e => ?_⟩
    · obtain ⟨g, q, q1, q2⟩ := a t e
      have := At.cons h1 q1
      rw [h2, h3] at this
      exact ⟨g, q, this, q2⟩
    · obtain ⟨g, q, q1, q2⟩ := b e
      have := At.cons h1 q1
      rw [h2, h3] at this
      exact ⟨g, q, this, q2⟩
  | afterFile _ ih => exact fun hr hp => ih hr.2 hp
  | afterDir _ ih => exact fun hr hp => ih hr.2 hp
  | afterOther _ ih => exact fun hr hp => ih hr hp

/-- The thing in a listing with this name. -/
theorem names_cases {l : Listing} {a : Str} (h : a ∈ l.names) (hr : Recorded db k l) :
    (∃ w, l.Has [a] w ∧ (w = .other ∨ Pel.ignored a = true)) ∨
    (∃ t f n, l.Has [a] (.file t) ∧ db.node f = some n ∧ n.dir = k ∧ n.name = a ∧ (n.kind = .file ∨ n.kind = .generated) ∧ n.mtime = t) ∨
    (∃ sub f n, l.Has [a] .dir ∧ (∀ p w, sub.Has p w → l.Has (a :: p) w) ∧ db.node f = some n ∧ n.dir = k ∧ n.name = a ∧ isDir n ∧
      Recorded db f sub ∧ Only db f sub.names ∧ sizeOf sub < sizeOf l) := by
  induction l with
  | nil => cases h
  | file b t rest ih =>
    rcases List.mem_cons.1 h with rfl | h
    · cases hi : Pel.ignored a with
      | true => exact .inl ⟨_, .file, .inr rfl⟩
      | false =>
        obtain ⟨f, n, h1, h2, h3, h4, h5⟩ := hr.1 hi
        exact .inr (.inl ⟨t, f, n, .file, h1, h2, h3, h4, h5⟩)
    · rcases ih h hr.2 with ⟨w, a1, a2⟩ | ⟨t, f, n, a1, a2⟩ | ⟨sub, f, n, a1, a2, a3, a4, a5, a6, a7, a8, a9⟩
      · exact .inl ⟨w, .afterFile a1, a2⟩
      · exact .inr (.inl ⟨t, f, n, .afterFile a1, a2⟩)
      · exact .inr (.inr ⟨sub, f, n, .afterFile a1, fun p w hp => .afterFile (a2 p w hp), a3, a4, a5, a6, a7, a8, by simp; omega⟩)
  | dir b sub rest _ ih =>
    rcases List.mem_cons.1 h with rfl | h
    · cases hi : Pel.ignored a with
      | true => exact .inl ⟨_, .dir, .inr rfl⟩
      | false =>
        obtain ⟨f, n, h1, h2, h3, h4, h5, h6⟩ := hr.1 hi
        exact .inr (.inr ⟨sub, f, n, .dir, fun p w hp => .inside hp, h1, h2, h3, h4, h5, h6, by simp; omega⟩)
    · rcases ih h hr.2 with ⟨w, a1, a2⟩ | ⟨t, f, n, a1, a2⟩ | ⟨sub, f, n, a1, a2, a3, a4, a5, a6, a7, a8, a9⟩
      · exact .inl ⟨w, .afterDir a1, a2⟩
      · exact .inr (.inl ⟨t, f, n, .afterDir a1, a2⟩)
      · exact .inr (.inr ⟨sub, f, n, .afterDir a1, fun p w hp => .afterDir (a2 p w hp), a3, a4, a5, a6, a7, a8, by simp; omega⟩)
  | other b rest ih =>
    rcases List.mem_cons.1 h with rfl | h
    · exact .inl ⟨_, .other, .inl rfl⟩
    · rcases ih h hr with ⟨w, a1, a2⟩ | ⟨t, f, n, a1, a2⟩ | ⟨sub, f, n, a1, a2, a3, a4, a5, a6, a7, a8, a9⟩
      · exact .inl ⟨w, .afterOther a1, a2⟩
      · exact .inr (.inl ⟨t, f, n, .afterOther a1, a2⟩)
      · exact .inr (.inr ⟨sub, f, n, .afterOther a1, fun p w hp => .afterOther (a2 p w hp), a3, a4, a5, a6, a7, a8, by simp; omega⟩)

/-- What is under a path is a directory if there is something in it. -/
theorem holder (hg : Good db) {n m : Node} (hn : db.node i = some n) (hb : Below db i j) (hm : db.node j = some m) (hne : j ≠ i)
    (hk : m.kind = .file ∨ m.kind = .cmd ∨ m.kind = .generated ∨ isDir m) (hc : ¬ InConfig db j) : isDir n := by
  obtain ⟨b, hin⟩ := inside_of' hg hn hb hm hk hc
  have : ∀ b j, Inside db i b j → j = i ∨ isDir n := by
    intro b j h
    induction h with
    | refl => exact .inl rfl
    | dir _ _ hq hk _ ih =>
      rcases ih with e | e
      · rw [e, hn] at hq; cases hq; exact .inr (.inl hk)
      · exact .inr e
    | generated _ _ hq hk _ ih =>
      rcases ih with e | e
      · rw [e, hn] at hq; cases hq; exact .inr (.inr hk)
      · exact .inr e
  exact (this b j hin).resolve_left hne

theorem At.ne (hg : Good db) {a : Str} {p : List Str} (h : At db i (a :: p) j) : j ≠ i := by
  rintro rfl
  obtain ⟨k, n, h1, h2, _, h4⟩ := h.uncons
  obtain ⟨r, hr⟩ := hg.ranked
  have := hr k n h1
  rw [h2] at this
  rcases h4.is_below.rank hr with e | e
  · rw [e] at this; omega
  · omega

/-- Where a row that stands for a file or directory comes from. -/
theorem located (hg : Good db) (ht : Top db) {j : Nat} {m : Node} (hm : db.node j = some m)
    (hk : m.kind = .file ∨ m.kind = .generated ∨ isDir m) (hc : ¬ InConfig db j) : ∀ (p : List Str) (k : Nat) (l : Listing), Recorded db k l → Only db k l.names →
      (db.node k).isSome → At db k p j → p ≠ [] →
      (∃ t, l.Has p (.file t) ∧ (m.kind = .file ∨ m.kind = .generated) ∧ m.mtime = t) ∨ (l.Has p .dir ∧ isDir m) ∨ Passed l p ∨ (k = 1 ∧ Virtual p) ∨
      ∃ i b, LostAt db i ∧ Inside db i b j := by
  have hk' : m.kind = .file ∨ m.kind = .cmd ∨ m.kind = .generated ∨ isDir m := by
    rcases hk with h | h | h
    · exact .inl h
    · exact .inr (.inr (.inl h))
    · exact .inr (.inr (.inr h))
  intro p
  induction p with
  | nil => intro _ _ _ _ _ _ h; exact absurd rfl h
  | cons a p ih =>
    intro k l hr ho hks hat _
    obtain ⟨i, n, h1, h2, h3, h4⟩ := hat.uncons
    by_cases ha : a ∈ l.names
    · rcases names_cases ha hr with ⟨w, a1, a2⟩ | ⟨t, f, q, a1, a2, a3, a4, a5, a6⟩ | ⟨sub, f, q, a1, a2, a3, a4, a5, a6, a7, a8, _⟩
      · exact .inr (.inr (.inl ⟨[], a, p, w, rfl, a1, a2⟩))
      · have hfi : f = i := hg.unique f i q n a2 h1 (a3.trans h2.symm) (a4.trans h3.symm)
        rw [hfi, h1] at a2
        cases a2
        cases p with
        | nil =>
          rw [← h4.root, hm] at h1
          cases h1
          exact .inl ⟨t, a1, a5, a6⟩
        | cons b p =>
          exfalso
          rcases holder hg h1 h4.is_below hm (h4.ne hg) hk' hc with e | e <;> rcases a5 with e' | e' <;> rw [e] at e' <;> cases e'
      · have hfi : f = i := hg.unique f i q n a3 h1 (a4.trans h2.symm) (a5.trans h3.symm)
        rw [hfi] at a3 a7 a8
        rw [h1] at a3
        cases a3
        cases p with
        | nil =>
          rw [← h4.root, hm] at h1
          cases h1
          exact .inr (.inl ⟨a1, a6⟩)
        | cons b p =>
          rcases ih i sub a7 a8 (by rw [h1]; rfl) h4 (by simp) with ⟨t, b1, b2⟩ | ⟨b1, b2⟩ | ⟨q, c, r, w, b1, b2, b3⟩ | ⟨b1, _⟩ | b1
          · exact .inl ⟨t, a2 _ _ b1, b2⟩
          · exact .inr (.inl ⟨a2 _ _ b1, b2⟩)
          · refine .inr (.inr (.inl ⟨a :: q, c, r, w, by rw [b1]; rfl, a2 _ _ b2, b3⟩))
          · exfalso
            obtain ⟨mt, t1, _, t3, _⟩ := ht
            rw [b1, t1] at h1
            cases h1
            rw [t3] at h2
            rw [← h2, hg.zero] at hks
            cases hks
          · exact .inr (.inr (.inr (.inr b1)))
    · cases hv : isVirtual n with
      | true =>
        refine .inr (.inr (.inr (.inl ?_)))
        unfold isVirtual at hv
        simp only [Bool.and_eq_true, Bool.or_eq_true, decide_eq_true_eq] at hv
        refine ⟨h2.symm.trans hv.1, a, p, rfl, ?_⟩
        rw [← h3]
        rcases hv.2 with (h | h) | h
        · exact .inl h
        · exact .inr (.inl h)
        · exact .inr (.inr h)
      | false =>
        have hl := ho i n h1 h2 (by rw [h3]; exact ha) hv
        obtain ⟨b, hb⟩ := inside_of' hg h1 h4.is_below hm hk' hc
        exact .inr (.inr (.inr (.inr ⟨i, b, hl, hb⟩)))

end Tup.FullScan
