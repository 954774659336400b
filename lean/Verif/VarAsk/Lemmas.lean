import Verif.VarAsk.Spec
import Verif.Pel.Lemmas
import Verif.DirInputs.Lemmas
import Verif.Config.Lemmas

namespace Tup.VarAsk

open Tup.Db Tup.Links Tup.Lookup Tup.Pel

/-! ### Searching in a path -/

theorem prefix_slash {p : Str} (hp : '/' ∉ p) {d y : Str} (h : p.isPrefixOf (d ++ '/' :: y) = true) : p.isPrefixOf d = true := by
  induction p generalizing d with
  | nil => simp
  | cons c p ih =>
    simp only [List.mem_cons, not_or] at hp
    cases d with
    | nil =>
      simp only [List.nil_append, List.isPrefixOf, Bool.and_eq_true, beq_iff_eq] at h
      exact absurd h.1.symm hp.1
    | cons e d =>
      simp only [List.cons_append, List.isPrefixOf, Bool.and_eq_true, beq_iff_eq] at h ⊢
      exact ⟨h.1, ih hp.2 h.2⟩

theorem strstr_skip {p : Str} (hp : '/' ∉ p) (hne : p ≠ []) (d y : Str) (hd : ¬ Occurs p d) :
    strstr p (d ++ '/' :: y) = (strstr p y).map fun q => (d ++ '/' :: q.1, q.2) := by
  induction d with
  | nil =>
    rw [List.nil_append, strstr, if_neg]
    · rfl
    · intro h
      have := prefix_slash hp (d := []) h
      rw [List.isPrefixOf_iff_prefix, List.prefix_nil] at this
      exact hne this
  | cons c d ih =>
    rw [List.cons_append, strstr, if_neg, ih]
    · cases strstr p y <;> rfl
    · rintro ⟨a, b, rfl⟩
      exact hd ⟨c :: a, b, rfl⟩
    · intro h
      have := prefix_slash hp (d := c :: d) h
      rw [isPrefixOf_iff] at this
      obtain ⟨b, hb⟩ := this
      exact hd ⟨[], b, by rw [hb]; rfl⟩

theorem strstr_head (p y : Str) (hne : p ≠ []) : strstr p (p ++ y) = some ([], y) := by
  cases p with
  | nil => exact absurd rfl hne
  | cons c p =>
    rw [List.cons_append, strstr, if_pos, ← List.cons_append, List.drop_left]
    rw [← List.cons_append, isPrefixOf_iff]
    exact ⟨y, rfl⟩

theorem strstr_flat {p : Str} (hp : '/' ∉ p) (hne : p ≠ []) (ds : List Str) (hd : ∀ d ∈ ds, ¬ Occurs p d) (y : Str) :
    ∃ a, strstr p ((ds.flatMap fun d => d ++ "/".toList) ++ p ++ y) = some (a, y) := by
  induction ds with
  | nil => exact ⟨[], strstr_head p y hne⟩
  | cons d ds ih =>
    obtain ⟨a, ha⟩ := ih fun x hx => hd x (List.mem_cons_of_mem _ hx)
    refine ⟨d ++ '/' :: a, ?_⟩
    have e : ((d :: ds).flatMap fun d => d ++ "/".toList) ++ p ++ y = d ++ '/' :: ((ds.flatMap fun d => d ++ "/".toList) ++ p ++ y) := by
      rw [List.flatMap_cons]
      generalize (ds.flatMap fun d => d ++ "/".toList) = z
      have : "/".toList = ['/'] := rfl
      rw [this]
      simp only [List.append_assoc, List.cons_append, List.nil_append]
    rw [e, strstr_skip hp hne d _ (hd d List.mem_cons_self), ha]
    rfl

theorem flat_shift (ds : List Str) (x : Str) :
    (ds.flatMap fun n => '/' :: n) ++ '/' :: x = '/' :: ((ds.flatMap fun d => d ++ "/".toList) ++ x) := by
  induction ds with
  | nil => rfl
  | cons d ds ih =>
    rw [List.flatMap_cons, List.append_assoc, ih, List.flatMap_cons]
    have : "/".toList = ['/'] := rfl
    rw [this]
    simp only [List.cons_append, List.append_assoc, List.nil_append]

/-- A name between slashes is one of the names of the path. -/
theorem flat_mem {e : Str} (he : '/' ∉ e) (l : List Str) (hl : ∀ n ∈ l, '/' ∉ n) {a b : Str}
    (h : (l.flatMap fun n => '/' :: n) = a ++ '/' :: e ++ '/' :: b) : e ∈ l := by
  induction l generalizing a with
  | nil =>
    have := congrArg List.length h
    simp at this
  | cons r l ih =>
    have hr := hl r List.mem_cons_self
    have hl' : ∀ n ∈ l, '/' ∉ n := fun n hn => hl n (List.mem_cons_of_mem _ hn)
    rw [List.flatMap_cons, List.cons_append] at h
    cases a with
    | nil =>
      simp only [List.nil_append, List.cons_append, List.cons.injEq, true_and] at h
      have h1 := strchr_append (b := b) he
      rw [← h] at h1
      cases l with
      | nil =>
        simp only [List.flatMap_nil, List.append_nil] at h1
        rw [strchr_none.2 hr] at h1
        cases h1
      | cons q l =>
        rw [List.flatMap_cons, List.cons_append, strchr_append hr] at h1
        simp only [Option.some.injEq, Prod.mk.injEq] at h1
        rw [← h1.1]
        exact List.mem_cons_self
    | cons c a =>
      simp only [List.cons_append, List.cons.injEq] at h
      have h := h.2
      refine List.mem_cons_of_mem _ ?_
      rw [List.append_assoc, List.cons_append] at h
      rcases List.append_eq_append_iff.1 h with ⟨m, h1, h2⟩ | ⟨m, h1, h2⟩
      · exact ih hl' (a := m) (by rw [h2, List.append_assoc, List.cons_append])
      · cases m with
        | nil =>
          simp only [List.nil_append] at h2
          refine ih hl' (a := []) ?_
          rw [← h2, List.nil_append, List.cons_append]
        | cons c m =>
          exfalso
          rw [List.cons_append, List.cons.injEq] at h2
          apply hr
          rw [h1, ← h2.1]
          simp

theorem findMap_none {f : Str} {l : List (Str × Str)} (h : ∀ t, (f, t) ∉ l) : findMap f l = none := by
  induction l with
  | nil => rfl
  | cons p l ih =>
    obtain ⟨r, t⟩ := p
    rw [findMap, if_neg]
    · exact ih fun t ht => h t (List.mem_cons_of_mem _ ht)
    · rintro rfl
      exact h t List.mem_cons_self

theorem findMap_some {f t : Str} {l : List (Str × Str)} (h : findMap f l = some t) : (f, t) ∈ l := by
  induction l with
  | nil => cases h
  | cons p l ih =>
    obtain ⟨r, u⟩ := p
    rw [findMap] at h
    split at h
    · next hr => subst hr; cases h; exact List.mem_cons_self
    · exact List.mem_cons_of_mem _ (ih h)

theorem pathText_eq (l : List Str) : pathText l = dirText l := rfl

theorem virtualVar_iff {top f rest : Str} : virtualVar top f = some rest ↔ Virtual top f rest := by
  unfold virtualVar Virtual
  generalize hv : "@tup@".toList = v
  have hvd : virtualDir = v := hv
  rw [hvd]
  have h1 : "/".toList = ['/'] := rfl
  rw [h1]
  constructor
  · intro h
    split at h
    · next hp =>
      obtain ⟨b, rfl⟩ := (isPrefixOf_iff _ _).1 hp
      rw [List.drop_left] at h
      split at h
      · next r =>
        cases hs : strstr v r with
        | none => rw [hs] at h; cases h
        | some q =>
          obtain ⟨a, b⟩ := q
          rw [hs] at h
          simp only [Option.map_some, Option.some.injEq] at h
          subst h
          obtain ⟨h2, h3⟩ := strstr_some hs
          refine ⟨a, ?_, fun a' b' he => h3 a' b' (h2.trans he)⟩
          rw [h2]
          simp only [List.append_assoc, List.cons_append, List.nil_append]
      · cases h
    · cases h
  · rintro ⟨a, rfl, h2⟩
    rw [if_pos ((isPrefixOf_iff _ _).2 ⟨['/'] ++ a ++ v ++ rest, by simp only [List.append_assoc]⟩)]
    have : (top ++ ['/'] ++ a ++ v ++ rest).drop top.length = '/' :: (a ++ v ++ rest) := by
      rw [List.append_assoc, List.append_assoc, List.append_assoc, List.drop_left]
      simp only [List.append_assoc, List.cons_append, List.nil_append]
    rw [this]
    simp only
    rw [strstr_first h2]
    rfl

/-! ### Asking -/

theorem splitSlash_name {n : Str} (hn : '/' ∉ n) : splitSlash n = [n] := by
  induction n with
  | nil => rfl
  | cons c n ih =>
    simp only [List.mem_cons, not_or] at hn
    rw [splitSlash, if_neg (Ne.symm hn.1), ih hn.2]

theorem splitSlash_cons {n : Str} (hn : '/' ∉ n) (s : Str) : splitSlash (n ++ '/' :: s) = n :: splitSlash s := by
  induction n with
  | nil => rfl
  | cons c n ih =>
    simp only [List.mem_cons, not_or] at hn
    rw [List.cons_append, splitSlash, if_neg (Ne.symm hn.1), ih hn.2]

theorem getattr_virtual {w : World} {s : Info} {f rest : Str} (hf : Foreign s f) (hv : Virtual w.top f rest) :
    (rest = [] → getattr w s f = (.dir, s)) ∧
      ∀ c v, rest = c :: v → getattr w s f = (.error, { s with vars := s.vars ++ [v] }) := by
  have hm : ¬ (f = ".tup/mnt".toList ∨ (strstr "/.tup/mnt".toList f).isSome = true) := by
    rintro (h | h)
    · exact hf.mnt.1 h
    · cases hs : strstr "/.tup/mnt".toList f with
      | none => rw [hs] at h; cases h
      | some q => exact hf.mnt.2 ⟨q.1, q.2, (strstr_some hs).1⟩
  unfold getattr
  rw [if_neg hm, if_neg hf.dir]
  simp only
  rw [findMap_none hf.map, Option.getD_none, virtualVar_iff.2 hv]
  constructor
  · rintro rfl; rfl
  · rintro c v rfl; rfl

theorem no_mnt {l : List Str} (hl : ∀ n ∈ l, '/' ∉ n) (ht : ".tup".toList ∉ l) (hne : l ≠ []) :
    dirText l ≠ ".tup/mnt".toList ∧ ¬ Occurs "/.tup/mnt".toList (dirText l) := by
  have e : dirText l = l.flatMap fun n => '/' :: n := by unfold dirText; rw [if_neg hne]
  rw [e]
  constructor
  · cases l with
    | nil => exact absurd rfl hne
    | cons a l =>
      intro h
      have := congrArg List.head? h
      rw [List.flatMap_cons, List.cons_append, List.head?_cons] at this
      exact absurd this (by decide)
  · rintro ⟨a, b, h⟩
    refine ht (flat_mem (b := "mnt".toList ++ b) (by decide) l hl (a := a) (h.trans ?_))
    have : "/.tup/mnt".toList = '/' :: ".tup".toList ++ '/' :: "mnt".toList := by decide
    rw [this]
    simp only [List.append_assoc, List.cons_append]

theorem dirText_append {l m : List Str} (hm : m ≠ []) : dirText (l ++ m) = (l.flatMap fun n => '/' :: n) ++ dirText m := by
  unfold dirText
  rw [if_neg hm, if_neg (by intro h; exact hm (List.append_eq_nil_iff.1 h).2), List.flatMap_append]

theorem virtual_home {w : World} {cwd : List Str} (h : Home w cwd) (rest : List Str) :
    Virtual w.top (dirText (cwd ++ ("@tup@".toList :: rest))) (rest.flatMap fun n => '/' :: n) := by
  obtain ⟨rs, ds, h1, h2, h3, h4⟩ := h.place
  rw [← virtualVar_iff, h2, h3]
  have hrs : dirText rs = rs.flatMap fun n => '/' :: n := by unfold dirText; rw [if_neg h1]
  have e : dirText (rs ++ ds ++ ("@tup@".toList :: rest)) =
      dirText rs ++ '/' :: ((ds.flatMap fun d => d ++ "/".toList) ++ "@tup@".toList ++ rest.flatMap fun n => '/' :: n) := by
    have e1 : dirText (rs ++ ds ++ ("@tup@".toList :: rest)) =
        (rs ++ ds ++ ("@tup@".toList :: rest)).flatMap fun n => '/' :: n := by
      unfold dirText
      rw [if_neg (by simp)]
    rw [e1, hrs, List.flatMap_append, List.flatMap_append, List.flatMap_cons, List.append_assoc, List.cons_append, flat_shift]
    simp only [List.append_assoc]
  rw [e]
  unfold virtualVar
  rw [if_pos ((isPrefixOf_iff _ _).2 ⟨_, rfl⟩), List.drop_left]
  simp only
  obtain ⟨a, ha⟩ := strstr_flat (p := "@tup@".toList) (by decide) (by decide) ds h4 (rest.flatMap fun n => '/' :: n)
  have : virtualDir = "@tup@".toList := rfl
  rw [this, ha]
  rfl

theorem foreign_home {w : World} {cwd : List Str} {s : Info} (h : Home w cwd) (hf : Free s cwd) (rest : List Str)
    (hr : ∀ n ∈ rest, '/' ∉ n) (ht : ".tup".toList ∉ rest) : Foreign s (dirText (cwd ++ ("@tup@".toList :: rest))) := by
  have e : dirText (cwd ++ ("@tup@".toList :: rest)) = dirText (cwd ++ ["@tup@".toList]) ++ rest.flatMap fun n => '/' :: n := by
    unfold dirText
    rw [if_neg (by simp), if_neg (by simp)]
    simp only [List.flatMap_append, List.flatMap_cons, List.flatMap_nil, List.append_nil, List.append_assoc, List.cons_append]
  refine ⟨no_mnt ?_ ?_ (by simp), fun hm => ?_, fun t hm => ?_⟩
  · intro n hn
    rcases List.mem_append.1 hn with hn | hn
    · exact (h.names n hn).2
    · rcases List.mem_cons.1 hn with rfl | hn
      · decide
      · exact hr n hn
  · intro hn
    rcases List.mem_append.1 hn with hn | hn
    · exact h.tup hn
    · rcases List.mem_cons.1 hn with hn | hn
      · exact absurd hn (by decide)
      · exact ht hn
  · exact hf _ (.inl hm) ⟨_, e⟩
  · exact hf _ (.inr ⟨t, hm⟩) ⟨_, e⟩

end Tup.VarAsk
