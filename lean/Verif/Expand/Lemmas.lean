import Verif.Expand.Spec

namespace Tup.Expand

open Tup.Relative (Table relative)

theorem cut_none {t : Str} : cut t = none ↔ NoRef t := by
  induction t with
  | nil => simp only [cut, NoRef, true_iff]; rintro ⟨a, b, h⟩; simp at h
  | cons c r ih =>
    rw [cut]
    split
    · rename_i h
      simp only [reduceCtorEq, false_iff, NoRef, Classical.not_not]
      obtain ⟨rfl, h2⟩ := h
      cases r with
      | nil => cases h2
      | cons x r =>
        simp only [List.head?_cons, Option.some.injEq] at h2
        exact ⟨[], r, by rw [h2]; rfl⟩
    · rename_i h
      rw [Option.map_eq_none_iff, ih]
      constructor
      · rintro hn ⟨a, b, e⟩
        cases a with
        | nil =>
          simp only [List.nil_append, List.cons.injEq] at e
          exact h ⟨e.1, by rw [e.2]; rfl⟩
        | cons x a =>
          simp only [List.cons_append, List.cons.injEq] at e
          exact hn ⟨a, b, e.2⟩
      · rintro hn ⟨a, b, e⟩
        exact hn ⟨c :: a, b, by rw [e]; rfl⟩

theorem cut_append {p r : Str} (hp : NoRef p) : cut (p ++ '%' :: '<' :: r) = some (p, '<' :: r) := by
  induction p with
  | nil => rw [List.nil_append, cut, if_pos ⟨rfl, rfl⟩]
  | cons c p ih =>
    rw [List.cons_append, cut, if_neg, ih]
    · rfl
    · rintro ⟨a, b, e⟩; exact hp ⟨c :: a, b, by rw [e]; rfl⟩
    · rintro ⟨h1, h2⟩
      cases p with
      | nil =>
        simp only [List.nil_append, List.head?_cons, Option.some.injEq] at h2
        exact absurd h2 (by decide)
      | cons x p =>
        simp only [List.cons_append, List.head?_cons, Option.some.injEq] at h2
        exact hp ⟨[], p, by rw [h1, h2]; rfl⟩

theorem cut_some {t p r : Str} (h : cut t = some (p, r)) : NoRef p ∧ ∃ r', r = '<' :: r' ∧ t = p ++ '%' :: r := by
  induction t generalizing p with
  | nil => cases h
  | cons c t ih =>
    rw [cut] at h
    split at h
    · rename_i hc
      obtain ⟨rfl, h2⟩ := hc
      injection h with h
      injection h with h3 h4
      subst h3; subst h4
      refine ⟨fun ⟨a, b, e⟩ => by simp at e, ?_⟩
      cases t with
      | nil => cases h2
      | cons x t =>
        simp only [List.head?_cons, Option.some.injEq] at h2
        exact ⟨t, by rw [h2], rfl⟩
    · rename_i hc
      cases hq : cut t with
      | none => rw [hq] at h; cases h
      | some q =>
        obtain ⟨p', r'⟩ := q
        rw [hq] at h
        simp only [Option.map_some, Option.some.injEq, Prod.mk.injEq] at h
        obtain ⟨rfl, rfl⟩ := h
        obtain ⟨h1, r2, h2, h3⟩ := ih hq
        refine ⟨?_, r2, h2, by rw [h3]; rfl⟩
        rintro ⟨a, b, e⟩
        cases a with
        | nil =>
          simp only [List.nil_append, List.cons.injEq] at e
          refine hc ⟨e.1, ?_⟩
          rw [h3, e.2]; rfl
        | cons x a =>
          simp only [List.cons_append, List.cons.injEq] at e
          exact h1 ⟨a, b, e.2⟩

theorem close_append {b r : Str} (hb : '>' ∉ b) : close (b ++ '>' :: r) = some (b ++ ['>'], r) := by
  induction b with
  | nil => rw [List.nil_append, close, if_pos rfl]; rfl
  | cons c b ih =>
    simp only [List.mem_cons, not_or] at hb
    rw [List.cons_append, close, if_neg (fun e => hb.1 e.symm), ih hb.2]
    rfl

theorem close_none {t : Str} : close t = none ↔ '>' ∉ t := by
  induction t with
  | nil => simp [close]
  | cons c t ih =>
    rw [close]
    split
    · rename_i h; simp [h]
    · rename_i h
      rw [Option.map_eq_none_iff, ih]
      simp only [List.mem_cons, not_or]
      exact ⟨fun q => ⟨fun e => h e.symm, q⟩, fun q => q.2⟩

theorem close_some {t n r : Str} (h : close t = some (n, r)) : ∃ b, n = b ++ ['>'] ∧ '>' ∉ b ∧ t = b ++ '>' :: r := by
  induction t generalizing n with
  | nil => cases h
  | cons c t ih =>
    rw [close] at h
    split at h
    · rename_i hc
      injection h with h
      injection h with h1 h2
      subst h1; subst h2
      exact ⟨[], by rw [hc]; rfl, by simp, by rw [hc]; rfl⟩
    · rename_i hc
      cases hq : close t with
      | none => rw [hq] at h; cases h
      | some q =>
        obtain ⟨n', r'⟩ := q
        rw [hq] at h
        simp only [Option.map_some, Option.some.injEq, Prod.mk.injEq] at h
        obtain ⟨rfl, rfl⟩ := h
        obtain ⟨b, h1, h2, h3⟩ := ih hq
        exact ⟨c :: b, by rw [h1]; rfl, by simp only [List.mem_cons, not_or]; exact ⟨fun e => hc e.symm, h2⟩, by rw [h3]; rfl⟩

variable {v : Env} {rel : Nat → Str}

/-- The paths exist. -/
def Paths (v : Env) (rel : Nat → Str) : Prop :=
  ∀ g ∈ v.groups, ∀ i ∈ v.inputs g, v.generated i = true → relative v.T v.fuel v.cwd i '/' = some (rel i)

theorem addInputs_spec (tf : Bool) : ∀ (is : List Nat) (s : Bool × Str),
    (∀ i ∈ is, v.generated i = true → relative v.T v.fuel v.cwd i '/' = some (rel i)) →
    addInputs v tf is s = some (((is.filter v.generated).map rel).foldl (emit tf) s) := by
  intro is
  induction is with
  | nil => intro s _; rfl
  | cons i is ih =>
    intro s h
    rw [addInputs]
    split
    · rename_i hg
      rw [h i (by simp) hg]
      simp only
      rw [ih _ (fun j hj => h j (by simp [hj])), List.filter_cons, if_pos hg]
      rfl
    · rename_i hg
      rw [ih _ (fun j hj => h j (by simp [hj])), List.filter_cons, if_neg hg]

theorem addGroups_spec (tf : Bool) (nm : Str) : ∀ (gs : List Nat) (s : Bool × Str) (used : List Nat),
    (∀ g ∈ gs, ∀ i ∈ v.inputs g, v.generated i = true → relative v.T v.fuel v.cwd i '/' = some (rel i)) →
    addGroups v tf nm gs (s, used) = some
      ((((gs.filter fun g => decide (nm <+: v.name g)).flatMap fun g => (v.inputs g).filter v.generated).map rel).foldl
        (emit tf) s, used ++ gs.filter fun g => decide (nm <+: v.name g)) := by
  intro gs
  induction gs with
  | nil => intro s used _; simp [addGroups]
  | cons g gs ih =>
    intro s used h
    rw [addGroups]
    split
    · rename_i hp
      have hp' : nm <+: v.name g := List.isPrefixOf_iff_prefix.1 hp
      rw [addInputs_spec tf _ s (h g (by simp))]
      simp only
      rw [ih _ _ (fun g' hg' => h g' (by simp [hg']))]
      simp only [List.filter_cons, decide_eq_true hp', if_true, List.flatMap_cons, List.map_append, List.foldl_append,
        List.append_assoc, List.cons_append, List.nil_append]
    · rename_i hp
      have hp' : ¬ nm <+: v.name g := fun q => hp (List.isPrefixOf_iff_prefix.2 q)
      rw [ih _ _ (fun g' hg' => h g' (by simp [hg'])), List.filter_cons, if_neg (by simpa using hp')]

theorem emit_inline : ∀ (l : List Str) (t : Str),
    (l.foldl (emit false) (false, t)).2 = t ++ (l.map fun p => ' ' :: p).flatten := by
  intro l
  induction l with
  | nil => intro t; simp
  | cons p l ih =>
    intro t
    rw [List.foldl_cons]
    have : emit false (false, t) p = (false, t ++ ' ' :: p) := by simp [emit]
    rw [this, ih]
    simp

theorem intercalate_cons (x : Str) : ∀ (l : List Str), List.intercalate [' '] (x :: l) = x ++ (l.map fun p => ' ' :: p).flatten := by
  intro l
  induction l generalizing x with
  | nil => simp [List.intercalate]
  | cons y l ih =>
    rw [show List.intercalate [' '] (x :: y :: l) = x ++ [' '] ++ List.intercalate [' '] (y :: l) by
      simp [List.intercalate, List.intersperse], ih y]
    simp

theorem emit_words (l : List Str) : (l.foldl (emit false) (true, [])).2 = List.intercalate [' '] l := by
  cases l with
  | nil => simp [List.intercalate]
  | cons p l =>
    rw [List.foldl_cons, show emit false (true, []) p = (false, p) by simp [emit], emit_inline, intercalate_cons]

theorem emit_lines : ∀ (l : List Str) (b : Bool) (t : Str),
    (l.foldl (emit true) (b, t)).2 = t ++ (l.map fun p => p ++ ['\n']).flatten := by
  intro l
  induction l with
  | nil => intro b t; simp
  | cons p l ih =>
    intro b t
    rw [List.foldl_cons, show emit true (b, t) p = (false, t ++ p ++ ['\n']) by simp [emit], ih]
    simp

theorem expandGroup_spec (hp : Paths v rel) (tf : Bool) (s : Seg) :
    expandGroup v tf s.nm = if meant v s = [] then .error .noGroup else
      .ok (if tf then ((files v s).map fun i => rel i ++ ['\n']).flatten else List.intercalate [' '] ((files v s).map rel), meant v s) := by
  rw [expandGroup, addGroups_spec (rel := rel) tf s.nm v.groups (true, []) [] hp]
  simp only [List.nil_append]
  change (if meant v s = [] then Except.error Err.noGroup else
    Except.ok ((List.foldl (emit tf) (true, []) (List.map rel (files v s))).2, meant v s)) = _
  by_cases hm : meant v s = []
  · rw [if_pos hm, if_pos hm]
  · rw [if_neg hm, if_neg hm]
    cases tf with
    | true =>
      simp only [if_true]
      rw [emit_lines, List.nil_append, List.map_map]
      rfl
    | false =>
      simp only [Bool.false_eq_true, if_false]
      rw [emit_words]

/-- What a run of the loop over a reading does. -/
def mean (v : Env) (rel : Nat → Str) (n : Nat) : List Seg → Acc → Except Err Acc
  | [], a => .ok a
  | s :: ss, a =>
    if meant v s = [] then .error .noGroup
    else if s.res then
      mean v rel n ss ⟨a.text ++ s.pre ++ (List.replicate n "../".toList).flatten ++ resName a.next,
        a.files ++ [(a.next, ((files v s).map fun i => rel i ++ ['\n']).flatten)], a.next + 1, a.used ++ meant v s⟩
    else mean v rel n ss ⟨a.text ++ s.pre ++ List.intercalate [' '] ((files v s).map rel), a.files, a.next, a.used ++ meant v s⟩

theorem loop_seg (hp : Paths v rel) {n : Nat} (hn : ups v.T v.fuel v.dir = some n) (ss : List Seg) : ∀ (k : Nat) (last : Str) (a : Acc),
    Reading ss last → loop v (k + ss.length) (write ss last) a =
      match mean v rel n ss a with
      | .error e => .error e
      | .ok a => loop v k last a := by
  induction ss with
  | nil => intro k last a _; rfl
  | cons s ss ih =>
    intro k last a hr
    obtain ⟨h1, h2, h3, h4⟩ := hr
    rw [show k + (s :: ss).length = (k + ss.length) + 1 by simp only [List.length_cons]; omega, loop]
    have hw : write (s :: ss) last = s.pre ++ '%' :: '<' :: (s.body ++ '>' :: ((if s.res then ".res".toList else []) ++ write ss last)) := by
      simp [write, Seg.src, Seg.nm]
    rw [hw, cut_append h1]
    have hcl : close ('<' :: (s.body ++ '>' :: ((if s.res then ".res".toList else []) ++ write ss last))) =
        some (s.nm, (if s.res then ".res".toList else []) ++ write ss last) := by
      have := close_append (b := '<' :: s.body) (r := (if s.res then ".res".toList else []) ++ write ss last)
        (by simp only [List.mem_cons, not_or]; exact ⟨by decide, h2⟩)
      exact this
    simp only [hcl, mean]
    cases hres : s.res with
    | true =>
      simp only [if_true]
      rw [if_pos (List.isPrefixOf_iff_prefix.2 (List.prefix_append _ _))]
      have hd : (".res".toList ++ write ss last).drop 4 = write ss last := rfl
      simp only [resFile, hn, expandGroup_spec hp true s, hd]
      by_cases hm : meant v s = []
      · simp only [if_pos hm]
      · simp only [if_neg hm, if_true]
        exact ih k last _ h4
    | false =>
      simp only [Bool.false_eq_true, if_false, List.nil_append]
      rw [if_neg (fun q => h3 hres (List.isPrefixOf_iff_prefix.1 q))]
      simp only [inline, expandGroup_spec hp false s]
      by_cases hm : meant v s = []
      · simp only [if_pos hm]
      · simp only [if_neg hm, Bool.false_eq_true, if_false]
        exact ih k last _ h4

theorem mean_ok (n : Nat) (last : Str) : ∀ (ss : List Seg) (a : Acc), (∀ s ∈ ss, meant v s ≠ []) →
    ∃ b, mean v rel n ss a = .ok b ∧ b.text ++ last = a.text ++ expanded v rel n a.next ss last ∧
      b.files = a.files ++ resources v rel a.next ss ∧ b.used = a.used ++ ss.flatMap (meant v) ∧
      b.next = a.next + (ss.filter (·.res)).length := by
  intro ss
  induction ss with
  | nil => intro a _; exact ⟨a, rfl, rfl, by simp [resources], by simp, by simp⟩
  | cons s ss ih =>
    intro a h
    rw [mean, if_neg (h s (by simp))]
    cases hres : s.res with
    | true =>
      simp only [if_true]
      obtain ⟨b, e1, e2, e3, e4, e5⟩ := ih ⟨a.text ++ s.pre ++ (List.replicate n "../".toList).flatten ++ resName a.next,
        a.files ++ [(a.next, ((files v s).map fun i => rel i ++ ['\n']).flatten)], a.next + 1, a.used ++ meant v s⟩
        (fun s' hs' => h s' (by simp [hs']))
      refine ⟨b, e1, ?_, ?_, ?_, ?_⟩
      · rw [e2]; simp [expanded, hres]
      · rw [e3]; simp [resources, hres]
      · rw [e4]; simp
      · rw [e5]; simp only [List.filter_cons, hres, if_true, List.length_cons]; omega
    | false =>
      simp only [Bool.false_eq_true, if_false]
      obtain ⟨b, e1, e2, e3, e4, e5⟩ := ih ⟨a.text ++ s.pre ++ List.intercalate [' '] ((files v s).map rel), a.files, a.next, a.used ++ meant v s⟩
        (fun s' hs' => h s' (by simp [hs']))
      refine ⟨b, e1, ?_, ?_, ?_, ?_⟩
      · rw [e2]; simp [expanded, hres]
      · rw [e3]; simp [resources, hres]
      · rw [e4]; simp
      · rw [e5]; simp [hres]

theorem mean_error (n : Nat) : ∀ (ss : List Seg) (a : Acc), (∃ s ∈ ss, meant v s = []) →
    mean v rel n ss a = .error .noGroup := by
  intro ss
  induction ss with
  | nil => rintro a ⟨s, hs, _⟩; cases hs
  | cons s ss ih =>
    rintro a ⟨s', hs', hm⟩
    rw [mean]
    split
    · rfl
    · rename_i hne
      have : ∃ s ∈ ss, meant v s = [] := by
        rcases List.mem_cons.1 hs' with rfl | q
        · exact absurd hm hne
        · exact ⟨s', q, hm⟩
      split <;> exact ih _ this

theorem write_length (ss : List Seg) (last : Str) : ss.length + last.length ≤ (write ss last).length := by
  induction ss with
  | nil => simp [write]
  | cons s ss ih =>
    simp only [write, Seg.src, Seg.nm, List.length_append, List.length_cons]
    omega

end Tup.Expand
