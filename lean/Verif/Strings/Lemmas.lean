import Verif.Strings.Spec

namespace Tup.Strings

theorem write_ok {m : Mem} {off : Nat} {src : Str} (h : off + src.length ≤ m.length) :
    write m off src = some (m.take off ++ src.map some ++ m.drop (off + src.length)) := by
  rw [write, if_pos h]

theorem init_holds {alloc} (h : alloc 4096 = true) : ∃ e, init alloc = .ok e ∧ Holds e [] ∧ e.maxlen = 4096 := by
  unfold init
  rw [if_pos h]
  have gen : ∀ n, 0 < n → ∃ m, write (List.replicate n none) 0 ['\x00'] = some m ∧ Holds ⟨m, 0, n⟩ [] := by
    intro n hn
    refine ⟨_, write_ok (by simp; omega), rfl, ?_, hn, ?_⟩
    · simp; omega
    · simp
  obtain ⟨m, hm, hh⟩ := gen 4096 (by decide)
  rw [hm]
  exact ⟨_, rfl, hh, rfl⟩

theorem grow_ok (need : Nat) (hn : need ≤ 2 ^ 30) : ∀ (k : Nat) (fuel : Nat), k < fuel → k ≤ 30 →
    ∃ m, grow need fuel (2 ^ (30 - k)) = some m ∧ need ≤ m ∧ ∃ j, j ≤ 30 ∧ 30 - k ≤ j ∧ m = 2 ^ j := by
  intro k
  induction k with
  | zero =>
    intro fuel hf _
    obtain ⟨f, rfl⟩ : ∃ f, fuel = f + 1 := ⟨fuel - 1, by omega⟩
    rw [grow, if_neg (by omega)]
    exact ⟨_, rfl, hn, 30, by omega, by omega, rfl⟩
  | succ k ih =>
    intro fuel hf hk
    obtain ⟨f, rfl⟩ : ∃ f, fuel = f + 1 := ⟨fuel - 1, by omega⟩
    rw [grow]
    have h2 : 2 * 2 ^ (30 - (k + 1)) = 2 ^ (30 - k) := by
      rw [show 30 - k = (30 - (k + 1)) + 1 by omega, Nat.pow_succ]; omega
    split
    · rw [h2, if_pos]
      · obtain ⟨m, h1, h3, j, h4, h5, h6⟩ := ih f (by omega) (by omega)
        exact ⟨m, h1, h3, j, h4, by omega, h6⟩
      · have : 2 ^ (30 - k) ≤ 2 ^ 30 := Nat.pow_le_pow_right (by omega) (by omega)
        unfold intMax
        have h30 : (2 : Nat) ^ 30 = 1073741824 := by decide
        omega
    · exact ⟨_, rfl, by omega, 30 - (k + 1), by omega, by omega, rfl⟩

theorem grow_bad (need : Nat) (hn : 2 ^ 30 < need) : ∀ (fuel k : Nat), k ≤ 30 → grow need fuel (2 ^ k) = none := by
  intro fuel
  induction fuel with
  | zero => intro k _; rfl
  | succ f ih =>
    intro k hk
    have hp : 2 ^ k ≤ 2 ^ 30 := Nat.pow_le_pow_right (by omega) hk
    rw [grow, if_pos (by omega)]
    by_cases h : k = 30
    · subst h
      rw [if_neg (by decide)]
    · rw [show 2 * 2 ^ k = 2 ^ (k + 1) by rw [Nat.pow_succ]; omega, ih (k + 1) (by omega)]
      split <;> rfl

/-- The part of `append` after the buffer has been grown. -/
theorem put_holds {s : Mem} {len : Nat} {maxlen : Nat} {t src : Str} (hlen : len = t.length)
    (hs : s.length = maxlen) (ht : s.take t.length = t.map some) (hn : t.length + src.length + 1 ≤ maxlen) :
    ∃ m1 m2, write s len src = some m1 ∧ write m1 (len + src.length) ['\x00'] = some m2 ∧
      Holds ⟨m2, len + src.length, maxlen⟩ (t ++ src) := by
  subst hlen
  have hs1 : t.length + src.length ≤ s.length := by omega
  refine ⟨_, _, write_ok hs1, write_ok (by simp; omega), ?_⟩
  have hl : (s.take t.length ++ src.map some).length = t.length + src.length := by
    simp only [List.length_append, List.length_take, List.length_map]; omega
  have htk : (s.take t.length ++ src.map some ++ s.drop (t.length + src.length)).take (t.length + src.length) =
      s.take t.length ++ src.map some := List.take_left' hl
  refine ⟨by simp, ?_, by simp; omega, ?_⟩
  · rw [htk]
    simp only [List.length_append, hl, List.length_map, List.length_cons, List.length_nil, List.length_drop]
    omega
  · rw [htk]
    have hl2 : (s.take t.length ++ src.map some ++ ['\x00'].map some).length = (t ++ src).length + 1 := by
      simp only [List.length_append, hl]; simp
    rw [List.take_left' hl2, ht]
    simp

theorem append_ok {alloc} {e : Estring} {t src : Str} {k : Nat} (h : Holds e t) (hm : e.maxlen = 2 ^ k) (hk : k ≤ 30)
    (hb : t.length + src.length < 2 ^ 30) :
    append alloc e src = .err ∨ ∃ e' k', append alloc e src = .ok e' ∧ Holds e' (t ++ src) ∧
      e'.maxlen = 2 ^ k' ∧ k' ≤ 30 := by
  obtain ⟨h1, h2, h3, h4⟩ := h
  have h4' : e.s.take t.length = t.map some := by
    have := congrArg (List.take t.length) h4
    rw [List.take_take] at this
    rw [show min t.length (t.length + 1) = t.length by omega] at this
    rw [this]
    simp
  unfold append
  dsimp only
  rw [if_neg (by unfold intMax; rw [h1]; have : (2 : Nat) ^ 30 = 1073741824 := by decide
                 omega)]
  by_cases hg : e.len + src.length + 1 > e.maxlen
  · rw [if_pos hg]
    obtain ⟨m, hm1, hm2, j, hj, _, hm3⟩ :=
      grow_ok (e.len + src.length + 1) (by rw [h1]; omega) (30 - k) 32 (by omega) (by omega)
    rw [show 30 - (30 - k) = k by omega, ← hm] at hm1
    rw [hm1]
    dsimp only
    by_cases ha : alloc m
    · rw [if_pos ha]
      have hlm : e.s.length < m := by rw [h2]; omega
      obtain ⟨m1, m2, w1, w2, hh⟩ := put_holds (s := realloc e.s m) (len := e.len) (maxlen := m) (t := t) (src := src) h1
        (by unfold realloc; rw [List.length_append, List.length_take, List.length_replicate]; omega)
        (by
          unfold realloc
          rw [List.take_append_of_le_length (by rw [List.length_take]; omega), List.take_take, Nat.min_eq_left (by omega)]
          exact h4')
        (by rw [← h1]; omega)
      right
      rw [w1]
      dsimp only
      rw [w2]
      exact ⟨_, j, rfl, hh, hm3, hj⟩
    · rw [if_neg ha]; exact .inl rfl
  · rw [if_neg hg]
    obtain ⟨m1, m2, w1, w2, hh⟩ := put_holds (s := e.s) (len := e.len) (maxlen := e.maxlen) (t := t) (src := src) h1
      h2 h4' (by rw [← h1]; omega)
    right
    rw [w1]
    dsimp only
    rw [w2]
    exact ⟨_, k, rfl, hh, hm, hk⟩

theorem append_bad {alloc} {e : Estring} {t src : Str} {k : Nat} (h : Holds e t) (hm : e.maxlen = 2 ^ k) (hk : k ≤ 30)
    (hb : 2 ^ 30 ≤ t.length + src.length) : append alloc e src = .ub := by
  unfold append
  dsimp only
  split
  · rfl
  · have hp : 2 ^ k ≤ 2 ^ 30 := Nat.pow_le_pow_right (by omega) hk
    rw [if_pos (by rw [h.1, hm]; omega), hm, grow_bad _ (by rw [h.1]; omega) _ _ hk]

theorem appendAll_ok {alloc} : ∀ (l : List Str) {e : Estring} {t : Str} {k : Nat}, Holds e t → e.maxlen = 2 ^ k →
    k ≤ 30 → t.length + l.flatten.length < 2 ^ 30 →
    appendAll alloc e l = .err ∨ ∃ e' k', appendAll alloc e l = .ok e' ∧ Holds e' (t ++ l.flatten) ∧
      e'.maxlen = 2 ^ k' ∧ k' ≤ 30
  | [], e, t, k, h, hm, hk, _ => .inr ⟨e, k, rfl, by simpa using h, hm, hk⟩
  | s :: l, e, t, k, h, hm, hk, hb => by
    rw [appendAll]
    have hb' : t.length + s.length + l.flatten.length < 2 ^ 30 := by
      rw [List.flatten_cons, List.length_append] at hb; omega
    rcases append_ok (alloc := alloc) (src := s) h hm hk (by omega) with he | ⟨e', k', he, h', hm', hk'⟩
    · rw [he]; exact .inl rfl
    · rw [he]
      have := appendAll_ok (alloc := alloc) l h' hm' hk' (by rw [List.length_append]; omega)
      rw [List.append_assoc] at this
      rw [List.flatten_cons]
      exact this

theorem append_alloc {e : Estring} {src : Str} : append (fun _ => true) e src ≠ .err := by
  unfold append
  dsimp only
  split
  · simp
  split
  · split
    · simp
    · rw [if_pos rfl]
      split
      · simp
      · split <;> simp
  · split
    · simp
    · split <;> simp

theorem appendAll_alloc : ∀ (l : List Str) (e : Estring), appendAll (fun _ => true) e l ≠ .err
  | [], _ => by simp [appendAll]
  | s :: l, e => by
    rw [appendAll]
    cases h : append (fun _ => true) e s with
    | ok e' => exact appendAll_alloc l e'
    | err => exact absurd h append_alloc
    | ub => simp [Res.bind]

/-! ### escaping -/

theorem memchr_none {c : Char} {p : Str} (h : memchr c p = none) : c ∉ p := by
  induction p with
  | nil => simp
  | cons d p ih =>
    rw [memchr] at h
    split at h
    · cases h
    · next hd =>
      have := ih (by simpa using h)
      simp [Ne.symm hd, this]

theorem memchr_some {c : Char} {p a b : Str} (h : memchr c p = some (a, b)) : p = a ++ c :: b ∧ c ∉ a := by
  induction p generalizing a with
  | nil => cases h
  | cons d p ih =>
    rw [memchr] at h
    split at h
    · next hd =>
      simp only [Option.some.injEq, Prod.mk.injEq] at h
      rw [← h.1, ← h.2, hd]; simp
    · next hd =>
      cases hm : memchr c p with
      | none => rw [hm] at h; cases h
      | some r =>
        rw [hm] at h
        simp only [Option.map_some, Option.some.injEq, Prod.mk.injEq] at h
        obtain ⟨h1, h2⟩ := ih (a := r.1) (by rw [hm, ← h.2])
        rw [← h.1, h1]
        simp [Ne.symm hd, h2]

/-- What escaping makes of a string: every occurrence of the escape character is replaced. -/
def escaped (escape : Char) (s : Str) : Str :=
  s.flatMap fun c => if c = escape then (if escape = '\'' then "'\"'\"'".toList else "\\\"".toList) else [c]

theorem escaped_not_mem {c : Char} {s : Str} (h : c ∉ s) : escaped c s = s := by
  induction s with
  | nil => rfl
  | cons d s ih =>
    have hd : d ≠ c := fun e => h (e ▸ List.mem_cons_self)
    have := ih fun e => h (List.mem_cons_of_mem _ e)
    unfold escaped at this ⊢
    rw [List.flatMap_cons, if_neg hd, this]; rfl

theorem escapePieces_eq (escape : Char) : ∀ (fuel : Nat) (s : Str), s.length < fuel →
    (escapePieces escape fuel s).flatten = escaped escape s := by
  intro fuel
  induction fuel with
  | zero => intro s h; omega
  | succ fuel ih =>
    intro s hf
    rw [escapePieces]
    split
    · next h => subst h; rfl
    split
    · next h => rw [escaped_not_mem (memchr_none h)]; simp
    · next a b h =>
      obtain ⟨hs, ha⟩ := memchr_some h
      have hb : b.length < fuel := by rw [hs] at hf; simp at hf; omega
      rw [List.flatten_cons, List.flatten_cons, ih b hb, hs]
      have : escaped escape (a ++ escape :: b) = escaped escape a ++
          ((if escape = '\'' then "'\"'\"'".toList else "\\\"".toList) ++ escaped escape b) := by
        unfold escaped
        rw [List.flatMap_append, List.flatMap_cons, if_pos rfl]
      rw [this, escaped_not_mem ha]

theorem shWord_single (s : Str) : ∀ r, shWord .single (escaped '\'' s ++ '\'' :: r) = (shWord .plain r).map (s ++ ·) := by
  induction s with
  | nil => intro r; simp [escaped, shWord]
  | cons c s ih =>
    intro r
    have he : escaped '\'' (c :: s) ++ '\'' :: r =
        (if c = '\'' then "'\"'\"'".toList else [c]) ++ (escaped '\'' s ++ '\'' :: r) := by
      unfold escaped
      rw [List.flatMap_cons, List.append_assoc]
      rfl
    rw [he]
    by_cases hc : c = '\''
    · rw [if_pos hc]
      subst hc
      show shWord .single ('\'' :: '"' :: '\'' :: '"' :: '\'' :: (escaped '\'' s ++ '\'' :: r)) = _
      rw [shWord, if_pos rfl, shWord, if_neg (by decide), if_pos rfl, shWord, if_neg (by decide),
        if_neg (by decide), shWord, if_pos rfl, shWord, if_pos rfl, ih r, Option.map_map]
      · rfl
      all_goals intro c' s' e _; exact absurd e (by decide)
    · rw [if_neg hc]
      show shWord .single (c :: (escaped '\'' s ++ '\'' :: r)) = _
      rw [shWord, if_neg hc, ih r, Option.map_map]
      rfl

theorem shWord_double (s : Str) (h : ∀ c ∈ s, c ≠ '$' ∧ c ≠ '`' ∧ c ≠ '\\') :
    ∀ r, shWord .double (escaped '"' s ++ '"' :: r) = (shWord .plain r).map (s ++ ·) := by
  induction s with
  | nil => intro r; simp [escaped, shWord]
  | cons c s ih =>
    intro r
    have ih' := ih (fun c hc => h c (List.mem_cons_of_mem _ hc)) r
    have he : escaped '"' (c :: s) ++ '"' :: r =
        (if c = '"' then "\\\"".toList else [c]) ++ (escaped '"' s ++ '"' :: r) := by
      unfold escaped
      rw [List.flatMap_cons, List.append_assoc]
      rfl
    rw [he]
    obtain ⟨h1, h2, h3⟩ := h c List.mem_cons_self
    by_cases hc : c = '"'
    · rw [if_pos hc]
      subst hc
      show shWord .double ('\\' :: '"' :: (escaped '"' s ++ '"' :: r)) = _
      rw [shWord, if_neg (by decide), if_pos (by simp), ih', Option.map_map]
      rfl
    · rw [if_neg hc]
      show shWord .double (c :: (escaped '"' s ++ '"' :: r)) = _
      rw [shWord, if_neg hc, if_neg (by simp [h1, h2, h3]), ih', Option.map_map]
      · rfl
      · intro c' s' e _; exact absurd e h3

/-! ### JSON -/

/-- What `print_json` prints. -/
def jsonEsc (s : Str) : Str := s.flatMap fun c => if c = '\\' ∨ c = '"' then ['\\', c] else [c]

theorem jsonEsc_cons (c : Char) (s : Str) :
    jsonEsc (c :: s) = (if c = '\\' ∨ c = '"' then ['\\', c] else [c]) ++ jsonEsc s := List.flatMap_cons

theorem jsonDecode_esc (s : Str) (h : ∀ c ∈ s, control c = false) : jsonDecode (jsonEsc s) = some s := by
  induction s with
  | nil => rfl
  | cons c s ih =>
    have ih' := ih fun c hc => h c (List.mem_cons_of_mem _ hc)
    have hc : ¬ c.toNat < 32 := by simpa [control] using h c List.mem_cons_self
    rw [jsonEsc_cons]
    by_cases he : c = '\\' ∨ c = '"'
    · rw [if_pos he]
      show jsonDecode ('\\' :: c :: jsonEsc s) = _
      rw [jsonDecode, if_pos (by rcases he with h | h <;> simp [h]), ih']; rfl
    · rw [if_neg he]
      show jsonDecode (c :: jsonEsc s) = _
      rw [jsonDecode, if_neg (by simp only [not_or] at he ⊢; exact ⟨he.1, he.2, hc⟩), ih']
      · rfl
      · intro c' s' e _; exact he (.inl e)

theorem jsonDecode_control (s : Str) (h : ∃ c ∈ s, control c = true) : jsonDecode (jsonEsc s) = none := by
  induction s with
  | nil => simp at h
  | cons c s ih =>
    rw [jsonEsc_cons]
    by_cases he : c = '\\' ∨ c = '"'
    · rw [if_pos he]
      show jsonDecode ('\\' :: c :: jsonEsc s) = _
      have : ∃ c ∈ s, control c = true := by
        obtain ⟨d, hd, hc⟩ := h
        rcases List.mem_cons.1 hd with rfl | hd
        · rcases he with rfl | rfl <;> exact absurd hc (by decide)
        · exact ⟨d, hd, hc⟩
      rw [jsonDecode, if_pos (by rcases he with h | h <;> simp [h]), ih this]; rfl
    · rw [if_neg he]
      show jsonDecode (c :: jsonEsc s) = _
      rw [jsonDecode]
      · by_cases hc : control c = true
        · rw [if_pos (.inr (.inr (by simpa [control] using hc)))]
        · have : ∃ c ∈ s, control c = true := by
            obtain ⟨d, hd, hc'⟩ := h
            rcases List.mem_cons.1 hd with rfl | hd
            · exact absurd hc' hc
            · exact ⟨d, hd, hc'⟩
          rw [ih this]
          split <;> rfl
      · intro c' s' e _; exact he (.inl e)

/-- The loop: with `t` already written and enough room, the escaped string is appended. -/
theorem jsonLoop_ok (s : Str) : ∀ (buf : Mem) (t : Str), buf.take t.length = t.map some →
    t.length + (jsonEsc s).length ≤ buf.length →
    ∃ buf', jsonLoop s buf t.length = some (buf', (t ++ jsonEsc s).length) ∧ buf'.length = buf.length ∧
      buf'.take (t ++ jsonEsc s).length = (t ++ jsonEsc s).map some := by
  -- one byte at the end of the written part
  have put : ∀ (buf : Mem) (t : Str) (c : Char), buf.take t.length = t.map some → t.length + 1 ≤ buf.length →
      ∃ buf', write buf t.length [c] = some buf' ∧ buf'.length = buf.length ∧
        buf'.take (t ++ [c]).length = (t ++ [c]).map some := by
    intro buf t c ht hl
    refine ⟨_, write_ok hl, ?_, ?_⟩
    · simp only [List.length_append, List.length_take, List.length_map, List.length_cons, List.length_nil,
        List.length_drop]; omega
    · rw [List.take_left', ht]
      · simp
      · simp only [List.length_append, List.length_take, List.length_map, List.length_cons, List.length_nil]; omega
  induction s with
  | nil => intro buf t ht _; exact ⟨buf, by simp [jsonLoop, jsonEsc], rfl, by simpa [jsonEsc] using ht⟩
  | cons c s ih =>
    intro buf t ht hl
    rw [jsonEsc_cons] at hl ⊢
    rw [jsonLoop]
    by_cases he : c = '\\' ∨ c = '"'
    · rw [if_pos he] at hl ⊢
      rw [if_pos he]
      have hl' : t.length + 2 + (jsonEsc s).length ≤ buf.length := by simp at hl; omega
      obtain ⟨b1, w1, l1, t1⟩ := put buf t '\\' ht (by omega)
      obtain ⟨b2, w2, l2, t2⟩ := put b1 (t ++ ['\\']) c t1 (by rw [l1]; simp; omega)
      rw [w1]
      dsimp only
      rw [show t.length + 1 = (t ++ ['\\']).length by simp, w2]
      dsimp only
      obtain ⟨b3, w3, l3, t3⟩ := ih b2 (t ++ ['\\'] ++ [c]) t2 (by rw [l2, l1]; simp; omega)
      rw [show t.length + 2 = (t ++ ['\\'] ++ [c]).length by simp]
      refine ⟨b3, ?_, by rw [l3, l2, l1], ?_⟩
      · rw [w3]; simp
      · simpa using t3
    · rw [if_neg he] at hl ⊢
      rw [if_neg he]
      have hl' : t.length + 1 + (jsonEsc s).length ≤ buf.length := by simp at hl; omega
      obtain ⟨b1, w1, l1, t1⟩ := put buf t c ht (by omega)
      rw [w1]
      dsimp only
      obtain ⟨b3, w3, l3, t3⟩ := ih b1 (t ++ [c]) t1 (by rw [l1]; simp; omega)
      rw [show t.length + 1 = (t ++ [c]).length by simp]
      refine ⟨b3, ?_, by rw [l3, l1], ?_⟩
      · rw [w3]; simp
      · simpa using t3

theorem cString_map (t : Str) (h : '\x00' ∉ t) (r : Mem) : cString (t.map some ++ some '\x00' :: r) = some t := by
  induction t with
  | nil => simp [cString]
  | cons c t ih =>
    have hc : c ≠ '\x00' := fun e => h (e ▸ List.mem_cons_self)
    rw [List.map_cons, List.cons_append, cString, if_neg hc, ih fun e => h (List.mem_cons_of_mem _ e)]
    rfl

theorem jsonEsc_len (s : Str) : (jsonEsc s).length ≤ 2 * s.length ∧
    ((jsonEsc s).length = 2 * s.length ↔ ∀ c ∈ s, c = '\\' ∨ c = '"') := by
  induction s with
  | nil => simp [jsonEsc]
  | cons c s ih =>
    rw [jsonEsc_cons]
    by_cases he : c = '\\' ∨ c = '"'
    · rw [if_pos he]
      refine ⟨by simp; omega, ?_⟩
      rw [List.forall_mem_cons, ← ih.2]
      simp [he]; omega
    · rw [if_neg he]
      refine ⟨by simp; omega, ?_⟩
      rw [List.forall_mem_cons]
      constructor
      · intro h; simp at h; omega
      · intro h; exact absurd h.1 he

theorem jsonEsc_nul {s : Str} (h : '\x00' ∉ s) : '\x00' ∉ jsonEsc s := by
  unfold jsonEsc
  rw [List.mem_flatMap]
  rintro ⟨c, hc, hm⟩
  split at hm
  · simp at hm; exact h (hm ▸ hc)
  · simp at hm; exact h (hm ▸ hc)

/-- `print_json` in full. -/
theorem printJson_eq (s : Str) (h0 : '\x00' ∉ s) :
    printJson s = if (∀ c ∈ s, c = '\\' ∨ c = '"') then .ub else .ok (jsonEsc s) := by
  unfold printJson
  obtain ⟨hle, hiff⟩ := jsonEsc_len s
  obtain ⟨buf, w, l, t⟩ := jsonLoop_ok s (List.replicate (s.length * 2) none) [] rfl
    (by rw [List.length_replicate]; simp; omega)
  rw [List.length_nil] at w
  rw [w]
  dsimp only
  rw [List.nil_append] at t ⊢
  rw [List.length_replicate] at l
  by_cases hall : ∀ c ∈ s, c = '\\' ∨ c = '"'
  · rw [if_pos hall, write, if_neg]
    have := hiff.2 hall
    rw [l]
    simp only [List.length_cons, List.length_nil]
    omega
  · rw [if_neg hall, write_ok]
    · dsimp only
      rw [t]
      have : ((jsonEsc s).map some ++ ['\x00'].map some ++
          buf.drop ((jsonEsc s).length + ['\x00'].length)) =
          (jsonEsc s).map some ++ some '\x00' :: buf.drop ((jsonEsc s).length + ['\x00'].length) := by simp
      rw [this, cString_map _ (jsonEsc_nul h0)]
    · have : (jsonEsc s).length ≠ 2 * s.length := fun e => hall (hiff.1 e)
      rw [l]
      simp only [List.length_cons, List.length_nil]
      omega

end Tup.Strings
