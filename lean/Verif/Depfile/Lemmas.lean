import Verif.Depfile.Spec

/-! Lemmas for the file of accesses. -/

namespace Tup.Depfile

theorem bytes_sum (u : Nat) (hu : u < 4294967296) :
    ((u % 256 : Nat) : Int) + 256 * (u / 256 % 256 : Nat) + 65536 * (u / 65536 % 256 : Nat) +
      16777216 * (u / 16777216 % 256 : Nat) = u := by omega

theorem getInt_putInt {n : Int} (h1 : -2 ^ 31 ≤ n) (h2 : n < 2 ^ 31) (r : Bytes) : getInt (putInt n ++ r) = n := by
  have hu : ((n % 2 ^ 32).toNat : Int) = n % 2 ^ 32 := by omega
  have hlt : (n % 2 ^ 32).toNat < 4294967296 := by omega
  generalize hd : (n % 2 ^ 32).toNat = u at hu hlt
  have e : getInt (putInt n ++ r) = if (u : Int) < 2 ^ 31 then (u : Int) else (u : Int) - 2 ^ 32 := by
    unfold putInt
    rw [hd, ← bytes_sum u hlt]
    rfl
  rw [e]
  by_cases hx : (u : Int) < 2 ^ 31
  · rw [if_pos hx]; omega
  · rw [if_neg hx]; omega

theorem putInt_length (n : Int) : (putInt n).length = 4 := rfl

/-- The bytes of one event. -/
def enc (a : Access) : Bytes :=
  putInt a.kind ++ putInt a.path.length ++ putInt a.path2.length ++ (a.path ++ [0]) ++ (a.path2 ++ [0])

theorem chunks_enc (c : Call) : (chunks c).flatten = enc (access c) := by
  unfold chunks enc access absolute2 absolute isFull
  have hl : lit "/" = [47] := by decide
  rw [hl]
  by_cases h1 : c.file.head? = some 47 <;> by_cases h2 : c.file2 = [] <;> by_cases h3 : c.file2.head? = some 47 <;>
    simp_all [Int.add_comm, Int.add_left_comm]

theorem cstr_eq {b : Bytes} (h : 0 ∉ b) : cstr b = b := by
  unfold cstr
  induction b with
  | nil => rfl
  | cons x xs ih =>
    rw [List.takeWhile_cons]
    have hx : x ≠ 0 := by rintro rfl; simp at h
    simp only [hx, ne_eq, not_false_eq_true, decide_true, if_true]
    rw [ih (fun hm => h (List.mem_cons_of_mem _ hm))]

/-- An access with good strings. -/
structure Acc (a : Access) : Prop where
  kind : -2 ^ 31 ≤ a.kind ∧ a.kind < 2 ^ 31
  path : 0 ∉ a.path
  path2 : 0 ∉ a.path2
  pos : 0 < a.path.length
  len : a.path.length < 2 ^ 31
  len2 : a.path2.length < 2 ^ 31

theorem absolute_pos (d f : Bytes) : 0 < (absolute d f).length := by
  unfold absolute
  split
  · rename_i h
    cases f with
    | nil => cases h
    | cons => simp
  · simp only [List.length_append, List.length_cons]; omega

theorem absolute_nul {d f : Bytes} (hd : 0 ∉ d) (hf : 0 ∉ f) : 0 ∉ absolute d f := by
  unfold absolute
  split <;> simp_all

theorem acc_of_proper {c : Call} (h : Proper c) : Acc (access c) where
  kind := by have := h.kind; simp only [access]; omega
  path := absolute_nul h.dir h.file
  path2 := by
    simp only [access, absolute2]
    split
    · simp
    · exact absolute_nul h.dir h.file2
  pos := absolute_pos _ _
  len := h.len
  len2 := h.len2

theorem enc_fields (a : Access) (ha : Acc a) (rest : Bytes) :
    ((enc a ++ rest) ≠ []) ∧ ¬(enc a ++ rest).length < 12 ∧ getInt (enc a ++ rest) = a.kind ∧
    getInt ((enc a ++ rest).drop 4) = a.path.length ∧ getInt ((enc a ++ rest).drop 8) = a.path2.length ∧
    (enc a ++ rest).drop 12 = a.path ++ [0] ++ (a.path2 ++ [0] ++ rest) := by
  have e : enc a ++ rest = putInt a.kind ++ (putInt a.path.length ++ (putInt a.path2.length ++
      (a.path ++ [0] ++ (a.path2 ++ [0] ++ rest)))) := by
    simp [enc, List.append_assoc]
  have d4 : ∀ (n : Int) (l : Bytes), (putInt n ++ l).drop 4 = l := fun n l => rfl
  have d8 : (enc a ++ rest).drop 8 = putInt a.path2.length ++ (a.path ++ [0] ++ (a.path2 ++ [0] ++ rest)) := by
    rw [e]; rfl
  have d12 : (enc a ++ rest).drop 12 = a.path ++ [0] ++ (a.path2 ++ [0] ++ rest) := by rw [e]; rfl
  have h1 := ha.len
  have h2 := ha.len2
  refine ⟨?_, ?_, ?_, ?_, ?_, d12⟩
  · rw [e]; simp [putInt]
  · rw [e]; simp [putInt_length]; omega
  · rw [e, getInt_putInt ha.kind.1 ha.kind.2]
  · rw [e, d4, getInt_putInt (by omega) (by omega)]
  · rw [d8, getInt_putInt (by omega) (by omega)]

/-- Reading one event. -/
theorem loop_enc {a : Access} (ha : Acc a) (h1 : a.path.length < 4095) (h2 : a.path2.length < 4095) (n : Nat)
    (rest : Bytes) :
    loop (n + 1) (enc a ++ rest) = match loop n rest with
      | .error e => .error e
      | .ok as => .ok (a :: as) := by
  obtain ⟨f1, f2, f3, f4, f5, f6⟩ := enc_fields a ha rest
  have hp := ha.pos
  rw [loop]
  simp only [f3, f4, f5, f6]
  rw [if_neg f1, if_neg f2, if_neg (by omega), if_neg (by omega), if_neg (by omega), if_neg (by omega)]
  have e1 : (a.path ++ [0] ++ (a.path2 ++ [0] ++ rest)).drop ((a.path.length : Int).toNat + 1) =
      a.path2 ++ [0] ++ rest := by
    rw [Int.toNat_natCast]
    exact List.drop_left' (by simp)
  have e2 : (a.path2 ++ [0] ++ rest).drop ((a.path2.length : Int).toNat + 1) = rest := by
    rw [Int.toNat_natCast]
    exact List.drop_left' (by simp)
  have e3 : (a.path ++ [0] ++ (a.path2 ++ [0] ++ rest)).take (a.path.length : Int).toNat = a.path := by
    rw [Int.toNat_natCast, List.append_assoc]
    exact List.take_left' rfl
  have e4 : (a.path2 ++ [0] ++ rest).take (a.path2.length : Int).toNat = a.path2 := by
    rw [Int.toNat_natCast, List.append_assoc]
    exact List.take_left' rfl
  rw [if_neg (by rw [Int.toNat_natCast]; simp), e1, if_neg (by rw [Int.toNat_natCast]; simp)]
  rw [if_neg (by rw [Int.toNat_natCast, Int.toNat_natCast]; simp), e2, e3, e4, cstr_eq ha.path, cstr_eq ha.path2]
  rfl

/-- An event with a long path is an error. -/
theorem loop_long {a : Access} (ha : Acc a) (h : ¬(a.path.length < 4095 ∧ a.path2.length < 4095)) (n : Nat)
    (rest : Bytes) : loop (n + 1) (enc a ++ rest) = .error .long := by
  obtain ⟨f1, f2, f3, f4, f5, f6⟩ := enc_fields a ha rest
  have hp := ha.pos
  rw [loop]
  simp only [f3, f4, f5, f6]
  rw [if_neg f1, if_neg f2, if_neg (by omega)]
  by_cases hq : a.path.length < 4095
  · rw [if_neg (by omega), if_pos (by omega)]
  · rw [if_pos (by omega)]

theorem enc_length (a : Access) : (enc a).length = 14 + a.path.length + a.path2.length := by
  simp [enc, putInt_length]; omega

theorem loop_all (as : List Access) (h : ∀ a ∈ as, Acc a ∧ a.path.length < 4095 ∧ a.path2.length < 4095) (n : Nat)
    (hn : as.length < n) : loop n (as.flatMap enc) = .ok as := by
  induction as generalizing n with
  | nil =>
    obtain ⟨k, rfl⟩ : ∃ k, n = k + 1 := ⟨n - 1, by simp at hn; omega⟩
    rfl
  | cons a as ih =>
    obtain ⟨k, rfl⟩ : ∃ k, n = k + 1 := ⟨n - 1, by simp at hn; omega⟩
    obtain ⟨q1, q2, q3⟩ := h a (by simp)
    rw [List.flatMap_cons, loop_enc q1 q2 q3, ih (fun b hb => h b (by simp [hb])) k (by simp at hn; omega)]

theorem loop_some_long (as : List Access) (h : ∀ a ∈ as, Acc a)
    (hl : ∃ a ∈ as, ¬(a.path.length < 4095 ∧ a.path2.length < 4095)) (n : Nat)
    (hn : as.length < n) : loop n (as.flatMap enc) = .error .long := by
  induction as generalizing n with
  | nil => obtain ⟨a, ha, _⟩ := hl; cases ha
  | cons a as ih =>
    obtain ⟨k, rfl⟩ : ∃ k, n = k + 1 := ⟨n - 1, by simp at hn; omega⟩
    rw [List.flatMap_cons]
    by_cases hq : a.path.length < 4095 ∧ a.path2.length < 4095
    · rw [loop_enc (h a (by simp)) hq.1 hq.2, ih (fun b hb => h b (by simp [hb])) ?_ k (by simp at hn; omega)]
      obtain ⟨b, hb, hb2⟩ := hl
      rcases List.mem_cons.1 hb with rfl | hb
      · exact absurd hq hb2
      · exact ⟨b, hb, hb2⟩
    · exact loop_long (h a (by simp)) hq k _

theorem flatMap_length (as : List Access) : as.length ≤ (as.flatMap enc).length := by
  induction as with
  | nil => simp
  | cons a as ih => rw [List.flatMap_cons, List.length_append, List.length_cons, enc_length]; omega

/-! ### What is recorded -/

theorem contains_iff (p s : Bytes) : contains p s = true ↔ ∃ l r, s = l ++ p ++ r := by
  induction s with
  | nil =>
    simp only [contains, List.isPrefixOf_iff_prefix]
    constructor
    · rintro ⟨r, hr⟩
      exact ⟨[], r, by simpa using hr.symm⟩
    · rintro ⟨l, r, h⟩
      have : p = [] := by
        have := congrArg List.length h
        simp only [List.length_append, List.length_nil] at this
        exact List.eq_nil_of_length_eq_zero (by omega)
      rw [this]
      exact List.prefix_refl _
  | cons c s ih =>
    simp only [contains, Bool.or_eq_true, List.isPrefixOf_iff_prefix, ih]
    constructor
    · rintro (⟨r, hr⟩ | ⟨l, r, hr⟩)
      · exact ⟨[], r, by simpa using hr.symm⟩
      · exact ⟨c :: l, r, by rw [hr]; simp⟩
    · rintro ⟨l, r, h⟩
      cases l with
      | nil => exact Or.inl ⟨r, by simpa using h.symm⟩
      | cons x l =>
        simp only [List.cons_append, List.cons.injEq] at h
        exact Or.inr ⟨l, r, h.2⟩

theorem prefix_iff (p s : Bytes) : p.isPrefixOf s = true ↔ ∃ r, s = p ++ r := by
  rw [List.isPrefixOf_iff_prefix]
  exact ⟨fun ⟨r, h⟩ => ⟨r, h.symm⟩, fun ⟨r, h⟩ => ⟨r, h.symm⟩⟩

theorem ignored_iff (f : Bytes) : ignored f = true ↔ Hidden f := by
  unfold ignored isCcache Hidden
  simp only [Bool.or_eq_true, prefix_iff, contains_iff]
  constructor
  · rintro (((h | h) | h) | (((⟨l, r, h⟩ | ⟨l, r, h⟩) | ⟨l, r, h⟩) | h))
    · exact Or.inl h
    · exact Or.inr (Or.inl h)
    · exact Or.inr (Or.inr (Or.inl h))
    · exact Or.inr (Or.inr (Or.inr (Or.inr ⟨l, r, Or.inl h⟩)))
    · exact Or.inr (Or.inr (Or.inr (Or.inr ⟨l, r, Or.inr (Or.inl h)⟩)))
    · exact Or.inr (Or.inr (Or.inr (Or.inr ⟨l, r, Or.inr (Or.inr h)⟩)))
    · exact Or.inr (Or.inr (Or.inr (Or.inl h)))
  · rintro (h | h | h | h | ⟨l, r, h | h | h⟩)
    · exact Or.inl (Or.inl (Or.inl h))
    · exact Or.inl (Or.inl (Or.inr h))
    · exact Or.inl (Or.inr h)
    · exact Or.inr (Or.inr h)
    · exact Or.inr (Or.inl (Or.inl (Or.inl ⟨l, r, h⟩)))
    · exact Or.inr (Or.inl (Or.inl (Or.inr ⟨l, r, h⟩)))
    · exact Or.inr (Or.inl (Or.inr ⟨l, r, h⟩))

theorem recorded_iff (c : Call) : recorded c = true ↔ Seen c := by
  unfold recorded Seen
  rw [← ignored_iff, ← ignored_iff]
  simp

/-! ### The processes -/

/-- What is in the file after the accesses of the log. -/
def written (log : List (Nat × Call)) : Bytes := log.flatMap (fun x => enc (access x.2))

/-- The invariant: the file has the accesses of a log, except for what the process that holds the lock is still going to
write. -/
structure Inv (progs : Nat → List Call) (s : Sys) (log : List (Nat × Call)) : Prop where
  free : s.lock = none → (∀ i, (s.procs i).cur = none) ∧ s.file = written log
  held : ∀ i, s.lock = some i → (∃ ws, (s.procs i).cur = some ws ∧ s.file ++ ws.flatten = written log) ∧
    ∀ j, j ≠ i → (s.procs j).cur = none
  calls : ∀ i, own i log ++ (s.procs i).todo.filter recorded = (progs i).filter recorded

theorem inv_begin (progs : Nat → List Call) : Inv progs (begin progs) [] :=
  ⟨fun _ => ⟨fun _ => rfl, rfl⟩, fun _ h => (by cases h), fun _ => rfl⟩

theorem own_append (i : Nat) (a b : List (Nat × Call)) : own i (a ++ b) = own i a ++ own i b := by
  simp [own]

theorem inv_step {progs : Nat → List Call} {s : Sys} {log : List (Nat × Call)} (h : Inv progs s log) (i : Nat) :
    ∃ log', Inv progs (step i s) log' := by
  have hcalls := h.calls i
  unfold step
  rcases hp : s.procs i with ⟨todo, cur⟩
  rw [hp] at hcalls
  simp only at hcalls ⊢
  cases cur with
  | none =>
    cases todo with
    | nil => exact ⟨log, h⟩
    | cons c t =>
      simp only
      by_cases hr : recorded c = false
      · rw [if_pos hr]
        rw [List.filter_cons, if_neg (by simp [hr])] at hcalls
        refine ⟨log, ?_, ?_, ?_⟩
        · intro hl
          obtain ⟨q1, q2⟩ := h.free hl
          refine ⟨fun j => ?_, q2⟩
          simp only [upd]
          split
          · rfl
          · exact q1 j
        · intro k hk
          obtain ⟨⟨ws, q1, q2⟩, q3⟩ := h.held k hk
          have hki : k ≠ i := by rintro rfl; rw [hp] at q1; cases q1
          refine ⟨⟨ws, ?_, q2⟩, fun j hj => ?_⟩
          · simp only [upd]; rw [if_neg hki]; exact q1
          · simp only [upd]
            split
            · rfl
            · exact q3 j hj
        · intro j
          simp only [upd]
          split
          · rename_i hj; rw [hj]; exact hcalls
          · exact h.calls j
      · rw [if_neg hr]
        cases hl : s.lock with
        | some k => exact ⟨log, h⟩
        | none =>
          obtain ⟨q1, q2⟩ := h.free hl
          rw [List.filter_cons, if_pos (by simpa using hr)] at hcalls
          refine ⟨log ++ [(i, c)], fun hl' => (by cases hl'), ?_, ?_⟩
          · intro k hk
            have hk : i = k := Option.some.inj hk
            subst hk
            refine ⟨⟨chunks c, by simp [upd], ?_⟩, fun j hj => ?_⟩
            · simp only [chunks_enc, q2, written, List.flatMap_append, List.flatMap_cons, List.flatMap_nil,
                List.append_nil]
            · simp only [upd]; rw [if_neg hj]; exact q1 j
          · intro j
            rw [own_append]
            simp only [upd]
            by_cases hj : j = i
            · rw [if_pos hj, hj, ← hcalls]
              simp [own]
            · rw [if_neg hj, ← h.calls j]
              have : own j [(i, c)] = [] := by simp [own]; exact fun e => hj e.symm
              rw [this, List.append_nil]
  | some ws =>
    have hl : s.lock = some i := by
      cases hl : s.lock with
      | none => have := (h.free hl).1 i; rw [hp] at this; cases this
      | some k =>
        by_cases hk : k = i
        · rw [hk]
        · have := (h.held k hl).2 i (fun e => hk e.symm)
          rw [hp] at this
          cases this
    obtain ⟨⟨ws', q1, q2⟩, q3⟩ := h.held i hl
    rw [hp] at q1
    have e : ws = ws' := Option.some.inj q1
    subst e
    have hc : ∀ (cur : Option (List Bytes)) (j : Nat), own j log ++
        (upd s.procs i ⟨todo, cur⟩ j).todo.filter recorded = (progs j).filter recorded := by
      intro cur j
      simp only [upd]
      split
      · rename_i hj; rw [hj]; exact hcalls
      · exact h.calls j
    cases ws with
    | nil =>
      refine ⟨log, fun _ => ⟨fun j => ?_, ?_⟩, fun k hk => (by cases hk), hc none⟩
      · simp only [upd]
        split
        · rfl
        · rename_i hj; exact q3 j hj
      · simpa using q2
    | cons w ws =>
      refine ⟨log, fun hl' => (by simp only at hl'; rw [hl] at hl'; cases hl'), ?_, hc (some ws)⟩
      intro k hk
      simp only at hk
      rw [hl] at hk
      have hk : i = k := Option.some.inj hk
      subst hk
      refine ⟨⟨ws, by simp [upd], ?_⟩, fun j hj => ?_⟩
      · rw [← q2]; simp
      · simp only [upd]; rw [if_neg hj]; exact q3 j hj

theorem inv_run {progs : Nat → List Call} (sched : List Nat) : ∀ {s : Sys} {log : List (Nat × Call)},
    Inv progs s log → ∃ log', Inv progs (run sched s) log' := by
  induction sched with
  | nil => exact fun {_ log} h => ⟨log, h⟩
  | cons i sched ih =>
    intro s log h
    obtain ⟨log', h'⟩ := inv_step h i
    exact ih h'

open Classical in
/-- At the end. -/
theorem finished_log {progs : Nat → List Call} {s : Sys} {log : List (Nat × Call)} (h : Inv progs s log)
    (hf : Finished s) : s.file = written log ∧ Merges progs log := by
  have hl : s.lock = none := by
    cases hl : s.lock with
    | none => rfl
    | some i =>
      obtain ⟨⟨ws, q1, _⟩, _⟩ := h.held i hl
      rw [(hf i).2] at q1
      cases q1
  refine ⟨(h.free hl).2, fun i => ?_⟩
  have e : (fun c => decide (Seen c)) = recorded := by
    funext c
    rw [Bool.eq_iff_iff, decide_eq_true_iff, recorded_iff]
  rw [e, ← h.calls i, (hf i).1]
  simp

open Classical in
theorem mem_of_merges {progs : Nat → List Call} {log : List (Nat × Call)} (h : Merges progs log) {x : Nat × Call}
    (hx : x ∈ log) : x.2 ∈ progs x.1 ∧ Seen x.2 := by
  have : x.2 ∈ own x.1 log := by
    simp only [own, List.mem_map, List.mem_filter]
    exact ⟨x, ⟨hx, by simp⟩, rfl⟩
  rw [h x.1] at this
  obtain ⟨q1, q2⟩ := List.mem_filter.1 this
  exact ⟨q1, of_decide_eq_true q2⟩

end Tup.Depfile
