import Verif.Environ.Spec

namespace Tup.Environ

/-- The strings as they are in memory. -/
def enc : List Bytes → Mem
  | [] => []
  | s :: l => s.map some ++ some 0 :: enc l

theorem enc_append (a b : List Bytes) : enc (a ++ b) = enc a ++ enc b := by
  induction a with
  | nil => rfl
  | cons s a ih => simp [enc, ih]

theorem enc_length (s : Bytes) (l : List Bytes) : (enc (s :: l)).length = s.length + 1 + (enc l).length := by
  simp [enc]; omega

def values : List Ent → List Bytes
  | [] => []
  | .var (some v) :: es => v :: values es
  | .var none :: es => values es
  | .other :: es => values es

theorem count_eq (es : List Ent) (b n : Nat) :
    count es (b, n) = (b + (enc (values es)).length, n + (values es).length) := by
  induction es generalizing b n with
  | nil => rfl
  | cons e es ih =>
    cases e with
    | other => exact ih b n
    | var v =>
      cases v with
      | none => exact ih b n
      | some v =>
        rw [count, ih, values, enc_length, List.length_cons, Nat.add_assoc b, Nat.add_assoc n, Nat.add_comm 1]

theorem write_eq (a : Mem) (b : Bytes) (k : Nat) :
    write (a ++ fresh (b.length + k)) a.length b = some (a ++ b.map some ++ fresh k) := by
  unfold write
  rw [if_pos (by simp [fresh])]
  simp only [List.take_left', List.append_assoc, Option.some.injEq]
  congr 2
  rw [List.drop_append, List.drop_eq_nil_of_le (by omega), List.nil_append]
  simp [fresh]

theorem fill_eq (es : List Ent) (a : Mem) (k : Nat) :
    fill es (a ++ fresh ((enc (values es)).length + k), a.length) =
      some (a ++ enc (values es) ++ fresh k, (a ++ enc (values es)).length) := by
  induction es generalizing a with
  | nil => simp [fill, values, enc]
  | cons e es ih =>
    cases e with
    | other => exact ih a
    | var v =>
      cases v with
      | none => exact ih a
      | some v =>
        rw [values, fill]
        have h1 : (enc (v :: values es)).length + k = v.length + (1 + ((enc (values es)).length + k)) := by
          rw [enc_length]; omega
        rw [h1, write_eq]
        simp only
        have h2 := write_eq (a ++ v.map some) [0] ((enc (values es)).length + k)
        simp only [List.length_append, List.length_map, List.length_cons, List.length_nil, Nat.zero_add] at h2
        rw [h2]
        simp only
        have h3 := ih (a ++ v.map some ++ List.map some [0])
        simp only [List.length_append, List.length_map, List.length_cons, List.length_nil, Nat.zero_add] at h3
        rw [h3]
        simp [enc, Nat.add_assoc, Nat.add_comm, Nat.add_left_comm]

theorem getEnviron_eq (es : List Ent) :
    getEnviron es = some ⟨enc (values es ++ [ccache]) ++ [some 0], (values es).length + 1⟩ := by
  unfold getEnviron
  rw [count_eq]
  simp only
  have h0 : 1 + (enc (values es)).length + (ccache.length + 1) = (enc (values es)).length + (ccache.length + (1 + (1 + 0))) := by
    omega
  have h1 := fill_eq es [] (ccache.length + (1 + (1 + 0)))
  simp only [List.nil_append, List.length_nil] at h1
  rw [h0, h1]
  simp only
  rw [write_eq]
  simp only
  have h2 := write_eq (enc (values es) ++ ccache.map some) [0] (1 + 0)
  rw [List.length_append, List.length_map] at h2
  rw [show (1 + (1 + 0)) = [0].length + (1 + 0) from rfl, h2]
  simp only
  have h3 := write_eq (enc (values es) ++ ccache.map some ++ List.map some [0]) [0] 0
  rw [List.length_append, List.length_append, List.length_map, List.length_map] at h3
  rw [show (1 + 0) = [0].length + 0 from rfl]
  rw [show (enc (values es)).length + ccache.length + 1 = (enc (values es)).length + ccache.length + [0].length from rfl, h3]
  simp only [fresh, List.replicate_zero, List.append_nil, enc_append, enc, List.append_assoc, List.map_cons, List.map_nil, Nat.zero_add,
    List.cons_append, List.nil_append]

theorem str_eq {s : Bytes} (h : 0 ∉ s) (t : Mem) : str (s.map some ++ some 0 :: t) = some s := by
  induction s with
  | nil => rfl
  | cons b s ih =>
    cases b with
    | zero => exact absurd List.mem_cons_self h
    | succ b =>
      simp only [List.map_cons, List.cons_append, str]
      rw [ih (fun hm => h (List.mem_cons_of_mem _ hm))]
      rfl

theorem pointers_eq {l : List Bytes} (h : ∀ s ∈ l, s ≠ [] ∧ 0 ∉ s) (limit room : Nat) (t : Mem)
    (h1 : l.length ≤ limit) (h2 : l.length ≤ room) :
    pointers limit room (enc l ++ some 0 :: t) = some (l, room - l.length) := by
  induction l generalizing limit room with
  | nil => unfold pointers; rfl
  | cons s l ih =>
    obtain ⟨hs, h0⟩ := h s List.mem_cons_self
    cases limit with
    | zero => simp at h1
    | succ limit =>
      cases room with
      | zero => simp at h2
      | succ room =>
        have hstr := str_eq h0 (enc l ++ some 0 :: t)
        have hdrop : (s.map some ++ some 0 :: (enc l ++ some 0 :: t)).drop (s.length + 1) = enc l ++ some 0 :: t := by
          rw [List.drop_append, List.drop_eq_nil_of_le (by simp)]
          simp
        have henc : enc (s :: l) ++ some 0 :: t = s.map some ++ some 0 :: (enc l ++ some 0 :: t) := by simp [enc]
        rw [henc]
        cases s with
        | nil => exact absurd rfl hs
        | cons b s =>
          cases b with
          | zero => exact absurd List.mem_cons_self h0
          | succ b =>
            have hih := ih (fun x hx => h x (List.mem_cons_of_mem _ hx)) limit room (by simpa using h1) (by simpa using h2)
            simp only [List.map_cons, List.cons_append] at hstr hdrop ⊢
            unfold pointers
            simp only [hstr]
            rw [hdrop, hih]
            simp

theorem enc_len_ge {l : List Bytes} : l.length ≤ (enc l).length := by
  induction l with
  | nil => exact Nat.le_refl _
  | cons s l ih => rw [enc_length, List.length_cons]; omega

theorem ccache_ok : ccache ≠ [] ∧ 0 ∉ ccache := by decide

theorem values_entries (getenv : Bytes → Option Bytes) (is : Inputs) : values (entries getenv is) = exported getenv is := by
  induction is with
  | nil => rfl
  | cons i is ih =>
    cases i with
    | none =>
      show values (entries getenv is) = _
      rw [ih]; rfl
    | some n =>
      show values (.var (full n (getenv n)) :: entries getenv is) = _
      cases hg : getenv n with
      | none =>
        show values (entries getenv is) = _
        rw [ih]
        simp [exported, hg]
      | some v =>
        show (n ++ eq :: v) :: values (entries getenv is) = _
        rw [ih]
        simp [exported, hg]

theorem exported_ok {getenv : Bytes → Option Bytes} {is : Inputs} (h : Strings getenv is) :
    ∀ s ∈ exported getenv is, s ≠ [] ∧ 0 ∉ s := by
  intro s hs
  obtain ⟨i, hi, he⟩ := List.mem_filterMap.1 hs
  cases i with
  | none => cases he
  | some n =>
    simp only [Option.bind_some] at he
    cases hg : getenv n with
    | none => rw [hg] at he; cases he
    | some v =>
      rw [hg] at he
      simp only [Option.map_some, Option.some.injEq] at he
      subst he
      refine ⟨by simp, fun hm => ?_⟩
      rcases List.mem_append.1 hm with hm | hm
      · exact h.1 n hi hm
      · rcases List.mem_cons.1 hm with hm | hm
        · cases hm
        · exact h.2 n v hg hm

theorem prefix_name {n m v : Bytes} (hn : eq ∉ n) (hm : eq ∉ m) (h : (n ++ [eq]) <+: (m ++ eq :: v)) : n = m := by
  induction n generalizing m with
  | nil =>
    cases m with
    | nil => rfl
    | cons c m =>
      obtain ⟨t, ht⟩ := h
      simp only [List.nil_append, List.cons_append, List.cons.injEq] at ht
      exact absurd (ht.1 ▸ List.mem_cons_self) hm
  | cons b n ih =>
    obtain ⟨t, ht⟩ := h
    cases m with
    | nil =>
      simp only [List.nil_append, List.cons_append, List.cons.injEq] at ht
      exact absurd (ht.1 ▸ List.mem_cons_self) hn
    | cons c m =>
      simp only [List.cons_append, List.cons.injEq] at ht
      rw [ht.1, ih (fun hh => hn (List.mem_cons_of_mem _ hh)) (fun hh => hm (List.mem_cons_of_mem _ hh)) ⟨t, ht.2⟩]

theorem lookup_var {n m v : Bytes} (hn : eq ∉ n) (hm : eq ∉ m) (l : List Bytes) :
    lookup ((m ++ eq :: v) :: l) n = if n = m then some v else lookup l n := by
  rw [lookup]
  by_cases h : n = m
  · subst h
    rw [if_pos ⟨v, by simp⟩, if_pos rfl]
    congr 1
    rw [List.drop_append, List.drop_eq_nil_of_le (by omega)]
    simp
  · rw [if_neg (fun hp => h (prefix_name hn hm hp)), if_neg h]

theorem lookup_exported (getenv : Bytes → Option Bytes) (is : Inputs) (l : List Bytes) (h : ∀ n, some n ∈ is → eq ∉ n) {n : Bytes}
    (hn : eq ∉ n) : lookup (exported getenv is ++ l) n =
      if some n ∈ is ∧ getenv n ≠ none then getenv n else lookup l n := by
  induction is with
  | nil => simp [exported]
  | cons i is ih =>
    have ih := ih (fun n hn => h n (List.mem_cons_of_mem _ hn))
    cases i with
    | none =>
      show lookup (exported getenv is ++ l) n = _
      rw [ih]
      simp
    | some m =>
      cases hg : getenv m with
      | none =>
        have : exported getenv (some m :: is) = exported getenv is := by simp [exported, hg]
        rw [this, ih]
        by_cases hnm : n = m
        · subst hnm; simp [hg]
        · simp [hnm]
      | some v =>
        have : exported getenv (some m :: is) = (m ++ eq :: v) :: exported getenv is := by simp [exported, hg]
        rw [this, List.cons_append, lookup_var hn (h m List.mem_cons_self), ih]
        by_cases hnm : n = m
        · subst hnm; simp [hg]
        · simp [hnm]

theorem splitImport_name {n : Bytes} (h : eq ∉ n) : splitImport n = (n, none) := by
  induction n with
  | nil => rfl
  | cons b n ih =>
    rw [splitImport, if_neg (fun e : _ = eq => h (e ▸ List.mem_cons_self)), ih (fun hh => h (List.mem_cons_of_mem _ hh))]

theorem splitImport_default {n : Bytes} (h : eq ∉ n) (d : Bytes) : splitImport (n ++ eq :: d) = (n, some d) := by
  induction n with
  | nil => rfl
  | cons b n ih =>
    rw [List.cons_append, splitImport, if_neg (fun e : _ = eq => h (e ▸ List.mem_cons_self)), ih (fun hh => h (List.mem_cons_of_mem _ hh))]

theorem skipGo_eq {n : Bytes} (h : eq ∉ n) (v : Bytes) : skipName.go (n ++ eq :: v) = v := by
  induction n with
  | nil => rfl
  | cons c n ih =>
    rw [List.cons_append, skipName.go, if_neg (fun e : _ = eq => h (e ▸ List.mem_cons_self)),
      ih (fun hh => h (List.mem_cons_of_mem _ hh))]

theorem skipName_eq {n : Bytes} (h : eq ∉ n) (hne : n ≠ []) (v : Bytes) : skipName (n ++ eq :: v) = v := by
  cases n with
  | nil => exact absurd rfl hne
  | cons b n => exact skipGo_eq (fun hh => h (List.mem_cons_of_mem _ hh)) v

theorem block_eq {getenv : Bytes → Option Bytes} {is : Inputs} (h : Strings getenv is) (limit extra : Nat)
    (h1 : (exported getenv is).length + 1 ≤ limit) :
    pointers limit ((exported getenv is).length + 1 + extra) (enc (exported getenv is ++ [ccache]) ++ [some 0]) =
      some (exported getenv is ++ [ccache], extra) := by
  have hok : ∀ s ∈ exported getenv is ++ [ccache], s ≠ [] ∧ 0 ∉ s := by
    intro s hs
    rcases List.mem_append.1 hs with hs | hs
    · exact exported_ok h s hs
    · rw [List.mem_singleton.1 hs]; exact ccache_ok
  rw [pointers_eq hok limit _ [] (by simpa using h1) (by simp)]
  simp

theorem block_len (getenv : Bytes → Option Bytes) (is : Inputs) :
    (exported getenv is).length + 1 ≤ (enc (exported getenv is ++ [ccache]) ++ [some 0]).length := by
  have := enc_len_ge (l := exported getenv is ++ [ccache])
  simp only [List.length_append, List.length_cons, List.length_nil] at this ⊢
  omega

end Tup.Environ
