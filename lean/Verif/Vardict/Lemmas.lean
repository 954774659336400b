import Verif.Vardict.Model
import Verif.Tree.Lemmas

/-! Lemmas for C17. -/

namespace Tup.Vardict

theorem toNat_byte {n : Nat} (h : n < 256) : (Char.ofNat n).toNat = n := by
  have hv : n.isValidChar := .inl (by omega)
  unfold Char.ofNat
  rw [dif_pos hv]
  rfl

theorem rd32_le32 {n : Nat} (h : n < 4294967296) {pre rest : Str} {i : Nat} (hi : i = pre.length) :
    rd32 (pre ++ (le32 n ++ rest)) i = some n := by
  subst hi
  unfold rd32
  rw [List.drop_left]
  simp only [le32, List.cons_append, List.nil_append]
  rw [toNat_byte (by omega), toNat_byte (by omega), toNat_byte (by omega), toNat_byte (by omega)]
  congr 1
  omega

theorem entry_length (v : Str × Str) : (entry v).length = v.1.length + 1 + v.2.length + 1 := by
  simp only [entry, List.length_append, List.length_cons, List.length_nil]; omega

/-- The size of the text of the first variables. -/
def offset (l : List (Str × Str)) : Nat := (l.flatMap entry).length

theorem offset_append (a b : List (Str × Str)) : offset (a ++ b) = offset a + offset b := by
  unfold offset
  rw [List.flatMap_append, List.length_append]

theorem index_length (x : Nat) (l : List (Str × Str)) : (index x l).length = 4 * l.length := by
  induction l generalizing x with
  | nil => rfl
  | cons v l ih =>
    rw [index, List.length_append, ih, List.length_cons]
    simp only [le32, List.length_cons, List.length_nil]; omega

theorem index_split (x : Nat) (a : List (Str × Str)) (v : Str × Str) (b : List (Str × Str))
    (h : x + offset (a ++ v :: b) < 4294967296) :
    ∃ i j, index x (a ++ v :: b) = i ++ (le32 (x + offset a) ++ j) ∧ i.length = 4 * a.length := by
  induction a generalizing x with
  | nil => exact ⟨[], _, rfl, rfl⟩
  | cons w a ih =>
    rw [List.cons_append, index]
    have h1 : offset (w :: (a ++ v :: b)) = (entry w).length + offset (a ++ v :: b) := by
      unfold offset; rw [List.flatMap_cons, List.length_append]
    rw [List.cons_append, h1, entry_length] at h
    rw [Nat.mod_eq_of_lt (by omega)]
    obtain ⟨i, j, h2, h3⟩ := ih (x + (w.1.length + 1 + w.2.length + 1)) (by omega)
    refine ⟨le32 x ++ i, j, ?_, ?_⟩
    · rw [h2]
      have h4 : offset (w :: a) = (entry w).length + offset a := by
        unfold offset; rw [List.flatMap_cons, List.length_append]
      rw [h4, entry_length]
      have : x + (w.1.length + 1 + w.2.length + 1) + offset a = x + (w.1.length + 1 + w.2.length + 1 + offset a) := by
        omega
      rw [this, List.append_assoc]
    · rw [List.length_append, h3]
      simp only [le32, List.length_cons, List.length_nil]; omega

theorem save_length (vars : List (Str × Str)) : (save vars).length = 4 + 4 * vars.length + offset vars := by
  unfold save offset
  rw [List.length_append, List.length_append, index_length]
  rfl

theorem openFile_save {vars : List (Str × Str)} (h : 4 + 4 * vars.length + offset vars < 2147483648) :
    openFile (save vars) = some ⟨save vars, vars.length, 4 + 4 * vars.length⟩ := by
  unfold openFile
  rw [if_neg (by rw [save_length]; omega), if_neg (by rw [save_length]; omega)]
  have h1 : rd32 (save vars) 0 = some vars.length := by
    have := rd32_le32 (n := vars.length) (by omega) (pre := []) (rest := index 0 vars ++ vars.flatMap entry) (i := 0) rfl
    rw [List.nil_append] at this
    unfold save
    rw [List.append_assoc]
    exact this
  rw [h1]
  simp only
  rw [Nat.mod_eq_of_lt (by omega), if_neg (by rw [save_length]; omega)]

theorem save_index {a b : List (Str × Str)} {v : Str × Str}
    (h : 4 + 4 * (a ++ v :: b).length + offset (a ++ v :: b) < 2147483648) :
    rd32 (save (a ++ v :: b)) (4 + 4 * a.length) = some (offset a) := by
  obtain ⟨i, j, h1, h2⟩ := index_split 0 a v b (by omega)
  have h3 : save (a ++ v :: b) = (le32 (a ++ v :: b).length ++ i) ++ (le32 (offset a) ++ (j ++ (a ++ v :: b).flatMap entry)) := by
    unfold save
    rw [h1, Nat.zero_add]
    simp only [List.append_assoc]
  rw [h3]
  have hoff : offset a < 4294967296 := by
    rw [offset_append] at h; omega
  refine rd32_le32 hoff ?_
  rw [List.length_append, h2]
  rfl

theorem save_entry (a b : List (Str × Str)) (v : Str × Str) :
    (save (a ++ v :: b)).drop (4 + 4 * (a ++ v :: b).length + offset a) = entry v ++ b.flatMap entry := by
  have h1 : save (a ++ v :: b) = (le32 (a ++ v :: b).length ++ index 0 (a ++ v :: b) ++ a.flatMap entry) ++
      (entry v ++ b.flatMap entry) := by
    unfold save
    rw [List.flatMap_append, List.flatMap_cons]
    simp only [List.append_assoc]
  rw [h1]
  refine List.drop_left' ?_
  rw [List.length_append, List.length_append, index_length]
  rfl

/-- Names that can be looked up. -/
def Plain (n : Str) : Prop := ∀ c ∈ n, c.toNat < 128 ∧ c ≠ '='

/-- Without NUL bytes. -/
def NoNul (s : Str) : Prop := Char.ofNat 0 ∉ s

theorem cstring_append {v rest : Str} (hv : NoNul v) : cstring (v ++ Char.ofNat 0 :: rest) = some v := by
  induction v with
  | nil => rw [List.nil_append, cstring, if_pos rfl]
  | cons c v ih =>
    simp only [NoNul, List.mem_cons, not_or] at hv
    rw [List.cons_append, cstring, if_neg (Ne.symm hv.1), ih hv.2]
    rfl

theorem schar_ascii {c : Char} (h : c.toNat < 128) : schar c = c.toNat := by
  unfold schar; rw [if_pos h]

theorem schar_inj {c d : Char} (hc : c.toNat < 256) (hd : d.toNat < 256) (h : schar c = schar d) : c = d := by
  unfold schar at h
  have : c.toNat = d.toNat := by split at h <;> split at h <;> omega
  exact Char.toNat_inj.1 this

/-- The name itself is found. -/
theorem compare_self {n v rest : Str} (hn : ∀ c ∈ n, c ≠ '=') (hv : NoNul v) :
    compare (n ++ '=' :: (v ++ Char.ofNat 0 :: rest)) n = .found v := by
  induction n with
  | nil =>
    rw [List.nil_append, compare, if_neg (by simp), cstring_append hv]
  | cons c n ih =>
    have hc := hn c List.mem_cons_self
    rw [List.cons_append, compare, if_neg hc, if_neg (by omega), if_neg (by omega)]
    exact ih fun x hx => hn x (List.mem_cons_of_mem _ hx)

/-- Another one is not. -/
theorem compare_ne {n v rest key : Str} (hn : ∀ c ∈ n, c.toNat < 256 ∧ c ≠ '=') (hk : ∀ c ∈ key, c.toNat < 256)
    (hne : n ≠ key) :
    compare (n ++ '=' :: (v ++ Char.ofNat 0 :: rest)) key = .lt ∨
      compare (n ++ '=' :: (v ++ Char.ofNat 0 :: rest)) key = .gt := by
  induction n generalizing key with
  | nil =>
    cases key with
    | nil => exact absurd rfl hne
    | cons k key => left; rw [List.nil_append, compare, if_pos rfl]
  | cons c n ih =>
    obtain ⟨hc1, hc2⟩ := hn c List.mem_cons_self
    cases key with
    | nil => right; rw [List.cons_append, compare, if_pos hc2]
    | cons k key =>
      rw [List.cons_append, compare, if_neg hc2]
      split
      · exact .inl rfl
      · split
        · exact .inr rfl
        · have hck : c = k := schar_inj hc1 (hk k List.mem_cons_self) (by omega)
          subst hck
          exact ih (fun x hx => hn x (List.mem_cons_of_mem _ hx)) (fun x hx => hk x (List.mem_cons_of_mem _ hx))
            (fun h => hne (by rw [h]))

/-- For plain names the order is that of the tree. -/
theorem compare_order {n v rest key : Str} (hn : Plain n) (hk : Plain key) :
    (Tree.strcmp n key < 0 → compare (n ++ '=' :: (v ++ Char.ofNat 0 :: rest)) key = .lt) ∧
      (Tree.strcmp key n < 0 → compare (n ++ '=' :: (v ++ Char.ofNat 0 :: rest)) key = .gt) := by
  induction n generalizing key with
  | nil =>
    cases key with
    | nil => constructor <;> intro h <;> simp [Tree.strcmp] at h
    | cons k key =>
      constructor
      · intro _; rw [List.nil_append, compare, if_pos rfl]
      · intro h; simp [Tree.strcmp] at h
  | cons c n ih =>
    obtain ⟨hc1, hc2⟩ := hn c List.mem_cons_self
    cases key with
    | nil =>
      constructor
      · intro h; simp [Tree.strcmp] at h
      · intro _; rw [List.cons_append, compare, if_pos hc2]
    | cons k key =>
      obtain ⟨hk1, _⟩ := hk k List.mem_cons_self
      obtain ⟨i1, i2⟩ := ih (key := key) (fun x hx => hn x (List.mem_cons_of_mem _ hx))
        (fun x hx => hk x (List.mem_cons_of_mem _ hx))
      rw [List.cons_append, compare, if_neg hc2, schar_ascii hc1, schar_ascii hk1, Tree.strcmp, Tree.strcmp]
      by_cases h1 : c.toNat < k.toNat
      · have e1 : (c.toNat : Int) < k.toNat := by omega
        rw [if_pos h1, if_pos e1, if_neg (by omega), if_pos (by omega)]
        exact ⟨fun _ => rfl, fun h => by omega⟩
      · have e1 : ¬ (c.toNat : Int) < k.toNat := by omega
        rw [if_neg h1, if_neg e1]
        by_cases h2 : c.toNat > k.toNat
        · have e2 : (c.toNat : Int) > k.toNat := by omega
          rw [if_pos h2, if_pos e2, if_pos (by omega)]
          exact ⟨fun h => by omega, fun _ => rfl⟩
        · have e2 : ¬ (c.toNat : Int) > k.toNat := by omega
          rw [if_neg h2, if_neg e2, if_neg (by omega), if_neg (by omega)]
          exact ⟨i1, i2⟩

end Tup.Vardict
