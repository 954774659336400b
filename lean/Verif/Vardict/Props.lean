import Verif.Vardict.Lemmas

/-! C17: looking variables up in the file that tup writes for commands. -/

namespace Tup.Vardict

/-- What the variables have to be like: as the tree yields them, in ascending order of their names, the names plain
(ASCII, without `=`), the values without NUL bytes, and the file smaller than 2 GB. -/
structure Good (vars : List (Str × Str)) : Prop where
  sorted : vars.Pairwise fun a b => Tree.strcmp a.1 b.1 < 0
  names : ∀ v ∈ vars, Plain v.1
  values : ∀ v ∈ vars, NoNul v.2
  size : (save vars).length < 2147483648

/-- One round of the search. -/
theorem search_step {a b : List (Str × Str)} {v : Str × Str} {key : Str} {left right : Int}
    (hg : Good (a ++ v :: b)) (h1 : 0 < (right - left) / 2) (h2 : (right - left) / 2 + left = a.length) :
    search ⟨save (a ++ v :: b), (a ++ v :: b).length, 4 + 4 * (a ++ v :: b).length⟩ key left right =
      match compare (v.1 ++ '=' :: (v.2 ++ Char.ofNat 0 :: b.flatMap entry)) key with
      | .lt => search ⟨save (a ++ v :: b), (a ++ v :: b).length, 4 + 4 * (a ++ v :: b).length⟩ key a.length right
      | .gt => search ⟨save (a ++ v :: b), (a ++ v :: b).length, 4 + 4 * (a ++ v :: b).length⟩ key left a.length
      | .found w => .value w
      | .ub => .ub := by
  have hsize := hg.size
  rw [save_length] at hsize
  rw [search, dif_neg (by omega)]
  simp only [h2]
  have h3 : ¬ ((a.length : Int) ≥ ((a ++ v :: b).length : Nat)) := by
    rw [List.length_append, List.length_cons]; omega
  rw [if_neg h3, if_neg (by omega)]
  rw [Int.toNat_natCast, save_index hsize]
  simp only
  have h4 : ¬ (offset a ≥ (save (a ++ v :: b)).length) := by
    rw [save_length, offset_append]
    omega
  rw [if_neg h4, save_entry]
  have h5 : entry v ++ b.flatMap entry = v.1 ++ '=' :: (v.2 ++ Char.ofNat 0 :: b.flatMap entry) := by
    unfold entry; simp
  rw [h5]
  rfl

theorem search_found {vars : List (Str × Str)} (hg : Good vars) {j : Nat} {key v : Str} (hj : vars[j]? = some (key, v)) :
    ∀ (n : Nat) (left right : Int), (right - left).toNat = n → -1 ≤ left → left < j → j < right → right ≤ vars.length →
      search ⟨save vars, vars.length, 4 + 4 * vars.length⟩ key left right = .value v := by
  intro n
  induction n using Nat.strongRecOn with
  | ind n ih =>
    intro left right hn h1 h2 h3 h4
    obtain ⟨hjl, hje⟩ := List.getElem?_eq_some_iff.1 hj
    generalize hcur : ((right - left) / 2 + left).toNat = cur
    have hcur' : (right - left) / 2 + left = cur := by omega
    have hlt : cur < vars.length := by omega
    have hsplit : vars = vars.take cur ++ vars[cur] :: vars.drop (cur + 1) := by
      rw [List.getElem_cons_drop, List.take_append_drop]
    have hlen : (vars.take cur).length = cur := by rw [List.length_take]; omega
    have hkey : Plain key := by
      have := hg.names (key, v) (List.mem_of_getElem? hj)
      exact this
    have hstep := search_step (a := vars.take cur) (v := vars[cur]) (b := vars.drop (cur + 1)) (key := key)
      (left := left) (right := right) (by rw [← hsplit]; exact hg) (by omega) (by rw [hlen]; exact hcur')
    rw [← hsplit, hlen] at hstep
    rw [hstep]
    have hmem : vars[cur] ∈ vars := List.getElem_mem hlt
    rcases Nat.lt_trichotomy cur j with hc | hc | hc
    · have hs := (List.pairwise_iff_getElem.1 hg.sorted) cur j hlt hjl hc
      rw [hje] at hs
      rw [(compare_order (hg.names _ hmem) hkey).1 hs]
      exact ih (right - cur).toNat (by omega) cur right rfl (by omega) (by omega) h3 h4
    · subst hc
      rw [hje]
      have := compare_self (n := key) (v := v) (rest := (vars.drop (cur + 1)).flatMap entry)
        (fun c hc => (hkey c hc).2) (hg.values (key, v) (List.mem_of_getElem? hj))
      rw [this]
    · have hs := (List.pairwise_iff_getElem.1 hg.sorted) j cur hjl hlt hc
      rw [hje] at hs
      rw [(compare_order (hg.names _ hmem) hkey).2 hs]
      exact ih (cur - left).toNat (by omega) left cur rfl h1 h2 (by omega) (by omega)

theorem search_absent {vars : List (Str × Str)} (hg : Good vars) {key : Str} (hb : ∀ c ∈ key, c.toNat < 256)
    (hk : ∀ v ∈ vars, v.1 ≠ key) :
    ∀ (n : Nat) (left right : Int), (right - left).toNat = n → -1 ≤ left → right ≤ vars.length →
      search ⟨save vars, vars.length, 4 + 4 * vars.length⟩ key left right = .absent := by
  intro n
  induction n using Nat.strongRecOn with
  | ind n ih =>
    intro left right hn h1 h4
    by_cases h0 : (right - left) / 2 ≤ 0
    · rw [search, dif_pos h0]
    · generalize hcur : ((right - left) / 2 + left).toNat = cur
      have hcur' : (right - left) / 2 + left = cur := by omega
      have hlt : cur < vars.length := by omega
      have hsplit : vars = vars.take cur ++ vars[cur] :: vars.drop (cur + 1) := by
        rw [List.getElem_cons_drop, List.take_append_drop]
      have hlen : (vars.take cur).length = cur := by rw [List.length_take]; omega
      have hstep := search_step (a := vars.take cur) (v := vars[cur]) (b := vars.drop (cur + 1)) (key := key)
        (left := left) (right := right) (by rw [← hsplit]; exact hg) (by omega) (by rw [hlen]; exact hcur')
      rw [← hsplit, hlen] at hstep
      rw [hstep]
      have hmem : vars[cur] ∈ vars := List.getElem_mem hlt
      have hne := hk _ hmem
      rcases compare_ne (v := vars[cur].2) (rest := (vars.drop (cur + 1)).flatMap entry)
        (fun c hc => ⟨Nat.lt_trans (hg.names _ hmem c hc).1 (by omega), (hg.names _ hmem c hc).2⟩) hb hne with h | h
      · rw [h]
        exact ih (right - cur).toNat (by omega) cur right rfl (by omega) h4
      · rw [h]
        exact ih (cur - left).toNat (by omega) left cur rfl h1 (by omega)

/-- C17: the file that was written can be opened, and looking a name up gives the value that was written for it. -/
theorem c17_value {vars : List (Str × Str)} (hg : Good vars) {n v : Str} (h : (n, v) ∈ vars) :
    ∃ V, openFile (save vars) = some V ∧ lookup V n = .value v := by
  have hsize := hg.size
  rw [save_length] at hsize
  refine ⟨_, openFile_save hsize, ?_⟩
  obtain ⟨j, hj⟩ := List.mem_iff_getElem?.1 h
  have hlt := (List.getElem?_eq_some_iff.1 hj).1
  exact search_found hg hj _ _ _ rfl (by omega) (by omega) (by show (j : Int) < (vars.length : Nat); omega) (by simp)

/-- C17: every other name, whatever bytes it is made of, is reported as absent. -/
theorem c17_absent {vars : List (Str × Str)} (hg : Good vars) {n : Str} (hb : ∀ c ∈ n, c.toNat < 256)
    (h : n ∉ vars.map (·.1)) : ∃ V, openFile (save vars) = some V ∧ lookup V n = .absent := by
  have hsize := hg.size
  rw [save_length] at hsize
  refine ⟨_, openFile_save hsize, ?_⟩
  refine search_absent hg hb ?_ _ _ _ rfl (by omega) (by simp)
  intro v hv he
  exact h (he ▸ List.mem_map_of_mem hv)

/-- An empty file, or none: every name is absent. -/
theorem c17_empty (n : Str) : openFile [] = some ⟨[], 0, 0⟩ ∧ lookup ⟨[], 0, 0⟩ n = .absent := by
  refine ⟨rfl, ?_⟩
  rw [lookup, search, dif_pos (by simp)]

def exVars : List (Str × Str) := [("A".toList, "x=y".toList), ("AB".toList, []), ("B".toList, "1".toList)]

theorem exGood : Good exVars where
  sorted := by decide
  names := by
    have : exVars.all (fun v => v.1.all fun c => c.toNat < 128 && c != '=') = true := by decide
    intro v hv c hc
    have := List.all_eq_true.1 (List.all_eq_true.1 this v hv) c hc
    simpa using this
  values := by
    have : exVars.all (fun v => !v.2.contains (Char.ofNat 0)) = true := by decide
    intro v hv
    have := List.all_eq_true.1 this v hv
    simpa [NoNul] using this
  size := by decide

example : (openFile (save exVars)).map (lookup · "A".toList) = some (.value "x=y".toList) := by decide +kernel
example : (openFile (save exVars)).map (lookup · "AB".toList) = some (.value []) := by decide +kernel
example : (openFile (save exVars)).map (lookup · "A=x".toList) = some .absent := by decide +kernel

/-- Why names have to be ASCII: the tree compares bytes as unsigned, the search as signed.  The variable is written but
not found. -/
theorem c17_false_for_bytes :
    Tree.strcmp "a".toList [Char.ofNat 0xc3] < 0 ∧
    (openFile (save [("a".toList, "1".toList), ([Char.ofNat 0xc3], "2".toList)])).map (lookup · [Char.ofNat 0xc3]) =
      some .absent := by
  decide +kernel

/-- Why they must not have an equals sign (`# CONFIG_A=b is not set` sets such a one): a variable is found that was
never set. -/
theorem c17_false_for_equals :
    (openFile (save [("A=b".toList, "n".toList)])).map (lookup · "A".toList) = some (.value "b=n".toList) := by
  decide +kernel

/-- A file that is too short for its index is rejected: if the file is accepted, every element of the index can be
read (unless the number at the beginning is so large that the length of the index overflows). -/
theorem c17_index {file : Str} {V : Vars} (h : openFile file = some V) (hn : V.num < 1073741823) {j : Nat} (hj : j < V.num) :
    ∃ off, rd32 V.file (4 + 4 * j) = some off := by
  unfold openFile at h
  split at h
  · cases h
    simp at hj
  · split at h
    · cases h
    · split at h
      · cases h
      · simp only at h
        split at h
        · cases h
        · rename_i hl
          cases h
          simp only at hn hj ⊢
          rw [Nat.mod_eq_of_lt (by omega)] at hl
          unfold rd32
          have h4 : 4 ≤ (file.drop (4 + 4 * j)).length := by rw [List.length_drop]; omega
          generalize file.drop (4 + 4 * j) = l at h4
          match l, h4 with
          | a :: b :: c :: d :: _, _ => exact ⟨_, rfl⟩

example : openFile ("\x02\x00\x00\x00\x00\x00\x00".toList) = none := by decide +kernel

/-- The overflow: a damaged file of four bytes is accepted, and the lookup reads memory that is not part of it. -/
theorem c17_overflow :
    (openFile [Char.ofNat 255, Char.ofNat 255, Char.ofNat 255, Char.ofNat 63]).map (lookup · "A".toList) = some .ub := by
  decide +kernel

/-- The offsets are compared with the length of the whole file, not with what is left of it behind the index: the lookup
can read behind the end of a damaged file. -/
theorem c17_damaged :
    (openFile (le32 1 ++ le32 4 ++ "A=1".toList)).map (lookup · "A".toList) = some .ub := by
  decide +kernel

end Tup.Vardict
