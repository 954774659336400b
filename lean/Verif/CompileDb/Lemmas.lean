import Verif.CompileDb.Spec
import Verif.Strings.Props

/-! Lemmas for C89. -/

namespace Tup.CompileDb

open Tup (Str)
open Tup.Strings (printJson jsonEsc)

theorem rd_plain {c : Char} {r : Str} (h1 : c ≠ '\\') (h2 : c ≠ '"') (h3 : Strings.control c = false) : rdStr (c :: r) = (rdStr r).map fun x => (c :: x.1, x.2) := by
  have h4 : ¬ c.toNat < 32 := by
    intro h
    unfold Strings.control at h3
    rw [decide_eq_true h] at h3
    cases h3
  rw [rdStr.eq_def]
  split
  · contradiction
  · rename_i e; injection e with e _; exact absurd e h2
  · rename_i e; injection e with e _; exact absurd e h1
  · rename_i e; injection e with e _; exact absurd e h1
  · rename_i e
    injection e with e1 e2
    subst e1 e2
    rw [if_neg h4]

theorem rd_esc {c : Char} {r : Str} (h : c = '\\' ∨ c = '"') : rdStr ('\\' :: c :: r) = (rdStr r).map fun x => (c :: x.1, x.2) := by
  rw [rdStr]
  rw [if_pos (h.elim Or.inl fun h => Or.inr (Or.inl h))]

theorem rd_json : ∀ {s r : Str}, (∀ c, c ∈ s → Strings.control c = false) → rdStr (jsonEsc s ++ '"' :: r) = some (s, r)
  | [], r, _ => rfl
  | c :: s, r, h => by
    have ih := rd_json (s := s) (r := r) fun x hx => h x (List.mem_cons_of_mem _ hx)
    rw [Strings.jsonEsc_cons]
    by_cases hc : c = '\\' ∨ c = '"'
    · rw [if_pos hc]
      show rdStr ('\\' :: c :: (jsonEsc s ++ '"' :: r)) = _
      rw [rd_esc hc, ih]
      rfl
    · rw [if_neg hc]
      show rdStr (c :: (jsonEsc s ++ '"' :: r)) = _
      rw [rd_plain (fun e => hc (Or.inl e)) (fun e => hc (Or.inr e)) (h c List.mem_cons_self), ih]
      rfl

theorem rd_path : ∀ {s r : Str}, PathOk s → rdStr (s ++ '"' :: r) = some (s, r)
  | [], r, _ => rfl
  | c :: s, r, h => by
    obtain ⟨h1, h2, h3⟩ := h c List.mem_cons_self
    show rdStr (c :: (s ++ '"' :: r)) = _
    rw [rd_plain h2 h3 h1, rd_path fun x hx => h x (List.mem_cons_of_mem _ hx)]
    rfl

theorem print_ok {s : Str} (h : TextOk s) : printJson s = .ok (jsonEsc s) := by
  have h0 : '\x00' ∉ s := fun h1 => by
    have := h.1 _ h1
    exact absurd this (by decide)
  rw [Strings.printJson_eq s h0, if_neg]
  intro hall
  obtain ⟨c, hc, h1, h2⟩ := h.2
  exact (hall c hc).elim h1 h2

/-- The text of an entry behind its brace. -/
def body (d c f rest : Str) : Str :=
  "\n    \"directory\": \"".toList ++ (jsonEsc d ++ ("\",\n    \"command\": \"".toList ++ (jsonEsc c ++ ("\",\n    \"file\": \"".toList ++ (f ++ ("\"\n}".toList ++ rest))))))

theorem entry_ok {first : Bool} {d c f rest : Str} (hd : TextOk d) (hc : TextOk c) : ∃ t, entry first d c f = some t ∧ t ++ rest = (if first then [] else ",\n".toList) ++ '{' :: body d c f rest := by
  have h : entry first d c f = some ((if first then [] else ",\n".toList) ++ "{\n".toList ++ "    \"directory\": \"".toList ++ jsonEsc d ++ "\",\n".toList
      ++ "    \"command\": \"".toList ++ jsonEsc c ++ "\",\n".toList ++ "    \"file\": \"".toList ++ f ++ "\"\n".toList ++ "}".toList) := by
    unfold entry
    rw [print_ok hd, print_ok hc]
  refine ⟨_, h, ?_⟩
  unfold body
  simp only [List.append_assoc]
  rfl

theorem field_json {k s r : Str} (a : Str) (ha : a = '"' :: (k ++ ['"', ':', ' ', '"'])) (hk : PathOk k) (hs : ∀ c, c ∈ s → Strings.control c = false) :
    ∀ w : Str, (∀ c, c ∈ w → isWs c = true) → rdField (w ++ (a ++ (jsonEsc s ++ '"' :: r))) = some ((k, s), r) := by
  intro w hw
  subst ha
  have t1 : tok '"' (w ++ ('"' :: (k ++ ['"', ':', ' ', '"']) ++ (jsonEsc s ++ '"' :: r))) = some (k ++ '"' :: (':' :: ' ' :: '"' :: (jsonEsc s ++ '"' :: r))) := by
    unfold tok ws
    rw [List.dropWhile_append_of_pos hw]
    show some (k ++ ['"', ':', ' ', '"'] ++ (jsonEsc s ++ '"' :: r)) = _
    simp
  unfold rdField
  rw [t1]
  dsimp only
  rw [rd_path hk]
  dsimp only
  rw [show tok ':' (':' :: ' ' :: '"' :: (jsonEsc s ++ '"' :: r)) = some (' ' :: '"' :: (jsonEsc s ++ '"' :: r)) from rfl]
  dsimp only
  rw [show tok '"' (' ' :: '"' :: (jsonEsc s ++ '"' :: r)) = some (jsonEsc s ++ '"' :: r) from rfl]
  dsimp only
  rw [rd_json hs]

theorem field_path {k s r : Str} (a : Str) (ha : a = '"' :: (k ++ ['"', ':', ' ', '"'])) (hk : PathOk k) (hs : PathOk s) :
    ∀ w : Str, (∀ c, c ∈ w → isWs c = true) → rdField (w ++ (a ++ (s ++ '"' :: r))) = some ((k, s), r) := by
  intro w hw
  have e : jsonEsc s = s := by
    clear hk ha
    induction s with
    | nil => rfl
    | cons c s ih =>
      obtain ⟨_, h2, h3⟩ := hs c List.mem_cons_self
      rw [Strings.jsonEsc_cons, if_neg (fun e => e.elim h2 h3), ih fun x hx => hs x (List.mem_cons_of_mem _ hx)]
      rfl
  have := field_json (s := s) (r := r) a ha hk (fun c hc => (hs c hc).1) w hw
  rw [e] at this
  exact this

theorem path_dec {s : Str} (h : (s.all fun c => !Strings.control c && decide (c ≠ '\\') && decide (c ≠ '"')) = true) : PathOk s := by
  intro c hc
  have := List.all_eq_true.mp h c hc
  simp only [Bool.and_eq_true, Bool.not_eq_true', decide_eq_true_eq] at this
  exact ⟨this.1.1, this.1.2, this.2⟩

theorem ws_dec {w : Str} (h : w.all isWs = true) : ∀ c, c ∈ w → isWs c = true := fun c hc => List.all_eq_true.mp h c hc

/-- An object is read back. -/
theorem fields_ok {d c f rest : Str} {n : Nat} (h : CallOk (d, c, f)) (hn : 3 ≤ n) : rdFields n (body d c f rest) = some (object (d, c, f), rest) := by
  obtain ⟨n, rfl⟩ : ∃ m, n = m + 3 := ⟨n - 3, by omega⟩
  obtain ⟨hd, hc, hf⟩ := h
  have w : ∀ c, c ∈ "\n    ".toList → isWs c = true := ws_dec (by decide)
  have e1 : body d c f rest = "\n    ".toList ++ ("\"directory\": \"".toList ++ (jsonEsc d ++ '"' :: (',' :: ("\n    ".toList ++ ("\"command\": \"".toList ++ (jsonEsc c ++ '"' :: (',' :: ("\n    ".toList ++ ("\"file\": \"".toList ++ (f ++ '"' :: ('\n' :: '}' :: rest))))))))))) := rfl
  have s1 := field_json (k := "directory".toList) (r := ',' :: ("\n    ".toList ++ ("\"command\": \"".toList ++ (jsonEsc c ++ '"' :: (',' :: ("\n    ".toList ++ ("\"file\": \"".toList ++ (f ++ '"' :: ('\n' :: '}' :: rest))))))))) "\"directory\": \"".toList rfl (path_dec (by decide)) hd.1 _ w
  have s2 := field_json (k := "command".toList) (r := ',' :: ("\n    ".toList ++ ("\"file\": \"".toList ++ (f ++ '"' :: ('\n' :: '}' :: rest))))) "\"command\": \"".toList rfl (path_dec (by decide)) hc.1 _ w
  have s3 := field_path (k := "file".toList) (r := '\n' :: '}' :: rest) "\"file\": \"".toList rfl (path_dec (by decide)) hf _ w
  have k1 : ∀ (m : Nat) (s : Str) (g : Str × Str) (r : Str), rdField s = some (g, ',' :: r) → rdFields (m + 1) s = (rdFields m r).map fun x => (g :: x.1, x.2) := by
    intro m s g r h
    rw [rdFields, h]
    rfl
  have k2 : ∀ (m : Nat) (s : Str) (g : Str × Str) (r : Str), rdField s = some (g, '\n' :: '}' :: r) → rdFields (m + 1) s = some ([g], r) := by
    intro m s g r h
    rw [rdFields, h]
    rfl
  rw [e1, k1 _ _ _ _ s1, k1 _ _ _ _ s2, k2 _ _ _ _ s3]
  rfl

theorem body_len {d c f rest : Str} : 3 ≤ (body d c f rest).length := by
  unfold body
  rw [List.length_append]
  have : "\n    \"directory\": \"".toList.length = 19 := by decide
  omega

/-- The entries, the first without a comma, are read back. -/
theorem objs_ok : ∀ (l : List (Str × Str × Str)) (x : Str × Str × Str) (n : Nat), l.length < n → CallOk x → (∀ y, y ∈ l → CallOk y) →
    ∃ t b, entries true (x :: l) = some (t, b) ∧ b = false ∧ ∀ w rest : Str, (∀ c, c ∈ w → isWs c = true) → rdObjs n (w ++ (t ++ "\n]".toList ++ rest)) = some (object x :: l.map object, rest)
  | [], (d, c, f), n + 1, _, hx, _ => by
    obtain ⟨t, ht, _⟩ := entry_ok (first := true) (f := f) (rest := []) hx.1 hx.2.1
    refine ⟨t, false, ?_, rfl, fun w rest hw => ?_⟩
    · unfold entries
      rw [ht]
      simp [entries]
    · obtain ⟨t', ht', e⟩ := entry_ok (first := true) (f := f) (rest := "\n]".toList ++ rest) hx.1 hx.2.1
      rw [ht] at ht'
      injection ht' with ht'
      subst ht'
      rw [List.append_assoc, e]
      unfold rdObjs
      have t1 : tok '{' (w ++ ((if true = true then [] else ",\n".toList) ++ '{' :: body d c f ("\n]".toList ++ rest))) = some (body d c f ("\n]".toList ++ rest)) := by
        unfold tok ws
        rw [List.dropWhile_append_of_pos hw]
        rfl
      rw [t1]
      dsimp only
      rw [fields_ok hx body_len]
      rfl
  | y :: l, (d, c, f), n + 1, hn, hx, hl => by
    obtain ⟨u, b, hu, hb, hr⟩ := objs_ok l y n (by simpa using hn) (hl y List.mem_cons_self) (fun z hz => hl z (List.mem_cons_of_mem _ hz))
    have hu2 : entries false (y :: l) = some (",\n".toList ++ u, b) := by
      obtain ⟨d', c', f'⟩ := y
      unfold entries at hu ⊢
      obtain ⟨t1, h1, e1⟩ := entry_ok (first := true) (f := f') (rest := []) (hl _ List.mem_cons_self).1 (hl _ List.mem_cons_self).2.1
      obtain ⟨t2, h2, e2⟩ := entry_ok (first := false) (f := f') (rest := []) (hl _ List.mem_cons_self).1 (hl _ List.mem_cons_self).2.1
      rw [List.append_nil] at e1 e2
      rw [h1] at hu
      rw [h2]
      cases he : entries false l with
      | none => rw [he] at hu; cases hu
      | some v =>
        obtain ⟨v, b'⟩ := v
        rw [he] at hu
        dsimp only at hu ⊢
        injection hu with hu
        injection hu with e3 e4
        rw [← e3, e4, e1, e2]
        simp
    obtain ⟨t, ht, _⟩ := entry_ok (first := true) (f := f) (rest := []) hx.1 hx.2.1
    refine ⟨t ++ (",\n".toList ++ u), b, ?_, hb, fun w rest hw => ?_⟩
    · rw [entries.eq_def]
      dsimp only
      rw [ht, hu2]
    · obtain ⟨t', ht', e⟩ := entry_ok (first := true) (f := f) (rest := ",\n".toList ++ (u ++ "\n]".toList ++ rest)) hx.1 hx.2.1
      rw [ht] at ht'
      injection ht' with ht'
      subst ht'
      rw [show t ++ (",\n".toList ++ u) ++ "\n]".toList ++ rest = t ++ (",\n".toList ++ (u ++ "\n]".toList ++ rest)) from by simp only [List.append_assoc], e]
      have t1 : tok '{' (w ++ ((if true = true then [] else ",\n".toList) ++ '{' :: body d c f (",\n".toList ++ (u ++ "\n]".toList ++ rest)))) = some (body d c f (",\n".toList ++ (u ++ "\n]".toList ++ rest))) := by
        unfold tok ws
        rw [List.dropWhile_append_of_pos hw]
        rfl
      unfold rdObjs
      rw [t1]
      dsimp only
      rw [fields_ok hx body_len]
      dsimp only
      show Option.map (fun x => (object (d, c, f) :: x.1, x.2)) (rdObjs n ("\n".toList ++ (u ++ "\n]".toList ++ rest))) = _
      rw [hr "\n".toList rest (ws_dec (by decide))]
      rfl

theorem entry_pos {b : Bool} {d c f t : Str} (h : entry b d c f = some t) : 1 ≤ t.length := by
  unfold entry at h
  split at h
  · injection h with h
    rw [← h]
    simp only [List.length_append]
    have : "}".toList.length = 1 := by decide
    omega
  · cases h

theorem entries_len : ∀ {l : List (Str × Str × Str)} {b : Bool} {t : Str} {b' : Bool}, entries b l = some (t, b') → l.length ≤ t.length
  | [], _, _, _, _ => Nat.zero_le _
  | (d, c, f) :: l, b, t, b', h => by
    rw [entries.eq_def] at h
    dsimp only at h
    split at h
    · rename_i t1 u b1 h1 h2
      injection h with h
      injection h with h _
      rw [← h, List.length_append, List.length_cons]
      have := entries_len h2
      have := entry_pos h1
      omega
    · cases h

/-- Entries of texts that can be written are all written, and `first_time` is kept only if there are none. -/
theorem entries_ok : ∀ {l : List (Str × Str × Str)} {b : Bool}, (∀ y, y ∈ l → CallOk y) → ∃ t, entries b l = some (t, b && l.isEmpty)
  | [], b, _ => ⟨[], by simp [entries]⟩
  | (d, c, f) :: l, b, h => by
    obtain ⟨u, hu⟩ := entries_ok (l := l) (b := false) fun y hy => h y (List.mem_cons_of_mem _ hy)
    obtain ⟨t, ht, _⟩ := entry_ok (first := b) (f := f) (rest := []) (h _ List.mem_cons_self).1 (h _ List.mem_cons_self).2.1
    refine ⟨t ++ u, ?_⟩
    rw [entries.eq_def]
    dsimp only
    rw [ht, hu]
    simp

/-- The text of the file when `first_time` is set. -/
theorem read_first {l : List (Str × Str × Str)} {t : Str} {b : Bool} (h : ∀ y, y ∈ l → CallOk y) (ht : entries true l = some (t, b)) :
    read ("[\n".toList ++ t ++ "\n]\n".toList) = some (l.map object) := by
  cases l with
  | nil =>
    unfold entries at ht
    injection ht with ht
    injection ht with ht _
    rw [← ht]
    decide
  | cons x l =>
    have hlen := entries_len ht
    obtain ⟨t', b', ht', _, hr⟩ := objs_ok l x ("[\n".toList ++ t ++ "\n]\n".toList).length (by
      simp only [List.length_append, List.length_cons] at hlen ⊢
      omega) (h x List.mem_cons_self) fun y hy => h y (List.mem_cons_of_mem _ hy)
    rw [ht] at ht'
    injection ht' with ht'
    injection ht' with ht' _
    subst ht'
    have hr1 := hr "\n".toList "\n".toList (ws_dec (by decide))
    obtain ⟨r0, hr0⟩ : ∃ r0, t = '{' :: r0 := by
      obtain ⟨d, c, f⟩ := x
      rw [entries.eq_def] at ht
      dsimp only at ht
      obtain ⟨t1, h1, e1⟩ := entry_ok (first := true) (f := f) (rest := []) (h _ List.mem_cons_self).1 (h _ List.mem_cons_self).2.1
      rw [List.append_nil] at e1
      rw [h1] at ht
      cases he : entries false l with
      | none => rw [he] at ht; cases ht
      | some v =>
        rw [he] at ht
        injection ht with ht
        injection ht with ht _
        rw [← ht, e1]
        exact ⟨_, rfl⟩
    generalize hN : ("[\n".toList ++ t ++ "\n]\n".toList).length = N at hr1
    unfold read
    rw [hN]
    have t1 : tok '[' ("[\n".toList ++ t ++ "\n]\n".toList) = some ("\n".toList ++ (t ++ "\n]".toList ++ "\n".toList)) := by
      show some ("\n".toList ++ t ++ "\n]\n".toList) = _
      simp only [List.append_assoc]
      rfl
    rw [t1]
    dsimp only
    rw [hr1]
    subst hr0
    rfl

/-- The text of the file when `first_time` is not set. -/
theorem read_later {x : Str × Str × Str} {l : List (Str × Str × Str)} {t : Str} {b : Bool} (h : ∀ y, y ∈ x :: l → CallOk y) (ht : entries false (x :: l) = some (t, b)) :
    read ("[\n".toList ++ t ++ "\n]\n".toList) = none := by
  obtain ⟨r0, hr0⟩ : ∃ r0, t = ',' :: r0 := by
    obtain ⟨d, c, f⟩ := x
    rw [entries.eq_def] at ht
    dsimp only at ht
    obtain ⟨t1, h1, e1⟩ := entry_ok (first := false) (f := f) (rest := []) (h _ List.mem_cons_self).1 (h _ List.mem_cons_self).2.1
    rw [List.append_nil] at e1
    rw [h1] at ht
    cases he : entries false l with
    | none => rw [he] at ht; cases ht
    | some v =>
      rw [he] at ht
      injection ht with ht
      injection ht with ht _
      rw [← ht, e1]
      exact ⟨_, rfl⟩
  subst hr0
  unfold read
  rw [show tok '[' ("[\n".toList ++ (',' :: r0) ++ "\n]\n".toList) = some ('\n' :: ',' :: (r0 ++ "\n]\n".toList)) from rfl]
  dsimp only
  have : ∀ N, rdObjs N ('\n' :: ',' :: (r0 ++ "\n]\n".toList)) = none := by
    intro N
    cases N with
    | zero => rfl
    | succ N => rfl
  rw [this]
  rfl

theorem calls_map {cmds : List Cmd} {v : Nat} : (calls cmds v).map object = records cmds v := by
  unfold calls records
  induction cmds with
  | nil => rfl
  | cons c cmds ih =>
    rw [List.flatMap_cons, ← ih]
    by_cases h : 'j' ∈ c.flags ∧ c.variant = v
    · have h1 : (exported c && decide (c.variant = v)) = true := by
        unfold exported
        rw [decide_eq_true h.2, List.contains_iff_mem.mpr h.1]
        rfl
      rw [if_pos h, List.filter_cons, if_pos h1, List.flatMap_cons, List.map_append]
      congr 1
      generalize c.inputs = l
      induction l with
      | nil => rfl
      | cons i l ihl =>
        rw [List.filter_cons, List.filterMap_cons]
        by_cases hi : i.file = true
        · rw [if_pos hi, if_pos hi, List.map_cons, List.map_cons, ihl]
        · rw [if_neg hi, if_neg hi, ihl]
    · have h1 : ¬ (exported c && decide (c.variant = v)) = true := by
        unfold exported
        intro e
        rw [Bool.and_eq_true, decide_eq_true_eq, List.contains_iff_mem] at e
        exact h e
      rw [if_neg h, List.filter_cons, if_neg h1, List.nil_append]

theorem calls_ok {cmds : List Cmd} {v : Nat} (h : CmdsOk cmds) : ∀ y, y ∈ calls cmds v → CallOk y := by
  intro y hy
  obtain ⟨c, hc, hy⟩ := List.mem_flatMap.mp hy
  obtain ⟨i, hi, rfl⟩ := List.mem_map.mp hy
  have := h c (List.mem_filter.mp hc).1
  exact ⟨this.1, this.2.1, this.2.2 i (List.mem_filter.mp hi).1⟩

theorem files_ok {cmds : List Cmd} (h : CmdsOk cmds) : ∀ (vs : List Nat) (b : Bool), ∃ ts, files cmds b vs = some ts ∧ ts.length = vs.length ∧
    ∀ (i : Nat) (v : Nat) (t : Str), vs[i]? = some v → ts[i]? = some t →
      ((records cmds v = [] ∨ (b = true ∧ ∀ j w, j < i → vs[j]? = some w → records cmds w = [])) → read t = some (records cmds v))
      ∧ (¬ (records cmds v = [] ∨ (b = true ∧ ∀ j w, j < i → vs[j]? = some w → records cmds w = [])) → read t = none)
  | [], b => ⟨[], rfl, rfl, fun i v t hv => by simp at hv⟩
  | v0 :: vs, b => by
    obtain ⟨t, ht⟩ := entries_ok (l := calls cmds v0) (b := b) (calls_ok h)
    obtain ⟨ts, hts, hlen, hall⟩ := files_ok h vs (b && (calls cmds v0).isEmpty)
    have hemp : (calls cmds v0).isEmpty = true ↔ records cmds v0 = [] := by
      rw [← calls_map, List.isEmpty_iff]
      exact ⟨fun e => by rw [e]; rfl, fun e => List.map_eq_nil_iff.mp e⟩
    refine ⟨("[\n".toList ++ t ++ "\n]\n".toList) :: ts, ?_, by rw [List.length_cons, List.length_cons, hlen], ?_⟩
    · rw [files.eq_def]
      dsimp only
      unfold create
      rw [ht]
      dsimp only
      rw [hts]
      rfl
    · intro i v u hv hu
      cases i with
      | zero =>
        rw [List.getElem?_cons_zero] at hv hu
        injection hv with hv
        injection hu with hu
        subst hv hu
        constructor
        · intro hc
          rcases hc with hc | hc
          · have hn : calls cmds v0 = [] := List.isEmpty_iff.mp (hemp.mpr hc)
            rw [hn] at ht
            unfold entries at ht
            injection ht with ht
            injection ht with ht _
            rw [← ht, hc]
            decide
          · rw [hc.1] at ht
            rw [read_first (calls_ok h) ht, calls_map]
        · intro hc
          have hb : b = false := by
            cases b with
            | false => rfl
            | true => exact absurd (Or.inr ⟨rfl, fun j w hj => absurd hj (Nat.not_lt_zero _)⟩) hc
          subst hb
          cases hcl : calls cmds v0 with
          | nil =>
            refine absurd (Or.inl (hemp.mp ?_)) hc
            rw [hcl]
            rfl
          | cons x l =>
            have hk := calls_ok (v := v0) h
            rw [hcl] at ht hk
            exact read_later hk ht
      | succ i =>
        rw [List.getElem?_cons_succ] at hv hu
        have := hall i v u hv hu
        have he : ((b && (calls cmds v0).isEmpty) = true ∧ ∀ j w, j < i → vs[j]? = some w → records cmds w = [])
            ↔ (b = true ∧ ∀ j w, j < i + 1 → (v0 :: vs)[j]? = some w → records cmds w = []) := by
          rw [Bool.and_eq_true, hemp]
          constructor
          · rintro ⟨⟨h1, h2⟩, h3⟩
            refine ⟨h1, fun j w hj hw => ?_⟩
            cases j with
            | zero =>
              rw [List.getElem?_cons_zero] at hw
              injection hw with hw
              rw [← hw]
              exact h2
            | succ j => exact h3 j w (by omega) (by rw [List.getElem?_cons_succ] at hw; exact hw)
          · rintro ⟨h1, h2⟩
            exact ⟨⟨h1, h2 0 v0 (by omega) rfl⟩, fun j w hj hw => h2 (j + 1) w (by omega) (by rw [List.getElem?_cons_succ]; exact hw)⟩
        rw [he] at this
        exact this

theorem contains_iff : ∀ {s t : Str}, contains s t = true ↔ t <:+: s
  | [], t => by
    unfold contains
    rw [List.isEmpty_iff, List.infix_nil]
  | c :: s, t => by
    unfold contains
    rw [Bool.or_eq_true, contains_iff, List.isPrefixOf_iff_prefix, List.infix_cons_iff]

end Tup.CompileDb
