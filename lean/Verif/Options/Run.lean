import Verif.Options.Lemmas

/-! From the bytes of an option file to its settings. -/

namespace Tup.Options

/-- A piece that `fgets` reads: the line with its newline, or without one at the end of the file. -/
def Piece (p l : Str) : Prop := p = l ∨ p = l ++ ['\n']

inductive Pieces : List Str → List Str → Prop where
  | nil : Pieces [] []
  | cons {p l ps ls} : Piece p l → Pieces ps ls → Pieces (p :: ps) (l :: ls)

theorem chunks_line (left : Nat) (cur l t : Str) (h : '\n' ∉ l) (hl : l.length + 1 ≤ left) :
    chunks left cur (l ++ '\n' :: t) = (cur.reverse ++ l ++ ['\n']) :: chunks 199 [] t := by
  induction l generalizing left cur with
  | nil =>
    show chunks left cur ('\n' :: t) = _
    rw [chunks, if_pos (.inl rfl)]
    simp
  | cons c l ih =>
    rw [List.length_cons] at hl
    rw [List.cons_append, chunks, if_neg]
    · rw [ih _ _ (fun hm => h (List.mem_cons_of_mem _ hm)) (by omega)]
      simp
    · rintro (rfl | hh)
      · exact h List.mem_cons_self
      · omega

theorem chunks_last (left : Nat) (cur l : Str) (hne : cur ≠ [] ∨ l ≠ []) (h : '\n' ∉ l) (hl : l.length + 1 ≤ left) :
    chunks left cur l = [cur.reverse ++ l] := by
  induction l generalizing left cur with
  | nil =>
    rw [chunks, if_neg, List.append_nil]
    rcases hne with h | h
    · exact h
    · exact absurd rfl h
  | cons c l ih =>
    rw [List.length_cons] at hl
    rw [chunks, if_neg]
    · rw [ih _ _ (.inl (by simp)) (fun hm => h (List.mem_cons_of_mem _ hm)) (by omega)]
      simp
    · rintro (rfl | hh)
      · exact h List.mem_cons_self
      · omega

/-- The pieces are the lines. -/
theorem chunks_lines {text : Str} {ls : List Str} (h : IsLines text ls) (hf : Fits ls) :
    Pieces (chunks 199 [] text) ls := by
  induction h with
  | nil => exact .nil
  | @last l h1 h2 =>
    rw [chunks_last _ _ _ (.inr h1) h2 (by have := (hf l List.mem_cons_self).1; omega)]
    exact .cons (.inl rfl) .nil
  | @cons l t ls h1 h2 ih =>
    rw [chunks_line _ _ _ _ h1 (by have := (hf l List.mem_cons_self).1; omega)]
    exact .cons (.inr rfl) (ih fun x hx => hf x (List.mem_cons_of_mem _ hx))

theorem bom_newline : '\n' ∉ bom := by decide

theorem chunks_bom {text : Str} {l : Str} {ls : List Str} (h : IsLines text (l :: ls)) (hf : Fits (l :: ls)) (hl : l.length ≤ 195) :
    ∃ p ps, chunks 199 [] (bom ++ text) = (bom ++ p) :: ps ∧ Piece p l ∧ Pieces ps ls := by
  have hlen : bom.length = 3 := rfl
  cases h with
  | last h1 h2 =>
    refine ⟨text, [], ?_, .inl rfl, .nil⟩
    rw [chunks_last _ _ _ (.inr (by simp [bom])) (by simp [bom_newline, h2]) (by rw [List.length_append]; omega)]
    rfl
  | @cons _ t _ h1 h2 =>
    refine ⟨l ++ ['\n'], chunks 199 [] t, ?_, .inr rfl, chunks_lines h2 fun x hx => hf x (List.mem_cons_of_mem _ hx)⟩
    rw [← List.append_assoc, chunks_line _ _ _ _ (by simp [bom_newline, h1]) (by rw [List.length_append]; omega)]
    simp

theorem newline_blank : Blank ['\n'] := by
  intro c hc
  rw [List.mem_singleton.1 hc]
  rfl

theorem piece_rstrip {p l : Str} (h : Piece p l) : rstrip p = rstrip l := by
  rcases h with rfl | rfl
  · rfl
  · exact rstrip_blank newline_blank l

theorem piece_cstr {p l : Str} (h : Piece p l) (hn : '\x00' ∉ l) : cstr p = p := by
  have : ∀ c ∈ p, c ≠ '\x00' := by
    rcases h with rfl | rfl
    · intro c hc he; exact hn (he ▸ hc)
    · intro c hc he
      rcases List.mem_append.1 hc with hc | hc
      · exact hn (he ▸ hc)
      · rw [List.mem_singleton.1 hc] at he; cases he
  unfold cstr
  clear h
  induction p with
  | nil => rfl
  | cons c p ih =>
    rw [List.takeWhile_cons_of_pos (by simpa using this c List.mem_cons_self), ih fun d hd => this d (List.mem_cons_of_mem _ hd)]

theorem piece_bom {p l : Str} (h : Piece p l) (hb : p.take 3 = bom) : l.take 3 = bom := by
  rcases h with rfl | rfl
  · exact hb
  · match l, hb with
    | [], hb => cases hb
    | [_], hb => cases hb
    | [_, _], hb => simp [bom] at hb
    | _ :: _ :: _ :: _, hb => exact hb

/-- What the turn of the loop does for the line. -/
def lineStep {σ : Type} (h : Str → Str → Str → σ → σ × Bool) (st : Ini σ) (line : Str) : Ini σ :=
  let st := { st with lineno := st.lineno + 1 }
  match classify (decide (st.prev ≠ [])) line with
  | .skip => st
  | .more v => st.call h st.prev v
  | .sect a => { st with section_ := a.take 49, prev := [] }
  | .setting n v => ({ st with prev := n.take 49 } : Ini σ).call h n v
  | .bad => st.bad

theorem iniLine_of {σ : Type} (h : Str → Str → Str → σ → σ × Bool) (st : Ini σ) (p l : Str) (moved : Bool)
    (hs : start (decide (st.lineno + 1 = 1)) (cstr p) = (lskip (rstrip l), moved))
    (hm : st.prev ≠ [] → moved = decide (lskip (rstrip l) ≠ rstrip l)) : iniLine h st p = lineStep h st l := by
  unfold iniLine lineStep classify
  simp only [hs]
  cases ht : lskip (rstrip l) with
  | nil => rfl
  | cons c t =>
    simp only
    by_cases hk : c = ';' ∨ c = '#'
    · simp only [if_pos hk]
    · simp only [if_neg hk]
      by_cases hp : st.prev ≠ [] ∧ c :: t ≠ rstrip l
      · have : moved = true := by rw [hm hp.1, ht]; exact decide_eq_true hp.2
        rw [if_pos ⟨hp.1, this⟩, if_pos ⟨decide_eq_true hp.1, hp.2⟩]
      · have n1 : ¬ (st.prev ≠ [] ∧ moved = true) := by
          rintro ⟨h1, h2⟩
          rw [hm h1, ht] at h2
          exact hp ⟨h1, of_decide_eq_true h2⟩
        have n2 : ¬ (decide (st.prev ≠ []) = true ∧ c :: t ≠ rstrip l) := fun hh => hp ⟨of_decide_eq_true hh.1, hh.2⟩
        rw [if_neg n1, if_neg n2]
        by_cases hb : c = '['
        · simp only [if_pos hb]
          split
          · rename_i hf
            rw [hf]
            rfl
          · rename_i hf
            split <;> rename_i hg <;> split at hg <;> first | (rename_i hf2; exact absurd hf2 (hf _ _)) | rfl | (cases hg; done)
        · simp only [if_neg hb]
          rcases hf : find ['=', ':'] false (c :: t) with ⟨a, _ | ⟨d, b⟩⟩
          · rfl
          · simp only
            by_cases hd : d = '=' ∨ d = ':'
            · simp only [if_pos hd]
            · simp only [if_neg hd]

theorem iniLine_plain {σ : Type} (h : Str → Str → Str → σ → σ × Bool) (st : Ini σ) {p l : Str} (hp : Piece p l) (hn : '\x00' ∉ l)
    (hb : st.lineno = 0 → l.take 3 ≠ bom) : iniLine h st p = lineStep h st l := by
  have hskip : (decide (st.lineno + 1 = 1) && decide (p.take 3 = bom)) = false := by
    rw [Bool.and_eq_false_iff]
    by_cases hl : st.lineno = 0
    · exact .inr (decide_eq_false fun hc => hb hl (piece_bom hp hc))
    · exact .inl (decide_eq_false (by omega))
  refine iniLine_of h st p l _ ?_ (fun _ => rfl)
  unfold start
  rw [piece_cstr hp hn]
  simp only [hskip, Bool.false_eq_true, if_false, Bool.false_or, piece_rstrip hp]

theorem iniLine_bom {σ : Type} (h : Str → Str → Str → σ → σ × Bool) (st : Ini σ) {p l : Str} (hp : Piece p l) (hn : '\x00' ∉ l)
    (h0 : st.lineno = 0) (hprev : st.prev = []) : iniLine h st (bom ++ p) = lineStep h st l := by
  have hc : cstr (bom ++ p) = bom ++ p := by
    have := piece_cstr hp hn
    unfold cstr at this ⊢
    rw [List.takeWhile_append_of_pos (by decide), this]
  refine iniLine_of h st _ l true ?_ (fun hh => absurd hprev hh)
  unfold start
  rw [hc, h0]
  have h3 : (bom ++ p).take 3 = bom := rfl
  have h4 : (bom ++ p).drop 3 = p := rfl
  simp only [h3, h4, decide_true, Bool.and_self, if_true, Bool.true_or, piece_rstrip hp]

theorem call_lineno {σ : Type} (h : Str → Str → Str → σ → σ × Bool) (st : Ini σ) (n v : Str) : (st.call h n v).lineno = st.lineno := rfl

theorem lineStep_lineno {σ : Type} (h : Str → Str → Str → σ → σ × Bool) (st : Ini σ) (l : Str) : (lineStep h st l).lineno = st.lineno + 1 := by
  unfold lineStep
  simp only
  split <;> rfl

theorem fold_lines {σ : Type} (h : Str → Str → Str → σ → σ × Bool) {ps ls : List Str} (hp : Pieces ps ls) (hf : Fits ls) (st : Ini σ)
    (hb : st.lineno = 0 → ∀ l, ls.head? = some l → l.take 3 ≠ bom) : ps.foldl (iniLine h) st = ls.foldl (lineStep h) st := by
  induction hp generalizing st with
  | nil => rfl
  | @cons p l ps ls hp _ ih =>
    rw [List.foldl_cons, List.foldl_cons, iniLine_plain h st hp (hf l List.mem_cons_self).2 (fun h0 => hb h0 l rfl)]
    exact ih (fun x hx => hf x (List.mem_cons_of_mem _ hx)) _ (fun h0 => by rw [lineStep_lineno] at h0; omega)

theorem isLines_head {text l : Str} {ls : List Str} (h : IsLines text (l :: ls)) (hb : l.take 3 = bom) : text.take 3 = bom := by
  have : 3 ≤ l.length := by
    have := congrArg List.length hb
    rw [List.length_take] at this
    have : bom.length = 3 := rfl
    omega
  cases h with
  | last => exact hb
  | cons => rw [List.take_append_of_le_length this]; exact hb

/-- The file is read line by line. -/
theorem parse_lines {σ : Type} (h : Str → Str → Str → σ → σ × Bool) (u : σ) {text : Str} {ls : List Str} (hl : FileLines text ls) :
    iniParse h u text = ls.foldl (lineStep h) { user := u } := by
  unfold iniParse
  cases hl with
  | plain h1 h2 h3 =>
    refine fold_lines h (chunks_lines h1 h2) h2 _ fun _ l hl => ?_
    cases ls with
    | nil => cases hl
    | cons x ls => cases hl; exact fun hb => h3 (isLines_head h1 hb)
  | @bom text l ls h1 h2 h3 =>
    obtain ⟨p, ps, e1, e2, e3⟩ := chunks_bom h1 h2 h3
    rw [e1, List.foldl_cons, List.foldl_cons, iniLine_bom h _ e2 (h2 l List.mem_cons_self).2 rfl rfl]
    exact fold_lines h e3 (fun x hx => h2 x (List.mem_cons_of_mem _ hx)) _ (fun h0 => by rw [lineStep_lineno] at h0; cases h0)

theorem fileLines_fits {text : Str} {ls : List Str} (h : FileLines text ls) : Fits ls := by
  cases h with
  | plain _ h _ => exact h
  | bom _ h _ => exact h

/-- What `parse_callback` does for the option. -/
def put (e : Env) (m : Vars) (s : Str × Str) : Vars :=
  match lookup s.1 (options e) with
  | some (_, k) => if k.check s.2 then m.set s.1 s.2 else m
  | none => m

def fine (e : Env) (s : Str × Str) : Bool :=
  match lookup s.1 (options e) with
  | some (_, k) => k.check s.2
  | none => true

theorem callback_eq {e : Env} {sec name value : Str} {m : Vars} (h : (sec ++ '.' :: name).length < 256) :
    callback e sec name value m = (put e m (sec ++ '.' :: name, value), fine e (sec ++ '.' :: name, value)) := by
  unfold callback put fine
  simp only
  rw [if_neg (by omega)]
  cases lookup (sec ++ '.' :: name) (options e) with
  | none => rfl
  | some x =>
    obtain ⟨d, k⟩ := x
    simp only
    cases k.check value <;> rfl

theorem rstrip_length (s : Str) : (rstrip s).length ≤ s.length := by
  obtain ⟨w, h, _⟩ := rstrip_split s
  have := congrArg List.length h
  rw [List.length_append] at this
  omega

theorem lskip_length (s : Str) : (lskip s).length ≤ s.length := by
  obtain ⟨w, h, _⟩ := lskip_split s
  have := congrArg List.length h
  rw [List.length_append] at this
  omega

theorem setting_length {prev : Bool} {line n v : Str} (h : classify prev line = .setting n v) : n.length ≤ line.length := by
  have := lineIs_iff.2 h
  cases this with
  | setting _ ht _ _ _ hs =>
    obtain ⟨a, d, b, u, h1, _, _, _, _, ⟨w, w', h2, _⟩, _⟩ := hs
    obtain ⟨w1, w2, h3, _⟩ := ht
    have e1 := congrArg List.length h1
    have e2 := congrArg List.length h2
    have e3 := congrArg List.length h3
    simp only [List.length_append, List.length_cons] at e1 e2 e3
    omega

/-- Reading the lines is making the settings, in their order. -/
theorem fold_reads {e : Env} {sec prev : Str} {ls : List Str} {r : List (Str × Str)} (h : Reads sec prev ls r) (hf : Fits ls) (st : Ini Vars)
    (h1 : st.section_ = sec) (h2 : st.prev = prev) (h3 : sec.length ≤ 49) (h4 : prev.length ≤ 49) :
    (ls.foldl (lineStep (callback e)) st).user = r.foldl (put e) st.user ∧
    ((ls.foldl (lineStep (callback e)) st).error = 0 ↔ st.error = 0 ∧ ∀ s ∈ r, fine e s = true) := by
  induction h generalizing st with
  | nil => exact ⟨rfl, ⟨fun h => ⟨h, fun s hs => by cases hs⟩, fun h => h.1⟩⟩
  | @skip sec prev l ls r hl _ ih =>
    have hc := lineIs_iff.1 hl
    have hs : lineStep (callback e) st l = { st with lineno := st.lineno + 1 } := by
      unfold lineStep
      simp only [h2, hc]
    rw [List.foldl_cons, hs]
    exact ih (fun x hx => hf x (List.mem_cons_of_mem _ hx)) _ h1 h2 h3 h4
  | @more sec prev l ls r v hl _ ih =>
    have hc := lineIs_iff.1 hl
    have hlen : (sec ++ '.' :: prev).length < 256 := by rw [List.length_append, List.length_cons]; omega
    have hs : lineStep (callback e) st l = { st with lineno := st.lineno + 1, user := put e st.user (sec ++ '.' :: prev, v), error := if !fine e (sec ++ '.' :: prev, v) && st.error = 0 then st.lineno + 1 else st.error } := by
      unfold lineStep
      simp only [h2, hc, Ini.call, h1, callback_eq hlen]
    rw [List.foldl_cons, hs]
    obtain ⟨i1, i2⟩ := ih (fun x hx => hf x (List.mem_cons_of_mem _ hx)) { st with lineno := st.lineno + 1, user := put e st.user (sec ++ '.' :: prev, v), error := if !fine e (sec ++ '.' :: prev, v) && st.error = 0 then st.lineno + 1 else st.error } h1 h2 h3 h4
    refine ⟨i1, i2.trans ?_⟩
    simp only [List.forall_mem_cons]
    cases fine e (sec ++ '.' :: prev, v) with
    | true => simp
    | false =>
      by_cases h0 : st.error = 0 <;> simp [h0]
  | @sect sec prev l ls r s hl _ ih =>
    have hc := lineIs_iff.1 hl
    have hs : lineStep (callback e) st l = { st with lineno := st.lineno + 1, section_ := s.take 49, prev := [] } := by
      unfold lineStep
      simp only [h2, hc]
    rw [List.foldl_cons, hs]
    exact ih (fun x hx => hf x (List.mem_cons_of_mem _ hx)) _ rfl rfl (by rw [List.length_take]; omega) (by simp)
  | @setting sec prev l ls r n v hl _ ih =>
    have hc := lineIs_iff.1 hl
    have hlen : (sec ++ '.' :: n).length < 256 := by
      have := setting_length hc
      have := (hf l List.mem_cons_self).1
      rw [List.length_append, List.length_cons]; omega
    have hs : lineStep (callback e) st l = { st with lineno := st.lineno + 1, prev := n.take 49, user := put e st.user (sec ++ '.' :: n, v), error := if !fine e (sec ++ '.' :: n, v) && st.error = 0 then st.lineno + 1 else st.error } := by
      unfold lineStep
      simp only [h2, hc, Ini.call, h1, callback_eq hlen]
    rw [List.foldl_cons, hs]
    obtain ⟨i1, i2⟩ := ih (fun x hx => hf x (List.mem_cons_of_mem _ hx)) { st with lineno := st.lineno + 1, prev := n.take 49, user := put e st.user (sec ++ '.' :: n, v), error := if !fine e (sec ++ '.' :: n, v) && st.error = 0 then st.lineno + 1 else st.error } h1 rfl h3 (by rw [List.length_take]; omega)
    refine ⟨i1, i2.trans ?_⟩
    simp only [List.forall_mem_cons]
    cases fine e (sec ++ '.' :: n, v) with
    | true => simp
    | false =>
      by_cases h0 : st.error = 0 <;> simp [h0]

/-- An error stays. -/
theorem lineStep_error {σ : Type} (h : Str → Str → Str → σ → σ × Bool) (st : Ini σ) (l : Str) (he : st.error ≠ 0) : (lineStep h st l).error ≠ 0 := by
  have hcall : ∀ (st : Ini σ) n v, st.error ≠ 0 → (st.call h n v).error ≠ 0 := by
    intro st n v he
    simp only [Ini.call]
    rw [if_neg (by simp [he])]
    exact he
  unfold lineStep
  simp only
  split
  · exact he
  · exact hcall _ _ _ he
  · exact he
  · exact hcall _ _ _ he
  · simp only [Ini.bad]
    rw [if_neg he]
    exact he

theorem fold_error {σ : Type} (h : Str → Str → Str → σ → σ × Bool) (ls : List Str) (st : Ini σ) (he : st.error ≠ 0) :
    (ls.foldl (lineStep h) st).error ≠ 0 := by
  induction ls generalizing st with
  | nil => exact he
  | cons l ls ih => exact ih _ (lineStep_error h st l he)

theorem fold_broken {σ : Type} (h : Str → Str → Str → σ → σ × Bool) {sec prev : Str} {ls : List Str} (hb : Broken sec prev ls) (st : Ini σ)
    (h1 : st.section_ = sec) (h2 : st.prev = prev) : (ls.foldl (lineStep h) st).error ≠ 0 := by
  induction hb generalizing st with
  | @here sec prev l ls hl =>
    have hc := lineIs_iff.1 hl
    rw [List.foldl_cons]
    refine fold_error h ls _ ?_
    unfold lineStep
    simp only [h2, hc, Ini.bad]
    by_cases h0 : st.error = 0
    · rw [if_pos h0]; omega
    · rw [if_neg h0]; exact h0
  | @skip sec prev l ls hl _ ih =>
    have hc := lineIs_iff.1 hl
    rw [List.foldl_cons]
    refine ih _ ?_ ?_ <;> (unfold lineStep; simp only [h2, hc, h1])
  | @more sec prev l ls v hl _ ih =>
    have hc := lineIs_iff.1 hl
    rw [List.foldl_cons]
    refine ih _ ?_ ?_ <;> (unfold lineStep; simp only [h2, hc, h1, Ini.call])
  | @sect sec prev l ls s hl _ ih =>
    have hc := lineIs_iff.1 hl
    rw [List.foldl_cons]
    refine ih _ ?_ ?_ <;> (unfold lineStep; simp only [h2, hc])
  | @setting sec prev l ls n v hl _ ih =>
    have hc := lineIs_iff.1 hl
    rw [List.foldl_cons]
    refine ih _ ?_ ?_ <;> (unfold lineStep; simp only [h2, hc, h1, Ini.call])

/-- Lines have settings, or there is one that cannot be understood. -/
theorem reads_or_broken (sec prev : Str) (ls : List Str) : (∃ r, Reads sec prev ls r) ∨ Broken sec prev ls := by
  induction ls generalizing sec prev with
  | nil => exact .inl ⟨[], .nil⟩
  | cons l ls ih =>
    have hl := lineIs_classify (decide (prev ≠ [])) l
    cases hc : classify (decide (prev ≠ [])) l with
    | skip =>
      rw [hc] at hl
      rcases ih sec prev with ⟨r, h⟩ | h
      · exact .inl ⟨r, .skip hl h⟩
      · exact .inr (.skip hl h)
    | more v =>
      rw [hc] at hl
      rcases ih sec prev with ⟨r, h⟩ | h
      · exact .inl ⟨_, .more hl h⟩
      · exact .inr (.more hl h)
    | sect s =>
      rw [hc] at hl
      rcases ih (s.take 49) [] with ⟨r, h⟩ | h
      · exact .inl ⟨r, .sect hl h⟩
      · exact .inr (.sect hl h)
    | setting n v =>
      rw [hc] at hl
      rcases ih sec (n.take 49) with ⟨r, h⟩ | h
      · exact .inl ⟨_, .setting hl h⟩
      · exact .inr (.setting hl h)
    | bad =>
      rw [hc] at hl
      exact .inr (.here hl)

end Tup.Options
