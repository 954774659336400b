import Verif.Options.Spec

/-! The reader of option files does what the format says. -/

namespace Tup.Options

theorem lskip_split (s : Str) : ∃ w, s = w ++ lskip s ∧ Blank w ∧ ∀ c, (lskip s).head? = some c → isSpace c = false := by
  refine ⟨s.takeWhile isSpace, List.takeWhile_append_dropWhile.symm, fun c hc => ?_, fun c hc => ?_⟩
  · exact (List.all_takeWhile (p := isSpace) (l := s) |> List.all_eq_true.1) c hc
  · have := List.head?_dropWhile_not isSpace s
    unfold lskip at hc
    rw [hc] at this
    simpa using this

theorem rstrip_split (s : Str) : ∃ w, s = rstrip s ++ w ∧ Blank w ∧ ∀ c, (rstrip s).getLast? = some c → isSpace c = false := by
  obtain ⟨w, h1, h2, h3⟩ := lskip_split s.reverse
  refine ⟨w.reverse, ?_, fun c hc => h2 c (by simpa using hc), fun c hc => h3 c ?_⟩
  · have := congrArg List.reverse h1
    rw [List.reverse_reverse, List.reverse_append] at this
    exact this
  · unfold rstrip at hc
    rw [List.getLast?_reverse] at hc
    exact hc

theorem lskip_blank {w : Str} (h : Blank w) (s : Str) : lskip (w ++ s) = lskip s := by
  induction w with
  | nil => rfl
  | cons c w ih =>
    have hc := h c List.mem_cons_self
    unfold lskip at ih ⊢
    rw [List.cons_append, List.dropWhile_cons_of_pos hc]
    exact ih fun d hd => h d (List.mem_cons_of_mem _ hd)

theorem lskip_tight {s : Str} (h : ∀ c, s.head? = some c → isSpace c = false) : lskip s = s := by
  cases s with
  | nil => rfl
  | cons c s =>
    have := h c rfl
    unfold lskip
    rw [List.dropWhile_cons_of_neg (by rw [this]; simp)]

theorem rstrip_blank {w : Str} (h : Blank w) (s : Str) : rstrip (s ++ w) = rstrip s := by
  unfold rstrip
  rw [List.reverse_append]
  have := lskip_blank (w := w.reverse) (fun c hc => h c (by simpa using hc)) s.reverse
  unfold lskip at this
  rw [this]

theorem rstrip_tight {s : Str} (h : ∀ c, s.getLast? = some c → isSpace c = false) : rstrip s = s := by
  have := lskip_tight (s := s.reverse) (fun c hc => h c (by rw [List.head?_reverse] at hc; exact hc))
  unfold rstrip
  unfold lskip at this
  rw [this, List.reverse_reverse]

theorem lskip_all {w : Str} (h : Blank w) : lskip w = [] := by
  have := lskip_blank h []
  rw [List.append_nil] at this
  exact this

theorem rstrip_all {w : Str} (h : Blank w) : rstrip w = [] := by
  have := rstrip_blank h []
  exact this

/-- Trimming is a function. -/
theorem trim_eq {s t : Str} (h : Trim s t) : lskip (rstrip s) = t ∧ rstrip (lskip s) = t := by
  obtain ⟨w, w', rfl, h1, h2, h3, h4⟩ := h
  constructor
  · rw [rstrip_blank h2]
    cases t with
    | nil =>
      rw [List.append_nil, rstrip_all h1]
      rfl
    | cons c t =>
      rw [rstrip_tight, lskip_blank h1, lskip_tight h3]
      intro d hd
      rw [List.getLast?_append, List.getLast?_cons, Option.some_or, ← List.getLast?_cons] at hd
      exact h4 d hd
  · rw [List.append_assoc, lskip_blank h1]
    cases t with
    | nil =>
      rw [List.nil_append, lskip_all h2]
      rfl
    | cons c t =>
      rw [lskip_tight (by intro d hd; exact h3 d hd), rstrip_blank h2, rstrip_tight h4]

theorem trim_self (s : Str) : Trim s (lskip (rstrip s)) := by
  obtain ⟨w', h1, h2, h3⟩ := rstrip_split s
  obtain ⟨w, h4, h5, h6⟩ := lskip_split (rstrip s)
  refine ⟨w, w', by rw [← h4]; exact h1, h5, h2, h6, fun c hc => h3 c ?_⟩
  rw [h4, List.getLast?_append, hc]
  rfl

theorem trim_iff {s t : Str} : Trim s t ↔ lskip (rstrip s) = t := ⟨fun h => (trim_eq h).1, fun h => h ▸ trim_self s⟩

theorem trim_iff' {s t : Str} : Trim s t ↔ rstrip (lskip s) = t :=
  ⟨fun h => (trim_eq h).2, fun h => by rw [← h, (trim_eq (trim_self s)).2]; exact trim_self s⟩

theorem trim_head {s t : Str} (h : ∀ c, s.head? = some c → isSpace c = false) : Trim s t ↔ rstrip s = t := by
  rw [trim_iff', lskip_tight h]

/-- The search. -/
theorem find_spec (chars : Str) (p : Char) (s : Str) : s = (find chars (isSpace p) s).1 ++ (find chars (isSpace p) s).2 ∧
    (∀ c ∈ (find chars (isSpace p) s).1, c ∉ chars) ∧ NoComment (p :: (find chars (isSpace p) s).1) ∧
    ∀ c t, (find chars (isSpace p) s).2 = c :: t → c ∈ chars ∨ c = ';' ∧ ∃ x q, p :: (find chars (isSpace p) s).1 = x ++ [q] ∧ isSpace q = true := by
  induction s generalizing p with
  | nil =>
    refine ⟨rfl, fun c h => ?_, fun a c b h => ?_, fun c t h => ?_⟩
    · cases h
    · have : ([p] : Str).length = (a ++ c :: ';' :: b).length := by rw [← h]; rfl
      simp at this
      omega
    · cases h
  | cons d s ih =>
    unfold find
    split
    · rename_i hd
      refine ⟨rfl, fun c h => ?_, fun a c b h => ?_, fun c t h => ?_⟩
      · cases h
      · have : ([p] : Str).length = (a ++ c :: ';' :: b).length := by rw [← h]
        rw [List.length_append, List.length_cons, List.length_cons, List.length_cons, List.length_nil] at this
        omega
      · cases h
        rcases hd with hd | ⟨h1, h2⟩
        · exact .inl hd
        · exact .inr ⟨h2, [], p, rfl, h1⟩
    · rename_i hd
      simp only [not_or] at hd
      obtain ⟨i1, i2, i3, i4⟩ := ih d
      refine ⟨?_, fun c h => ?_, fun a c b h => ?_, fun c t h => ?_⟩
      · show d :: s = d :: ((find chars (isSpace d) s).1 ++ (find chars (isSpace d) s).2)
        rw [← i1]
      · rcases List.mem_cons.1 h with rfl | h
        · exact hd.1
        · exact i2 c h
      · cases a with
        | nil =>
          simp only [List.nil_append, List.cons.injEq] at h
          obtain ⟨rfl, rfl, _⟩ := h
          cases hp : isSpace p with
          | false => rfl
          | true => exact absurd ⟨hp, rfl⟩ hd.2
        | cons x a =>
          simp only [List.cons_append, List.cons.injEq] at h
          exact i3 a c b h.2
      · rcases i4 c t h with h1 | ⟨h1, x, q, h2, h3⟩
        · exact .inl h1
        · exact .inr ⟨h1, p :: x, q, by rw [List.cons_append, ← h2], h3⟩

/-- The search stops there. -/
theorem find_stop {chars : Str} {p : Char} {a b : Str} (h1 : ∀ c ∈ a, c ∉ chars) (h2 : NoComment (p :: a))
    (h3 : ∀ c t, b = c :: t → c ∈ chars ∨ c = ';' ∧ ∃ x q, p :: a = x ++ [q] ∧ isSpace q = true) :
    find chars (isSpace p) (a ++ b) = (a, b) := by
  induction a generalizing p with
  | nil =>
    cases b with
    | nil => rfl
    | cons c t =>
      show find chars (isSpace p) (c :: t) = _
      unfold find
      rw [if_pos]
      rcases h3 c t rfl with h | ⟨h, x, q, h4, h5⟩
      · exact .inl h
      · right
        cases x with
        | nil => cases h4; exact ⟨h5, h⟩
        | cons y x => simp at h4
  | cons d a ih =>
    rw [List.cons_append]
    unfold find
    rw [if_neg]
    · have : find chars (isSpace d) (a ++ b) = (a, b) := by
        refine ih (fun c hc => h1 c (List.mem_cons_of_mem _ hc)) (fun x c y h => h2 (p :: x) c y (by rw [h]; rfl)) (fun c t hb => ?_)
        rcases h3 c t hb with h | ⟨h, x, q, h4, h5⟩
        · exact .inl h
        · right
          cases x with
          | nil => cases h4
          | cons y x =>
            simp only [List.cons_append, List.cons.injEq] at h4
            exact ⟨h, x, q, h4.2, h5⟩
      rw [this]
    · rintro (h | ⟨h, rfl⟩)
      · exact h1 d List.mem_cons_self h
      · have := h2 [] p a rfl
        rw [h] at this; cases this

theorem noComment_cons {s : Str} : NoComment ('x' :: s) ↔ NoComment s := by
  constructor
  · intro h a c b hs
    exact h ('x' :: a) c b (by rw [hs]; rfl)
  · intro h a c b hs
    cases a with
    | nil => simp only [List.nil_append, List.cons.injEq] at hs; rw [← hs.1]; rfl
    | cons y a => simp only [List.cons_append, List.cons.injEq] at hs; exact h a c b hs.2

theorem uncommented_iff {s t : Str} : Uncommented s t ↔ (find [] false s).1 = t := by
  have hx : isSpace 'x' = false := rfl
  constructor
  · intro h
    cases h with
    | none h =>
      have := find_stop (chars := []) (p := 'x') (a := s) (b := []) (fun c _ => by simp) (noComment_cons.2 h) (fun c t h => by cases h)
      rw [List.append_nil, hx] at this
      rw [this]
    | @cut s c t h hc =>
      have := find_stop (chars := []) (p := 'x') (a := s ++ [c]) (b := ';' :: t) (fun c _ => by simp) (noComment_cons.2 h)
        (fun d t h => by cases h; exact .inr ⟨rfl, 'x' :: s, c, rfl, hc⟩)
      rw [hx] at this
      rw [this]
  · rintro rfl
    obtain ⟨h1, h2, h3, h4⟩ := find_spec [] 'x' s
    rw [hx] at h1 h2 h3 h4
    cases hf : (find [] false s).2 with
    | nil =>
      rw [hf, List.append_nil] at h1
      rw [← h1]
      refine .none (noComment_cons.1 ?_)
      rw [h1]
      exact h3
    | cons c t =>
      rcases h4 c t hf with h | ⟨rfl, x, q, h5, h6⟩
      · cases h
      · cases x with
        | nil =>
          simp only [List.nil_append, List.cons.injEq] at h5
          rw [← h5.1] at h6
          cases h6
        | cons y x =>
          simp only [List.cons_append, List.cons.injEq] at h5
          rw [hf, h5.2] at h1
          rw [h5.2, noComment_cons] at h3
          rw [h5.2, h1]
          exact .cut h3 h6

/-- The same, computed. -/
def classify (prev : Bool) (line : Str) : Line :=
  match lskip (rstrip line) with
  | [] => .skip
  | c :: t =>
    if c = ';' ∨ c = '#' then .skip
    else if prev = true ∧ lskip (rstrip line) ≠ rstrip line then .more (rstrip (find [] false (c :: t)).1)
    else if c = '[' then
      match find [']'] false t with
      | (a, ']' :: _) => .sect a
      | _ => .bad
    else
      match find ['=', ':'] false (c :: t) with
      | (a, d :: b) => if d = '=' ∨ d = ':' then .setting (rstrip a) (rstrip (lskip (find [] false b).1)) else .bad
      | (_, []) => .bad

theorem moved_iff {line : Str} {c : Char} {t : Str} (h : lskip (rstrip line) = c :: t) :
    lskip (rstrip line) ≠ rstrip line ↔ ∃ d u, line = d :: u ∧ isSpace d = true := by
  obtain ⟨w', h1, h2, h3⟩ := rstrip_split line
  constructor
  · intro hne
    obtain ⟨w, e1, e2, e3⟩ := lskip_split (rstrip line)
    cases w with
    | nil => exact absurd e1.symm hne
    | cons d w =>
      refine ⟨d, w ++ lskip (rstrip line) ++ w', ?_, e2 d List.mem_cons_self⟩
      conv => lhs; rw [h1, e1]
      simp
  · rintro ⟨d, u, rfl, hd⟩ he
    rw [he] at h
    rw [h] at h1
    simp only [List.cons_append, List.cons.injEq] at h1
    have := lskip_split (rstrip (d :: u))
    obtain ⟨w, e1, e2, e3⟩ := this
    rw [he] at e3
    have := e3 c (by rw [h]; rfl)
    rw [← h1.1, hd] at this
    cases this

theorem sect_iff {t name : Str} : SectionText ('[' :: t) name ↔ ∃ rest, find [']'] false t = (name, ']' :: rest) := by
  have hx : isSpace 'x' = false := rfl
  constructor
  · rintro ⟨rest, h1, h2, h3⟩
    simp only [List.cons_append, List.cons.injEq, true_and] at h1
    refine ⟨rest, ?_⟩
    have := find_stop (chars := [']']) (p := 'x') (a := name) (b := ']' :: rest) (fun c hc => by simp; rintro rfl; exact h2 hc) (noComment_cons.2 h3)
      (fun c t h => by cases h; exact .inl (by simp))
    rw [h1, ← hx, this]
  · rintro ⟨rest, h⟩
    obtain ⟨h1, h2, h3, h4⟩ := find_spec [']'] 'x' t
    rw [hx, h] at h1 h2 h3
    exact ⟨rest, by rw [h1]; rfl, fun hc => h2 ']' hc (by simp), noComment_cons.1 h3⟩

theorem setting_iff {c : Char} {t name value : Str} (hc : isSpace c = false) : SettingText (c :: t) name value ↔
    ∃ a d b, find ['=', ':'] false (c :: t) = (a, d :: b) ∧ (d = '=' ∨ d = ':') ∧ name = rstrip a ∧ value = rstrip (lskip (find [] false b).1) := by
  have hx : isSpace 'x' = false := rfl
  have hhead : ∀ (a b : Str), c :: t = a ++ b → ∀ e, a.head? = some e → isSpace e = false := by
    intro a b h e he
    cases a with
    | nil => cases he
    | cons y a => cases he; simp only [List.cons_append, List.cons.injEq] at h; rw [← h.1]; exact hc
  constructor
  · rintro ⟨n, d, v, u, h1, h2, h3, h4, h5, h6, h7, h8⟩
    refine ⟨n, d, v, ?_, h2, ?_, ?_⟩
    · have := find_stop (chars := ['=', ':']) (p := 'x') (a := n) (b := d :: v)
        (fun c hc => by simp; constructor <;> (rintro rfl; first | exact h3 hc | exact h4 hc)) (noComment_cons.2 h5)
        (fun c t h => by cases h; exact .inl (by simpa using h2))
      rw [h1, ← hx, this]
    · rw [trim_head (hhead n _ h1)] at h6
      exact h6.symm
    · rw [uncommented_iff] at h7
      rw [trim_iff'] at h8
      rw [h7, h8]
  · rintro ⟨a, d, b, h, h2, rfl, rfl⟩
    obtain ⟨e1, e2, e3, _⟩ := find_spec ['=', ':'] 'x' (c :: t)
    rw [hx, h] at e1 e2 e3
    refine ⟨a, d, b, _, e1, h2, fun hm => e2 '=' hm (by simp), fun hm => e2 ':' hm (by simp), noComment_cons.1 e3, ?_, uncommented_iff.2 rfl, trim_iff'.2 rfl⟩
    exact (trim_head (hhead a _ e1)).2 rfl

theorem lineIs_classify (prev : Bool) (line : Str) : LineIs prev line (classify prev line) := by
  unfold classify
  split
  · rename_i h
    exact .blank (trim_iff.2 h)
  · rename_i c t h
    have ht : Trim line (c :: t) := trim_iff.2 h
    have hc : isSpace c = false := by
      obtain ⟨_, _, _, _, _, h3, _⟩ := ht
      exact h3 c rfl
    split
    · rename_i hk; exact .comment ht hk
    rename_i hk
    simp only [not_or] at hk
    split
    · rename_i hm
      rw [moved_iff h] at hm
      refine .more hm ht hk.1 hk.2 (uncommented_iff.2 rfl) ((trim_head ?_).2 rfl)
      intro e he
      obtain ⟨e1, _⟩ := find_spec [] 'x' (c :: t)
      rw [show isSpace 'x' = false from rfl] at e1
      cases hf : (find [] false (c :: t)).1 with
      | nil => rw [hf] at he; cases he
      | cons y a =>
        rw [hf] at he e1
        cases he
        simp only [List.cons_append, List.cons.injEq] at e1
        rw [← e1.1]; exact hc
    rename_i hm
    rw [moved_iff h] at hm
    split
    · rename_i hb
      subst hb
      split
      · rename_i a rest hf
        exact .sect hm ht (sect_iff.2 ⟨rest, hf⟩)
      · rename_i hf
        refine .badSect hm ht ?_
        rintro ⟨name, hn⟩
        obtain ⟨rest, hn⟩ := sect_iff.1 hn
        exact hf _ _ hn
    rename_i hb
    split
    · rename_i a d b hf
      split
      · rename_i hd
        exact .setting hm ht hk.1 hk.2 hb ((setting_iff hc).2 ⟨a, d, b, hf, hd, rfl, rfl⟩)
      · rename_i hd
        refine .badSetting hm ht hk.1 hk.2 hb ?_
        rintro ⟨name, value, hn⟩
        obtain ⟨a', d', b', h1, h2, _⟩ := (setting_iff hc).1 hn
        rw [hf] at h1
        cases h1
        exact hd h2
    · rename_i hf
      refine .badSetting hm ht hk.1 hk.2 hb ?_
      rintro ⟨name, value, hn⟩
      obtain ⟨a', d', b', h1, h2, _⟩ := (setting_iff hc).1 hn
      rw [hf] at h1
      cases h1

/-- A line is one thing only. -/
theorem lineIs_iff {prev : Bool} {line : Str} {k : Line} : LineIs prev line k ↔ classify prev line = k := by
  constructor
  · intro h
    unfold classify
    have hsp : ∀ {c t}, Trim line (c :: t) → isSpace c = false := by
      rintro c t ⟨_, _, _, _, _, h3, _⟩
      exact h3 c rfl
    cases h with
    | blank h => rw [trim_iff.1 h]
    | comment h hk => rw [trim_iff.1 h]; simp only; rw [if_pos hk]
    | @more c t u v hm h h1 h2 hu hv =>
      have ht := trim_iff.1 h
      have hm' := (moved_iff ht).2 hm.2
      rw [ht] at hm' ⊢
      simp only
      rw [if_neg (by simp [h1, h2]), if_pos ⟨hm.1, hm'⟩, uncommented_iff.1 hu]
      have : ∀ e, u.head? = some e → isSpace e = false := by
        intro e he
        obtain ⟨e1, _⟩ := find_spec [] 'x' (c :: t)
        rw [show isSpace 'x' = false from rfl, uncommented_iff.1 hu] at e1
        cases u with
        | nil => cases he
        | cons y a =>
          cases he
          simp only [List.cons_append, List.cons.injEq] at e1
          rw [← e1.1]; exact hsp h
      rw [(trim_head this).1 hv]
    | @sect t name hm h hs =>
      have hs' := hs
      obtain ⟨rest, hst, _⟩ := hs'
      cases t with
      | nil => cases hst
      | cons c t =>
        obtain rfl : c = '[' := by simp only [List.cons_append, List.cons.injEq] at hst; exact hst.1
        have ht := trim_iff.1 h
        have hm' : ¬ (prev = true ∧ lskip (rstrip line) ≠ rstrip line) := fun hh => hm ⟨hh.1, (moved_iff ht).1 hh.2⟩
        obtain ⟨rest, hf⟩ := sect_iff.1 hs
        rw [ht] at hm' ⊢
        simp only
        rw [if_neg (by decide), if_neg hm', if_true, hf]
        rfl
    | @setting c t name value hm h h1 h2 h3 hs =>
      have ht := trim_iff.1 h
      have hm' : ¬ (prev = true ∧ lskip (rstrip line) ≠ rstrip line) := fun hh => hm ⟨hh.1, (moved_iff ht).1 hh.2⟩
      obtain ⟨a, d, b, e1, e2, e3, e4⟩ := (setting_iff (hsp h)).1 hs
      rw [ht] at hm' ⊢
      simp only
      rw [if_neg (by simp [h1, h2]), if_neg hm', if_neg h3, e1]
      simp only
      rw [if_pos e2, e3, e4]
    | @badSect t hm h hs =>
      have ht := trim_iff.1 h
      have hm' : ¬ (prev = true ∧ lskip (rstrip line) ≠ rstrip line) := fun hh => hm ⟨hh.1, (moved_iff ht).1 hh.2⟩
      rw [ht] at hm' ⊢
      simp only
      rw [if_neg (by decide), if_neg hm', if_true]
      split
      · rename_i a rest hf
        exact absurd ⟨a, sect_iff.2 ⟨rest, hf⟩⟩ hs
      · rfl
    | @badSetting c t hm h h1 h2 h3 hs =>
      have ht := trim_iff.1 h
      have hm' : ¬ (prev = true ∧ lskip (rstrip line) ≠ rstrip line) := fun hh => hm ⟨hh.1, (moved_iff ht).1 hh.2⟩
      rw [ht] at hm' ⊢
      simp only
      rw [if_neg (by simp [h1, h2]), if_neg hm', if_neg h3]
      split
      · rename_i a d b hf
        split
        · rename_i hd
          exact absurd ⟨_, _, (setting_iff (hsp h)).2 ⟨a, d, b, hf, hd, rfl, rfl⟩⟩ hs
        · rfl
      · rfl
  · rintro rfl
    exact lineIs_classify prev line

end Tup.Options
