import Verif.Printf.Spec

namespace Tup.Printf

open Tup.Names Tup.Eval

theorem spaced_cons (s : Str) {l : List Str} (h : l ≠ []) : spaced (s :: l) = s ++ ' ' :: spaced l := by
  cases l with
  | nil => exact absurd rfl h
  | cons t l => simp [spaced, List.intercalate]

theorem spaced_one (s : Str) : spaced [s] = s := by simp [spaced, List.intercalate]

theorem join_some (f : Entry → Str) (l : List Entry) : join (fun e => some (f e)) l = .ok (spaced (l.map f)) := by
  induction l with
  | nil => rfl
  | cons e l ih =>
    cases l with
    | nil => simp [join, spaced_one]
    | cons x l =>
      rw [join, ih]
      · simp only [List.map_cons]
        rw [spaced_cons (f e)]
        exact List.cons_ne_nil _ _
      · intro h; cases h

theorem stems_cons {e : Entry} {l : List Entry} {r : List Str} :
    Stems (e :: l) r ↔ 0 ≤ e.extlessbaselen ∧ ∃ t, r = e.base.take e.extlessbaselen.toNat :: t ∧ Stems l t := by
  constructor
  · rintro ⟨h1, h2⟩
    cases r with
    | nil => simp at h1
    | cons s t =>
      obtain ⟨h3, h4⟩ := h2 0 e s rfl rfl
      refine ⟨h3, t, by rw [h4], by simpa using h1, ?_⟩
      intro i e' s' he hs
      exact h2 (i + 1) e' s' (by simpa using he) (by simpa using hs)
  · rintro ⟨h, t, rfl, h1, h2⟩
    refine ⟨by simp [h1], ?_⟩
    intro i e' s' he hs
    cases i with
    | zero =>
      simp only [List.getElem?_cons_zero, Option.some.injEq] at he hs
      subst he hs
      exact ⟨h, rfl⟩
    | succ i => exact h2 i e' s' (by simpa using he) (by simpa using hs)

theorem stems_nil {r : List Str} : Stems [] r ↔ r = [] := by
  constructor
  · rintro ⟨h, _⟩
    exact List.eq_nil_of_length_eq_zero h
  · rintro rfl
    exact ⟨rfl, fun i e s he => by simp at he⟩

theorem join_stem (l : List Entry) :
    (∃ r, Stems l r ∧ join stem l = .ok (spaced r)) ∧ ¬ BadStem l ∨
    (join stem l = .ub ∧ BadStem l ∧ ¬ ∃ r, Stems l r) := by
  induction l with
  | nil => exact .inl ⟨⟨[], stems_nil.2 rfl, rfl⟩, by rintro ⟨e, he, _⟩; cases he⟩
  | cons e l ih =>
    by_cases he : 0 ≤ e.extlessbaselen
    · rcases ih with ⟨⟨r, h1, h2⟩, h3⟩ | ⟨h1, h2, h3⟩
      · left
        refine ⟨⟨e.base.take e.extlessbaselen.toNat :: r, stems_cons.2 ⟨he, r, rfl, h1⟩, ?_⟩, ?_⟩
        · cases l with
          | nil =>
            rw [stems_nil.1 h1, spaced_one]
            simp [join, stem, he]
          | cons x l =>
            rw [join, h2]
            · simp only [stem, if_pos he]
              rw [spaced_cons]
              rintro rfl
              have := h1.1
              simp at this
            · intro h; cases h
        · rintro ⟨x, hx, hx0⟩
          rcases List.mem_cons.1 hx with rfl | hx
          · omega
          · exact h3 ⟨x, hx, hx0⟩
      · right
        refine ⟨?_, ?_, ?_⟩
        · cases l with
          | nil => obtain ⟨x, hx, _⟩ := h2; cases hx
          | cons x l =>
            rw [join, h1]
            · simp only [stem, if_pos he]
            · intro h; cases h
        · obtain ⟨x, hx, hx0⟩ := h2
          exact ⟨x, List.mem_cons_of_mem _ hx, hx0⟩
        · rintro ⟨r, hr⟩
          obtain ⟨_, t, _, ht⟩ := stems_cons.1 hr
          exact h3 ⟨t, ht⟩
    · right
      refine ⟨?_, ⟨e, List.mem_cons_self, by omega⟩, ?_⟩
      · cases l with
        | nil => simp [join, stem, he]
        | cons x l =>
          rw [join]
          · simp only [stem, if_neg he]
          · intro h; cases h
      · rintro ⟨r, hr⟩
        exact he (stems_cons.1 hr).1

theorem numbered_eq (n : Nat) (l : List Entry) : numbered n l = withNumber n l := by
  induction l with
  | nil => rfl
  | cons e l ih =>
    unfold withNumber at ih ⊢
    rw [numbered, List.takeWhile_cons]
    by_cases h1 : e.orderid = n
    · simp only [h1, Nat.le_refl, decide_true, if_true, List.filter_cons]
      rw [ih]
    · by_cases h2 : e.orderid > n
      · simp only [if_neg h1, if_pos h2]
        rw [if_neg (by simp; omega)]
        rfl
      · simp only [if_neg h1, if_neg h2]
        rw [if_pos (by simp; omega), List.filter_cons, if_neg (by simp [h1]), ih]

theorem join_quote (q : Char) (l : List Entry) :
    join (quote q) l = .ok (spaced (l.map fun e => [q] ++ Strings.escaped q e.path ++ [q])) := by
  have : quote q = fun e => some ([q] ++ Strings.escaped q e.path ++ [q]) := by
    funext e
    simp only [quote, Strings.escapePieces_eq q _ e.path (Nat.lt_succ_self _)]
    rfl
  rw [this, join_some]


theorem stems_unique {l : List Entry} : ∀ {r r' : List Str}, Stems l r → Stems l r' → r = r' := by
  induction l with
  | nil => intro r r' h h'; rw [stems_nil.1 h, stems_nil.1 h']
  | cons e l ih =>
    intro r r' h h'
    obtain ⟨_, t, rfl, ht⟩ := stems_cons.1 h
    obtain ⟨_, t', rfl, ht'⟩ := stems_cons.1 h'
    rw [ih ht ht']

theorem oneFlag_f (a : Args) : oneFlag a 'f' =
    some (if a.nl.entries = [] then .error else join (fun e => some e.path) a.nl.entries) := rfl
theorem oneFlag_b (a : Args) : oneFlag a 'b' =
    some (if a.nl.entries = [] then .error else join (fun e => some e.base) a.nl.entries) := rfl
theorem oneFlag_B (a : Args) : oneFlag a 'B' =
    some (if a.nl.entries = [] then .error else join stem a.nl.entries) := rfl
theorem oneFlag_i (a : Args) : oneFlag a 'i' =
    some (match a.oo with
      | none => .error
      | some l => if l.entries = [] then .error else join (fun e => some e.path) l.entries) := rfl
theorem oneFlag_e (a : Args) : oneFlag a 'e' =
    some (match a.ext with
      | none => .error
      | some x => .ok x) := rfl
theorem oneFlag_o (a : Args) : oneFlag a 'o' =
    some (match a.onl with
      | none => .error
      | some l => if l.entries = [] then .error else join (fun e => some e.path) l.entries) := rfl
theorem oneFlag_O (a : Args) : oneFlag a 'O' =
    some (match a.onl with
      | some ⟨[e], _⟩ => if 0 ≤ e.extlesslen then .ok (e.path.take e.extlesslen.toNat) else .ub
      | _ => .error) := rfl
theorem oneFlag_d (a : Args) : oneFlag a 'd' = some (.ok a.dir) := rfl
theorem oneFlag_g (a : Args) : oneFlag a 'g' =
    some (match a.nl with
      | ⟨[e], globcnt⟩ =>
        if globcnt = 0 then .error
        else
          match e.globs with
          | (start, some n) :: _ =>
            if start + n ≤ e.base.length then .ok ((e.base.drop start).take n) else .ub
          | _ => .ub
      | _ => .error) := rfl
theorem oneFlag_lt (a : Args) : oneFlag a '<' = some (.ok "%<".toList) := rfl
theorem oneFlag_perc (a : Args) : oneFlag a '%' = some (.ok (if a.perc then "%".toList else "%%".toList)) := rfl

theorem oneFlag_none (a : Args) (c : Char) : oneFlag a c = none ↔
    c ∉ ['f', 'b', 'B', 'i', 'e', 'o', 'O', 'd', 'g', '<', '%'] := by
  unfold oneFlag
  simp only [List.mem_cons, List.not_mem_nil, or_false, not_or]
  constructor
  · intro h
    refine ⟨?_, ?_, ?_, ?_, ?_, ?_, ?_, ?_, ?_, ?_, ?_⟩
    all_goals
      rintro rfl
      exact absurd h (by intro h; cases h)
  · rintro ⟨h1, h2, h3, h4, h5, h6, h7, h8, h9, h10, h11⟩
    rw [if_neg h1, if_neg h2, if_neg h3, if_neg h4, if_neg h5, if_neg h6, if_neg h7, if_neg h8, if_neg h9,
      if_neg h10, if_neg h11]

theorem one_ne {c k : Char} {ds : Str} (hds : ds ≠ []) : ¬ [c] = ds ++ [k] := by
  intro he
  have := congrArg List.length he
  have := List.length_pos_iff.2 hds
  simp only [List.length_append, List.length_cons, List.length_nil] at *
  omega

theorem oneFlag_ok (a : Args) (c : Char) (v : Str) : oneFlag a c = some (.ok v) ↔ Stands a [c] v := by
  constructor
  · intro h
    have hm : c ∈ ['f', 'b', 'B', 'i', 'e', 'o', 'O', 'd', 'g', '<', '%'] := by
      apply Classical.byContradiction
      intro hn
      rw [(oneFlag_none a c).2 hn] at h
      cases h
    simp only [List.mem_cons, List.not_mem_nil, or_false] at hm
    rcases hm with rfl | rfl | rfl | rfl | rfl | rfl | rfl | rfl | rfl | rfl | rfl
    · rw [oneFlag_f] at h
      split at h
      · cases h
      · next hn => rw [join_some] at h; cases h; exact .inputs hn
    · rw [oneFlag_b] at h
      split at h
      · cases h
      · next hn => rw [join_some] at h; cases h; exact .bases hn
    · rw [oneFlag_B] at h
      split at h
      · cases h
      · next hn =>
        rcases join_stem a.nl.entries with ⟨⟨r, h1, h2⟩, _⟩ | ⟨h1, _⟩
        · rw [h2] at h; cases h; exact .stems hn h1
        · rw [h1] at h; cases h
    · rw [oneFlag_i] at h
      split at h
      · cases h
      · next l hl =>
        split at h
        · cases h
        · next hn => rw [join_some] at h; cases h; exact .orderOnly hl hn
    · rw [oneFlag_e] at h
      split at h
      · cases h
      · next x hx => cases h; exact .ext hx
    · rw [oneFlag_o] at h
      split at h
      · cases h
      · next l hl =>
        split at h
        · cases h
        · next hn => rw [join_some] at h; cases h; exact .outputs hl hn
    · rw [oneFlag_O] at h
      split at h
      · next e g hl =>
        split at h
        · next h0 => cases h; exact .output hl rfl h0
        · cases h
      · cases h
    · rw [oneFlag_d] at h; cases h; exact .dir
    · rw [oneFlag_g] at h
      split at h
      · next e g hl =>
        split at h
        · cases h
        · next h0 =>
          split at h
          · next start n r hg =>
            split at h
            · next hle =>
              cases h
              refine .glob (e := e) (start := start) (n := n) (r := r) (x := e.base.take start)
                (z := (e.base.drop start).drop n) (by rw [hl]) (by rw [hl]; exact h0) hg ?_ ?_ ?_
              · rw [List.append_assoc, List.take_append_drop, List.take_append_drop]
              · rw [List.length_take]; omega
              · rw [List.length_take, List.length_drop]; omega
            · cases h
          · cases h
      · cases h
    · rw [oneFlag_lt] at h; cases h; exact .group
    · rw [oneFlag_perc] at h
      cases hp : a.perc with
      | true => rw [hp] at h; cases h; exact .percent hp
      | false => rw [hp] at h; cases h; exact .percents hp
  · generalize hx : [c] = x
    intro h
    cases h with
    | inputs hn => obtain rfl := List.singleton_inj.1 hx; rw [oneFlag_f, if_neg hn, join_some]
    | bases hn => obtain rfl := List.singleton_inj.1 hx; rw [oneFlag_b, if_neg hn, join_some]
    | stems hn hr =>
      obtain rfl := List.singleton_inj.1 hx
      rw [oneFlag_B, if_neg hn]
      rcases join_stem a.nl.entries with ⟨⟨r, h1, h2⟩, _⟩ | ⟨_, _, h1⟩
      · rw [h2, stems_unique h1 hr]
      · exact absurd ⟨_, hr⟩ h1
    | orderOnly hl hn => obtain rfl := List.singleton_inj.1 hx; rw [oneFlag_i, hl]; simp only [if_neg hn, join_some]
    | ext hl => obtain rfl := List.singleton_inj.1 hx; rw [oneFlag_e, hl]
    | outputs hl hn => obtain rfl := List.singleton_inj.1 hx; rw [oneFlag_o, hl]; simp only [if_neg hn, join_some]
    | @output l e hl he h0 =>
      obtain rfl := List.singleton_inj.1 hx
      obtain ⟨es, g⟩ := l
      simp only at he
      subst he
      rw [oneFlag_O, hl]
      simp only [if_pos h0]
    | dir => obtain rfl := List.singleton_inj.1 hx; rw [oneFlag_d]
    | @glob e start n r x y z he hg hr hb hs hn =>
      obtain rfl := List.singleton_inj.1 hx
      rw [oneFlag_g]
      rcases hnl : a.nl with ⟨es, g⟩
      rw [hnl] at he hg
      simp only at he hg
      subst he
      simp only [if_neg hg, hr]
      rw [if_pos (by rw [hb]; simp only [List.length_append]; omega), hb]
      rw [List.append_assoc, ← hs, List.drop_left, ← hn, List.take_left]
    | group => obtain rfl := List.singleton_inj.1 hx; rw [oneFlag_lt]
    | percent hp => obtain rfl := List.singleton_inj.1 hx; rw [oneFlag_perc, hp]; rfl
    | percents hp => obtain rfl := List.singleton_inj.1 hx; rw [oneFlag_perc, hp]; rfl
    | quotedInputs _ _ => simp at hx
    | quotedOutputs _ _ _ => simp at hx
    | input hd => exact absurd hx (one_ne hd.1)
    | base hd => exact absurd hx (one_ne hd.1)
    | stem hd _ => exact absurd hx (one_ne hd.1)
    | numberedOutput hd _ => exact absurd hx (one_ne hd.1)
    | noOutput hd _ => exact absurd hx (one_ne hd.1)
    | numberedOrderOnly hd _ => exact absurd hx (one_ne hd.1)
    | node hd _ _ => exact absurd hx (one_ne hd)

theorem oneFlag_ub (a : Args) (c : Char) : oneFlag a c = some .ub ↔ Undefined a [c] := by
  constructor
  · intro h
    have hm : c ∈ ['f', 'b', 'B', 'i', 'e', 'o', 'O', 'd', 'g', '<', '%'] := by
      apply Classical.byContradiction
      intro hn
      rw [(oneFlag_none a c).2 hn] at h
      cases h
    simp only [List.mem_cons, List.not_mem_nil, or_false] at hm
    rcases hm with rfl | rfl | rfl | rfl | rfl | rfl | rfl | rfl | rfl | rfl | rfl
    · rw [oneFlag_f] at h
      split at h
      · cases h
      · rw [join_some] at h; cases h
    · rw [oneFlag_b] at h
      split at h
      · cases h
      · rw [join_some] at h; cases h
    · rw [oneFlag_B] at h
      split at h
      · cases h
      · next hn =>
        rcases join_stem a.nl.entries with ⟨⟨r, h1, h2⟩, _⟩ | ⟨_, h1, _⟩
        · rw [h2] at h; cases h
        · exact .stems h1
    · rw [oneFlag_i] at h
      split at h
      · cases h
      · split at h
        · cases h
        · rw [join_some] at h; cases h
    · rw [oneFlag_e] at h
      split at h <;> cases h
    · rw [oneFlag_o] at h
      split at h
      · cases h
      · split at h
        · cases h
        · rw [join_some] at h; cases h
    · rw [oneFlag_O] at h
      split at h
      · next e g hl =>
        split at h
        · cases h
        · next h0 => exact .output hl rfl (by omega)
      · cases h
    · rw [oneFlag_d] at h; cases h
    · rw [oneFlag_g] at h
      split at h
      · next e g hl =>
        split at h
        · cases h
        · next h0 =>
          refine .glob (e := e) (by rw [hl]) (by rw [hl]; exact h0) ?_
          rintro ⟨start, n, r, hg, hle⟩
          simp only [hg, if_pos hle] at h
          cases h
      · cases h
    · rw [oneFlag_lt] at h; cases h
    · rw [oneFlag_perc] at h; cases h
  · generalize hx : [c] = x
    intro h
    cases h with
    | stems hb =>
      obtain rfl := List.singleton_inj.1 hx
      have hn : a.nl.entries ≠ [] := by
        intro h0
        obtain ⟨e, he, _⟩ := hb
        rw [h0] at he
        cases he
      rw [oneFlag_B, if_neg hn]
      rcases join_stem a.nl.entries with ⟨_, h3⟩ | ⟨h1, _⟩
      · exact absurd hb h3
      · rw [h1]
    | stem hd _ => exact absurd hx (one_ne hd.1)
    | @output l e hl he h0 =>
      obtain rfl := List.singleton_inj.1 hx
      obtain ⟨es, g⟩ := l
      simp only at he
      subst he
      rw [oneFlag_O, hl]
      simp only [if_neg (show ¬ 0 ≤ e.extlesslen by omega)]
    | @glob e he hg hr =>
      obtain rfl := List.singleton_inj.1 hx
      rw [oneFlag_g]
      rcases hnl : a.nl with ⟨es, g⟩
      rw [hnl] at he hg
      simp only at he hg
      subst he
      simp only [if_neg hg]
      split
      · next start n r hgl =>
        rw [if_neg]
        intro hle
        exact hr ⟨start, n, r, hgl, hle⟩
      · rfl


theorem numbered_inv {ds ds' : Str} {c k : Char} (h : ds ++ [c] = ds' ++ [k]) : ds = ds' ∧ c = k := by
  have := List.append_inj' h rfl
  exact ⟨this.1, by simpa using this.2⟩

/-- Neither one nor two characters with a quote. -/
theorem numbered_ne {ds : Str} {c d : Char} (hd : ∀ c ∈ ds, isDigit c = true) (hq : c = '\'' ∨ c = '"') (k : Char) :
    ¬ ds ++ [k] = [c, d] := by
  intro h
  cases ds with
  | nil => simp at h
  | cons x ds =>
    simp only [List.cons_append, List.cons.injEq] at h
    have := hd x List.mem_cons_self
    rw [h.1] at this
    rcases hq with rfl | rfl <;> exact absurd this (by decide)

theorem digits_of {ds : Str} (hn : ds ≠ []) (hd : ∀ c ∈ ds, isDigit c = true) (h63 : ¬ number ds ≥ 2 ^ 63)
    (hr : 1 ≤ number ds % 2 ^ 32 ∧ number ds % 2 ^ 32 ≤ 98) : Digits ds (number ds % 2 ^ 32) :=
  ⟨hn, hd, by omega, rfl, hr.1, hr.2⟩

theorem numberedFlag_of_digits (a : Args) {ds : Str} {n : Nat} (h : Digits ds n) (c : Char) :
    numberedFlag a ds c =
      if c = 'f' then join (fun e => some e.path) (withNumber n a.nl.entries)
      else if c = 'b' then join (fun e => some e.base) (withNumber n a.nl.entries)
      else if c = 'B' then join stem (withNumber n a.nl.entries)
      else if c = 'o' then
        match a.onl with
        | none => .ok []
        | some l => join (fun e => some e.path) (withNumber n l.entries)
      else if c = 'i' then
        match a.oo with
        | none => .error
        | some l => join (fun e => some e.path) (withNumber n l.entries)
      else if c = 't' then .ok ('%' :: ds ++ ['t'])
      else .error := by
  obtain ⟨_, _, h3, rfl, h5, h6⟩ := h
  unfold numberedFlag
  simp only [numbered_eq]
  rw [if_neg (by omega), if_neg (by rintro ⟨h, _⟩; exact h ⟨h5, h6⟩)]
  rfl

theorem numberedFlag_ok (a : Args) {ds : Str} (hn : ds ≠ []) (hd : ∀ c ∈ ds, isDigit c = true) (c : Char) (v : Str) :
    numberedFlag a ds c = .ok v ↔ Stands a (ds ++ [c]) v := by
  constructor
  · intro h
    by_cases h63 : number ds ≥ 2 ^ 63
    · unfold numberedFlag at h
      simp only [if_pos h63] at h
      cases h
    by_cases hr : 1 ≤ number ds % 2 ^ 32 ∧ number ds % 2 ^ 32 ≤ 98
    · have hD := digits_of hn hd h63 hr
      rw [numberedFlag_of_digits a hD] at h
      by_cases h1 : c = 'f'
      · rw [if_pos h1, join_some] at h; cases h; subst h1; exact .input hD
      rw [if_neg h1] at h
      by_cases h2 : c = 'b'
      · rw [if_pos h2, join_some] at h; cases h; subst h2; exact .base hD
      rw [if_neg h2] at h
      by_cases h3 : c = 'B'
      · rw [if_pos h3] at h
        subst h3
        rcases join_stem (withNumber (number ds % 2 ^ 32) a.nl.entries) with ⟨⟨r, h1, h2⟩, _⟩ | ⟨h1, _⟩
        · rw [h2] at h; cases h; exact .stem hD h1
        · rw [h1] at h; cases h
      rw [if_neg h3] at h
      by_cases h4 : c = 'o'
      · rw [if_pos h4] at h
        subst h4
        split at h
        · next hl => cases h; exact .noOutput hD hl
        · next l hl => rw [join_some] at h; cases h; exact .numberedOutput hD hl
      rw [if_neg h4] at h
      by_cases h5 : c = 'i'
      · rw [if_pos h5] at h
        subst h5
        split at h
        · cases h
        · next l hl => rw [join_some] at h; cases h; exact .numberedOrderOnly hD hl
      rw [if_neg h5] at h
      by_cases h6 : c = 't'
      · rw [if_pos h6] at h
        subst h6
        cases h
        exact .node hn hd (by omega)
      rw [if_neg h6] at h
      cases h
    · by_cases h6 : c = 't'
      · subst h6
        unfold numberedFlag at h
        simp only [if_neg h63] at h
        rw [if_neg (by rintro ⟨_, h⟩; exact h rfl), if_neg (by decide), if_neg (by decide), if_neg (by decide),
          if_neg (by decide), if_neg (by decide), if_pos trivial] at h
        cases h
        exact .node hn hd (by omega)
      · unfold numberedFlag at h
        simp only [if_neg h63] at h
        rw [if_pos ⟨hr, h6⟩] at h
        cases h
  · generalize hx : ds ++ [c] = x
    intro h
    have hone : ∀ k : Char, ds ++ [c] ≠ [k] := fun k hk => one_ne hn hk.symm
    cases h with
    | inputs => exact absurd hx (hone _)
    | bases => exact absurd hx (hone _)
    | stems => exact absurd hx (hone _)
    | orderOnly => exact absurd hx (hone _)
    | ext => exact absurd hx (hone _)
    | outputs => exact absurd hx (hone _)
    | output => exact absurd hx (hone _)
    | dir => exact absurd hx (hone _)
    | glob => exact absurd hx (hone _)
    | group => exact absurd hx (hone _)
    | percent => exact absurd hx (hone _)
    | percents => exact absurd hx (hone _)
    | quotedInputs hq => exact absurd hx (numbered_ne hd hq c)
    | quotedOutputs hq => exact absurd hx (numbered_ne hd hq c)
    | input hD =>
      obtain ⟨rfl, rfl⟩ := numbered_inv hx
      rw [numberedFlag_of_digits a hD, if_pos rfl, join_some]
    | base hD =>
      obtain ⟨rfl, rfl⟩ := numbered_inv hx
      rw [numberedFlag_of_digits a hD, if_neg (by decide), if_pos rfl, join_some]
    | stem hD hr =>
      obtain ⟨rfl, rfl⟩ := numbered_inv hx
      rw [numberedFlag_of_digits a hD, if_neg (by decide), if_neg (by decide), if_pos rfl]
      rcases join_stem (withNumber _ a.nl.entries) with ⟨⟨r, h1, h2⟩, _⟩ | ⟨_, _, h1⟩
      · rw [h2, stems_unique h1 hr]
      · exact absurd ⟨_, hr⟩ h1
    | numberedOutput hD hl =>
      obtain ⟨rfl, rfl⟩ := numbered_inv hx
      rw [numberedFlag_of_digits a hD, if_neg (by decide), if_neg (by decide), if_neg (by decide), if_pos rfl, hl]
      simp only [join_some]
    | noOutput hD hl =>
      obtain ⟨rfl, rfl⟩ := numbered_inv hx
      rw [numberedFlag_of_digits a hD, if_neg (by decide), if_neg (by decide), if_neg (by decide), if_pos rfl, hl]
    | numberedOrderOnly hD hl =>
      obtain ⟨rfl, rfl⟩ := numbered_inv hx
      rw [numberedFlag_of_digits a hD, if_neg (by decide), if_neg (by decide), if_neg (by decide),
        if_neg (by decide), if_pos rfl, hl]
      simp only [join_some]
    | node h1 h2 h3 =>
      obtain ⟨rfl, rfl⟩ := numbered_inv hx
      unfold numberedFlag
      simp only [if_neg (show ¬ number ds ≥ 2 ^ 63 by omega)]
      rw [if_neg (by rintro ⟨_, h⟩; exact h rfl), if_neg (by decide), if_neg (by decide), if_neg (by decide),
        if_neg (by decide), if_neg (by decide), if_pos trivial]
      rfl

theorem numberedFlag_ub (a : Args) {ds : Str} (hn : ds ≠ []) (hd : ∀ c ∈ ds, isDigit c = true) (c : Char) :
    numberedFlag a ds c = .ub ↔ Undefined a (ds ++ [c]) := by
  constructor
  · intro h
    by_cases h63 : number ds ≥ 2 ^ 63
    · unfold numberedFlag at h
      simp only [if_pos h63] at h
      cases h
    by_cases hr : 1 ≤ number ds % 2 ^ 32 ∧ number ds % 2 ^ 32 ≤ 98
    · have hD := digits_of hn hd h63 hr
      rw [numberedFlag_of_digits a hD] at h
      by_cases h1 : c = 'f'
      · rw [if_pos h1, join_some] at h; cases h
      rw [if_neg h1] at h
      by_cases h2 : c = 'b'
      · rw [if_pos h2, join_some] at h; cases h
      rw [if_neg h2] at h
      by_cases h3 : c = 'B'
      · rw [if_pos h3] at h
        subst h3
        rcases join_stem (withNumber (number ds % 2 ^ 32) a.nl.entries) with ⟨⟨r, h1, h2⟩, _⟩ | ⟨_, h1, _⟩
        · rw [h2] at h; cases h
        · exact .stem hD h1
      rw [if_neg h3] at h
      by_cases h4 : c = 'o'
      · rw [if_pos h4] at h
        split at h
        · cases h
        · rw [join_some] at h; cases h
      rw [if_neg h4] at h
      by_cases h5 : c = 'i'
      · rw [if_pos h5] at h
        split at h
        · cases h
        · rw [join_some] at h; cases h
      rw [if_neg h5] at h
      split at h <;> cases h
    · by_cases h6 : c = 't'
      · subst h6
        unfold numberedFlag at h
        simp only [if_neg h63] at h
        rw [if_neg (by rintro ⟨_, h⟩; exact h rfl), if_neg (by decide), if_neg (by decide), if_neg (by decide),
          if_neg (by decide), if_neg (by decide), if_pos trivial] at h
        cases h
      · unfold numberedFlag at h
        simp only [if_neg h63] at h
        rw [if_pos ⟨hr, h6⟩] at h
        cases h
  · generalize hx : ds ++ [c] = x
    intro h
    have hone : ∀ k : Char, ds ++ [c] ≠ [k] := fun k hk => one_ne hn hk.symm
    cases h with
    | stems => exact absurd hx (hone _)
    | output => exact absurd hx (hone _)
    | glob => exact absurd hx (hone _)
    | stem hD hb =>
      obtain ⟨rfl, rfl⟩ := numbered_inv hx
      rw [numberedFlag_of_digits a hD, if_neg (by decide), if_neg (by decide), if_pos rfl]
      rcases join_stem (withNumber _ a.nl.entries) with ⟨_, h3⟩ | ⟨h1, _⟩
      · exact absurd hb h3
      · exact h1

theorem takeWhile_digits {ds t : Str} {k : Char} (hd : ∀ c ∈ ds, isDigit c = true) (hk : isDigit k = false) :
    (ds ++ k :: t).takeWhile isDigit = ds ∧ (ds ++ k :: t).dropWhile isDigit = k :: t := by
  induction ds with
  | nil => simp [hk]
  | cons c ds ih =>
    have := hd c List.mem_cons_self
    obtain ⟨h1, h2⟩ := ih fun x hx => hd x (List.mem_cons_of_mem _ hx)
    simp [this, h1, h2]

/-- The three forms of a flag. -/
inductive Form : Str → Prop
  | one (c) : c ∈ ['f', 'b', 'B', 'i', 'e', 'o', 'O', 'd', 'g', '<', '%'] → Form [c]
  | quoted (q d) : q = '\'' ∨ q = '"' → d = 'f' ∨ d = 'o' → Form [q, d]
  | numbered (ds k) : ds ≠ [] → (∀ c ∈ ds, isDigit c = true) → k ∈ ['f', 'b', 'B', 'o', 'i', 't'] → Form (ds ++ [k])

theorem stands_form {a : Args} {f v : Str} (h : Stands a f v) : Form f := by
  cases h with
  | quotedInputs hq => exact .quoted _ _ hq (.inl rfl)
  | quotedOutputs hq => exact .quoted _ _ hq (.inr rfl)
  | input hD => exact .numbered _ _ hD.1 hD.2.1 (by decide)
  | base hD => exact .numbered _ _ hD.1 hD.2.1 (by decide)
  | stem hD => exact .numbered _ _ hD.1 hD.2.1 (by decide)
  | numberedOutput hD => exact .numbered _ _ hD.1 hD.2.1 (by decide)
  | noOutput hD => exact .numbered _ _ hD.1 hD.2.1 (by decide)
  | numberedOrderOnly hD => exact .numbered _ _ hD.1 hD.2.1 (by decide)
  | node h1 h2 => exact .numbered _ _ h1 h2 (by decide)
  | _ => exact .one _ (by decide)

theorem undefined_form {a : Args} {f : Str} (h : Undefined a f) : Form f := by
  cases h with
  | stem hD => exact .numbered _ _ hD.1 hD.2.1 (by decide)
  | _ => exact .one _ (by decide)

/-- What `flag` does for each form. -/
theorem flag_numbered (a : Args) {ds t : Str} {k : Char} (hn : ds ≠ []) (hd : ∀ c ∈ ds, isDigit c = true)
    (hk : k ∈ ['f', 'b', 'B', 'o', 'i', 't']) : flag a (ds ++ [k] ++ t) =
      match numberedFlag a ds k with
      | .ok v => .ok (v, t)
      | .error => .error
      | .ub => .ub := by
  have hk' : isDigit k = false := by
    simp only [List.mem_cons, List.not_mem_nil, or_false] at hk
    rcases hk with rfl | rfl | rfl | rfl | rfl | rfl <;> decide
  obtain ⟨h1, h2⟩ := takeWhile_digits (t := t) hd hk'
  cases ds with
  | nil => exact absurd rfl hn
  | cons c ds =>
    have hc := hd c List.mem_cons_self
    have e : c :: ds ++ [k] ++ t = c :: (ds ++ k :: t) := by simp
    rw [e]
    rw [List.cons_append] at h1 h2
    have h0 : oneFlag a c = none := by
      rw [oneFlag_none]
      intro hm
      simp only [List.mem_cons, List.not_mem_nil, or_false] at hm
      rcases hm with rfl | rfl | rfl | rfl | rfl | rfl | rfl | rfl | rfl | rfl | rfl <;> exact absurd hc (by decide)
    unfold flag
    simp only [h0, h1, h2]
    have hq : ¬ (c = '\'' ∨ c = '"') := by
      rintro (rfl | rfl) <;> exact absurd hc (by decide)
    rw [if_neg hq, if_pos hc]
    rfl

theorem flag_ok (a : Args) (s v t : Str) : flag a s = .ok (v, t) ↔ ∃ f, Stands a f v ∧ s = f ++ t := by
  constructor
  · intro h
    cases s with
    | nil => cases h
    | cons c p =>
      unfold flag at h
      simp only at h
      cases h1 : oneFlag a c with
      | some r =>
        rw [h1] at h
        cases r with
        | ok w =>
          cases h
          exact ⟨[c], (oneFlag_ok a c v).1 h1, rfl⟩
        | error => cases h
        | ub => cases h
      | none =>
        rw [h1] at h
        simp only at h
        by_cases hq : c = '\'' ∨ c = '"'
        · rw [if_pos hq] at h
          cases p with
          | nil => cases h
          | cons d p =>
            simp only at h
            by_cases hf : d = 'f'
            · rw [if_pos hf] at h
              split at h
              · cases h
              · next hn =>
                rw [join_quote] at h
                cases h
                subst hf
                exact ⟨[c, 'f'], .quotedInputs hq hn, rfl⟩
            · rw [if_neg hf] at h
              by_cases ho : d = 'o'
              · rw [if_pos ho] at h
                split at h
                · cases h
                · next l hl =>
                  split at h
                  · cases h
                  · next hn =>
                    rw [join_quote] at h
                    cases h
                    subst ho
                    exact ⟨[c, 'o'], .quotedOutputs hq hl hn, rfl⟩
              · rw [if_neg ho] at h; cases h
        · rw [if_neg hq] at h
          by_cases hd : isDigit c = true
          · rw [if_pos hd] at h
            split at h
            · cases h
            · next k t' hk =>
              have hn : (c :: p).takeWhile isDigit ≠ [] := by simp [hd]
              have hall : ∀ x ∈ (c :: p).takeWhile isDigit, isDigit x = true := fun x hx =>
                List.all_eq_true.1 List.all_takeWhile x hx
              split at h
              · next w hw =>
                cases h
                refine ⟨_, (numberedFlag_ok a hn hall k v).1 hw, ?_⟩
                have := List.takeWhile_append_dropWhile (p := isDigit) (l := c :: p)
                rw [hk] at this
                rw [List.append_assoc]
                exact this.symm
              · cases h
              · cases h
          · rw [if_neg hd] at h; cases h
  · rintro ⟨f, hf, rfl⟩
    cases stands_form hf with
    | one c hc =>
      rw [List.cons_append, List.nil_append]
      unfold flag
      simp only [(oneFlag_ok a c v).2 hf]
    | quoted q d hq hd =>
      rw [List.cons_append, List.cons_append, List.nil_append]
      have h0 : oneFlag a q = none := by
        rw [oneFlag_none]
        rcases hq with rfl | rfl <;> decide
      unfold flag
      simp only [h0, if_pos hq, join_quote]
      generalize hx : [q, d] = x at hf
      cases hf with
      | quotedInputs hq' hn =>
        simp only [List.cons.injEq, and_true] at hx
        obtain ⟨rfl, rfl⟩ := hx
        rw [if_pos rfl, if_neg hn]
      | quotedOutputs hq' hl hn =>
        simp only [List.cons.injEq, and_true] at hx
        obtain ⟨rfl, rfl⟩ := hx
        rw [if_neg (by decide), if_pos rfl, hl]
        simp only [if_neg hn]
      | input hD => exact absurd hx.symm (numbered_ne hD.2.1 hq _)
      | base hD => exact absurd hx.symm (numbered_ne hD.2.1 hq _)
      | stem hD => exact absurd hx.symm (numbered_ne hD.2.1 hq _)
      | numberedOutput hD => exact absurd hx.symm (numbered_ne hD.2.1 hq _)
      | noOutput hD => exact absurd hx.symm (numbered_ne hD.2.1 hq _)
      | numberedOrderOnly hD => exact absurd hx.symm (numbered_ne hD.2.1 hq _)
      | node h1 h2 => exact absurd hx.symm (numbered_ne h2 hq _)
      | _ => simp at hx
    | numbered ds k hn hd hk =>
      rw [flag_numbered a hn hd hk, (numberedFlag_ok a hn hd k v).2 hf]

theorem flag_ub (a : Args) (s : Str) : flag a s = .ub ↔ ∃ f t, Undefined a f ∧ s = f ++ t := by
  constructor
  · intro h
    cases s with
    | nil => cases h
    | cons c p =>
      unfold flag at h
      simp only at h
      cases h1 : oneFlag a c with
      | some r =>
        rw [h1] at h
        cases r with
        | ok w => cases h
        | error => cases h
        | ub => exact ⟨[c], p, (oneFlag_ub a c).1 h1, rfl⟩
      | none =>
        rw [h1] at h
        simp only [join_quote] at h
        by_cases hq : c = '\'' ∨ c = '"'
        · rw [if_pos hq] at h
          repeat' split at h
          all_goals cases h
        · rw [if_neg hq] at h
          by_cases hd : isDigit c = true
          · rw [if_pos hd] at h
            split at h
            · cases h
            · next k t' hk =>
              have hn : (c :: p).takeWhile isDigit ≠ [] := by simp [hd]
              have hall : ∀ x ∈ (c :: p).takeWhile isDigit, isDigit x = true := fun x hx =>
                List.all_eq_true.1 List.all_takeWhile x hx
              split at h
              · cases h
              · cases h
              · next hw =>
                refine ⟨_, t', (numberedFlag_ub a hn hall k).1 hw, ?_⟩
                have := List.takeWhile_append_dropWhile (p := isDigit) (l := c :: p)
                rw [hk] at this
                rw [List.append_assoc]
                exact this.symm
          · rw [if_neg hd] at h; cases h
  · rintro ⟨f, t, hf, rfl⟩
    cases undefined_form hf with
    | one c hc =>
      rw [List.cons_append, List.nil_append]
      unfold flag
      simp only [(oneFlag_ub a c).2 hf]
    | quoted q d hq hd =>
      generalize hx : [q, d] = x at hf
      cases hf with
      | stem hD => exact absurd hx.symm (numbered_ne hD.2.1 hq _)
      | _ => simp at hx
    | numbered ds k hn hd hk =>
      rw [flag_numbered a hn hd hk, (numberedFlag_ub a hn hd k).2 hf]

theorem printf_eq (a : Args) (s : Str) : printf a s =
    match strchr '%' s with
    | none => .ok s
    | some (pre, rest) =>
      match flag a rest with
      | .error => .error
      | .ub => .ub
      | .ok (v, t) =>
        match printf a t with
        | .ok o => .ok (pre ++ v ++ o)
        | .error => .error
        | .ub => .ub := by
  rw [printf]
  split
  · next h => rw [h]
  · next pre rest h =>
    simp only [h]
    split
    · next h => rw [h]
    · next h => rw [h]
    · next h => rw [h]; rfl

theorem printf_cons (a : Args) {c : Char} (hc : c ≠ '%') (s : Str) : printf a (c :: s) =
    match printf a s with
    | .ok o => .ok (c :: o)
    | .error => .error
    | .ub => .ub := by
  rw [printf_eq a (c :: s), printf_eq a s, strchr, if_neg hc]
  cases strchr '%' s with
  | none => rfl
  | some q =>
    simp only [Option.map_some]
    cases flag a q.2 with
    | error => rfl
    | ub => rfl
    | ok r =>
      simp only
      cases printf a r.2 <;> rfl

theorem printf_flag (a : Args) (s : Str) : printf a ('%' :: s) =
    match flag a s with
    | .error => .error
    | .ub => .ub
    | .ok (v, t) =>
      match printf a t with
      | .ok o => .ok (v ++ o)
      | .error => .error
      | .ub => .ub := by
  rw [printf_eq, strchr, if_pos rfl]
  rfl

theorem printf_nil (a : Args) : printf a [] = .ok [] := by rw [printf_eq]; rfl

theorem printf_ok (a : Args) (s o : Str) : printf a s = .ok o ↔ Prints a s o := by
  constructor
  · intro h
    generalize hn : s.length = n
    induction n using Nat.strongRecOn generalizing s o with
    | ind n ih =>
      cases s with
      | nil => rw [printf_nil] at h; cases h; exact .nil
      | cons c s =>
        by_cases hc : c = '%'
        · subst hc
          rw [printf_flag] at h
          cases hf : flag a s with
          | error => rw [hf] at h; cases h
          | ub => rw [hf] at h; cases h
          | ok r =>
            obtain ⟨v, t⟩ := r
            rw [hf] at h
            simp only at h
            have hl := flag_length hf
            obtain ⟨f, hs, rfl⟩ := (flag_ok a s v t).1 hf
            cases hp : printf a t with
            | ok w =>
              rw [hp] at h
              cases h
              have := ih t.length (by rw [← hn]; simp only [List.length_cons]; omega) t w hp rfl
              exact .flag hs this
            | error => rw [hp] at h; cases h
            | ub => rw [hp] at h; cases h
        · rw [printf_cons a hc] at h
          cases hp : printf a s with
          | ok w =>
            rw [hp] at h
            cases h
            exact .other hc (ih s.length (by rw [← hn]; simp) s w hp rfl)
          | error => rw [hp] at h; cases h
          | ub => rw [hp] at h; cases h
  · intro h
    induction h with
    | nil => exact printf_nil a
    | other hc _ ih => rw [printf_cons a hc, ih]
    | @flag f v t o hs _ ih =>
      show printf a ('%' :: (f ++ t)) = _
      rw [printf_flag, (flag_ok a _ v t).2 ⟨f, hs, rfl⟩]
      simp only [ih]

theorem printf_ub (a : Args) (s : Str) : printf a s = .ub ↔ Breaks a s := by
  constructor
  · intro h
    generalize hn : s.length = n
    induction n using Nat.strongRecOn generalizing s with
    | ind n ih =>
      cases s with
      | nil => rw [printf_nil] at h; cases h
      | cons c s =>
        by_cases hc : c = '%'
        · subst hc
          rw [printf_flag] at h
          cases hf : flag a s with
          | error => rw [hf] at h; cases h
          | ub =>
            obtain ⟨f, t, hu, rfl⟩ := (flag_ub a s).1 hf
            exact .here hu
          | ok r =>
            obtain ⟨v, t⟩ := r
            rw [hf] at h
            simp only at h
            have hl := flag_length hf
            obtain ⟨f, hs, rfl⟩ := (flag_ok a s v t).1 hf
            cases hp : printf a t with
            | ok w => rw [hp] at h; cases h
            | error => rw [hp] at h; cases h
            | ub =>
              have := ih t.length (by rw [← hn]; simp only [List.length_cons]; omega) t hp rfl
              exact .flag hs this
        · rw [printf_cons a hc] at h
          cases hp : printf a s with
          | ok w => rw [hp] at h; cases h
          | error => rw [hp] at h; cases h
          | ub => exact .other hc (ih s.length (by rw [← hn]; simp) s hp rfl)
  · intro h
    induction h with
    | @here f t hu =>
      show printf a ('%' :: (f ++ t)) = _
      rw [printf_flag, (flag_ub a _).2 ⟨f, t, hu, rfl⟩]
    | other hc _ ih => rw [printf_cons a hc, ih]
    | @flag f v t hs _ ih =>
      show printf a ('%' :: (f ++ t)) = _
      rw [printf_flag, (flag_ok a _ v t).2 ⟨f, hs, rfl⟩]
      simp only [ih]

end Tup.Printf
