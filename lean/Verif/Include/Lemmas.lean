import Verif.Include.Spec
import Verif.Pel.Props

/-! Lemmas about paths in `include`. -/

namespace Tup.Include

open Pel (Name Normal Comps splitPath addElem Group)

theorem resolve_append (a b : List Str) (p : Path) : resolve (a ++ b) p = (resolve a p).bind (resolve b) := by
  induction a generalizing p with
  | nil => rfl
  | cons e a ih =>
    simp only [List.cons_append, resolve]
    split
    · exact ih p
    · split
      · split
        · rfl
        · exact ih _
      · exact ih _

theorem resolve_name {e : Str} (h : Name e) (p : Path) : resolve [e] p = some (p ++ [e]) := by
  simp only [resolve]
  rw [if_neg h.2.2.1, if_neg h.2.2.2]

theorem resolve_names {ns : List Str} (h : ∀ n ∈ ns, Name n) (p : Path) : resolve ns p = some (p ++ ns) := by
  induction ns generalizing p with
  | nil => simp [resolve]
  | cons n ns ih =>
    have hn := h n List.mem_cons_self
    simp only [resolve]
    rw [if_neg hn.2.2.1, if_neg hn.2.2.2, ih (fun x hx => h x (List.mem_cons_of_mem _ hx))]
    simp

theorem resolve_dot (l : List Str) (p : Path) : resolve (".".toList :: l) p = resolve l p := by
  simp only [resolve, if_true]

theorem resolve_dotdot (l : List Str) (p : Path) : resolve ("..".toList :: l) p = if p = [] then none else resolve l p.dropLast := by
  simp only [resolve]
  rw [if_neg (by decide)]
  simp only [if_true]

/-- `k` steps up. -/
theorem resolve_ups (k : Nat) (l : List Str) (p : Path) :
    resolve (List.replicate k "..".toList ++ l) p = if k ≤ p.length then resolve l (p.take (p.length - k)) else none := by
  induction k generalizing p with
  | zero => simp
  | succ k ih =>
    rw [List.replicate_succ, List.cons_append, resolve_dotdot]
    split
    · rename_i h
      subst h
      rw [if_neg (by simp)]
    · rename_i h
      have hl : 0 < p.length := List.length_pos_iff.2 h
      rw [ih, List.length_dropLast]
      by_cases hk : k ≤ p.length - 1
      · rw [if_pos hk, if_pos (by omega), List.dropLast_eq_take, List.take_take]
        congr 2
        omega
      · rw [if_neg hk, if_neg (by omega)]

theorem resolve_fold {p : Path} (l : List Str) : ∀ {g g' : Group} {k : Nat} {ns : List Str}, Pel.Inv g k ns → (∀ e ∈ l, Pel.Good e) →
    l.foldlM addElem g = some g' → (resolve g.elems p).bind (resolve l) = resolve g'.elems p := by
  induction l with
  | nil =>
    intro g g' k ns _ _ h
    cases h
    cases resolve g.elems p <;> rfl
  | cons e l ih =>
    intro g g' k ns hi hg h
    have hl := fun x hx => hg x (List.mem_cons_of_mem _ hx)
    rw [List.foldlM_cons] at h
    rcases Pel.addElem_inv hi (hg e List.mem_cons_self) with ⟨he, h1⟩ | ⟨he, hn, g1, h1, hi1⟩ | ⟨he, a, n, g1, hn, h1, hi1⟩ | ⟨he, g1, h1, hi1⟩
    · rw [h1] at h
      rw [← ih hi hl h, he]
      cases resolve g.elems p with
      | none => rfl
      | some q => exact resolve_dot l q
    · rw [h1] at h
      rw [← ih hi1 hl h]
      have : g1.elems = g.elems ++ [e] := by
        rw [hi1.elems, hi.elems, hn, he, List.append_nil, List.append_nil, List.replicate_succ']
      rw [this, resolve_append]
      cases resolve g.elems p with
      | none => rfl
      | some q =>
        show resolve (e :: l) q = (resolve [e] q).bind (resolve l)
        rw [← resolve_append]
        rfl
    · rw [h1] at h
      rw [← ih hi1 hl h]
      have : g.elems = g1.elems ++ [n] := by rw [hi1.elems, hi.elems, hn, List.append_assoc]
      have hname := hi.names n (by rw [hn]; simp)
      rw [this, resolve_append]
      cases resolve g1.elems p with
      | none => rfl
      | some q =>
        show (resolve [n] q).bind (resolve (e :: l)) = resolve l q
        rw [resolve_name hname]
        show resolve (e :: l) (q ++ [n]) = resolve l q
        rw [he, resolve_dotdot, if_neg (by simp), List.dropLast_concat]
    · rw [h1] at h
      rw [← ih hi1 hl h]
      have : g1.elems = g.elems ++ [e] := by rw [hi1.elems, hi.elems, List.append_assoc]
      rw [this, resolve_append]
      cases resolve g.elems p with
      | none => rfl
      | some q =>
        show resolve (e :: l) q = (resolve [e] q).bind (resolve l)
        rw [← resolve_append]
        rfl

/-- The elements lead to where the components lead. -/
theorem resolve_split {s : Str} {l : List Str} {root : Bool} {g : Group} (hl : Comps s l) (hs : splitPath s = some (root, g)) (p : Path) :
    resolve l p = resolve g.elems p := by
  unfold splitPath at hs
  rw [Pel.splitLoop_comps hl] at hs
  obtain ⟨g1, h1, h2⟩ := Option.map_eq_some_iff.1 hs
  cases h2
  have := resolve_fold (p := p) l Pel.inv_init (Pel.comps_good hl) h1
  exact this

theorem elements (top file : Str) : ∃ r, Pel.getPathElements top file = some r ∧ Normal r.elems ∧ r.root = (file.head? == some '/') ∧ r.hidden = Pel.isHidden r.elems ∧
    (r.root = false → r.outside = false ∧ ∀ l p, Comps file l → resolve l p = resolve r.elems p) := by
  obtain ⟨g, h1, k, ns, h2, h3⟩ := Pel.c11_form file
  unfold Pel.getPathElements
  rw [h1]
  simp only
  split
  · rename_i hr
    have hdrop : ∀ j, Normal (g.elems.drop j) := by
      intro j
      refine ⟨k - j, ns.drop (j - k), ?_, fun n hn => h3 n (List.mem_of_mem_drop hn)⟩
      rw [h2, List.drop_append, List.drop_replicate, List.length_replicate]
    split
    · exact ⟨_, rfl, ⟨k, ns, h2, h3⟩, rfl, rfl, fun hx => by simp only at hx; rw [hr] at hx; cases hx⟩
    · exact ⟨_, rfl, hdrop _, rfl, rfl, fun hx => by simp only at hx; rw [hr] at hx; cases hx⟩
  · refine ⟨_, rfl, ⟨k, ns, h2, h3⟩, rfl, rfl, fun _ => ⟨rfl, fun l p hl => resolve_split hl h1 p⟩⟩

/-- The target, in terms of the elements. -/
theorem target_iff {w : World} {cur p : Path} {file : Str} {r : Pel.Result} (hr : Pel.getPathElements w.top file = some r) :
    Target w cur file p ↔ r.outside = false ∧ resolve r.elems (if r.root then [] else cur) = some p := by
  obtain ⟨r', h1, h2, h3, h4, h5⟩ := elements w.top file
  rw [hr] at h1
  cases h1
  unfold Target
  split
  · rename_i hh
    have : r.root = true := by rw [h3, hh]; rfl
    rw [this]
    simp only [if_true]
    constructor
    · rintro ⟨r', e1, e2, e3⟩
      rw [hr] at e1
      cases e1
      exact ⟨e2, e3⟩
    · rintro ⟨e2, e3⟩; exact ⟨r, hr, e2, e3⟩
  · rename_i hh
    have : r.root = false := by
      rw [h3]
      simpa using hh
    obtain ⟨e1, e2⟩ := h5 this
    rw [this]
    simp only [Bool.false_eq_true, if_false]
    constructor
    · rintro ⟨l, hl, e3⟩
      exact ⟨e1, by rw [← e2 l cur hl]; exact e3⟩
    · rintro ⟨_, e3⟩
      obtain ⟨l, hl⟩ := Pel.c11_components file
      exact ⟨l, hl, by rw [e2 l cur hl]; exact e3⟩

theorem known_prefix {w : World} (hw : Proper w) {p : Path} (q : List Str) (hp : p ≠ []) (h : w.node (p ++ q) ≠ none) : w.node p ≠ none := by
  generalize hk : q.length = k
  induction k generalizing q with
  | zero =>
    rw [List.length_eq_zero_iff.1 hk, List.append_nil] at h
    exact h
  | succ k ih =>
    have hq : q ≠ [] := by rintro rfl; simp at hk
    refine ih q.dropLast (hw.parent _ (q.getLast hq) ?_ (by simp [hp])) (by rw [List.length_dropLast]; omega)
    rw [List.append_assoc, List.dropLast_concat_getLast hq]
    exact h

theorem findDir_resolve {w : World} {l : List Str} {p q : Path} (hd : ".".toList ∉ l) (h : findDir w p l = some q) : resolve l p = some q := by
  induction l generalizing p with
  | nil => exact h
  | cons e l ih =>
    have h1 : e ≠ ".".toList := fun hx => hd (hx ▸ List.mem_cons_self)
    have h2 := fun hx => hd (List.mem_cons_of_mem _ hx)
    simp only [findDir] at h
    simp only [resolve]
    rw [if_neg h1]
    split at h
    · rename_i he
      rw [if_pos he]
      split at h
      · cases h
      · rename_i hp
        rw [if_neg hp]
        exact ih h2 h
    · rename_i he
      rw [if_neg he]
      split at h
      · cases h
      · exact ih h2 h

theorem findDir_names {w : World} (hw : Proper w) {ns : List Str} {p : Path} {e : Str} (hn : ∀ n ∈ ns, Name n) (h : w.node (p ++ ns ++ [e]) ≠ none) :
    findDir w p ns = some (p ++ ns) := by
  induction ns generalizing p with
  | nil => simp [findDir]
  | cons n ns ih =>
    have hx := hn n List.mem_cons_self
    have hk : w.node (p ++ [n]) ≠ none := by
      refine known_prefix hw (ns ++ [e]) (by simp) ?_
      simpa using h
    simp only [findDir]
    rw [if_neg hx.2.2.2, if_neg hk, ih (fun x hx => hn x (List.mem_cons_of_mem _ hx))]
    · simp
    · simpa using h

theorem findDir_ups {w : World} (k : Nat) (l : List Str) (p : Path) (hk : k ≤ p.length) :
    findDir w p (List.replicate k "..".toList ++ l) = findDir w (p.take (p.length - k)) l := by
  induction k generalizing p with
  | zero => simp
  | succ k ih =>
    rw [List.replicate_succ, List.cons_append]
    simp only [findDir, if_true]
    have hp : p ≠ [] := by rintro rfl; simp at hk
    rw [if_neg hp, ih _ (by rw [List.length_dropLast]; omega), List.length_dropLast, List.dropLast_eq_take, List.take_take]
    congr 2
    omega

theorem normal_dot {l : List Str} (h : Normal l) : ".".toList ∉ l := by
  obtain ⟨k, ns, rfl, hn⟩ := h
  intro hm
  rcases List.mem_append.1 hm with hm | hm
  · exact absurd (List.eq_of_mem_replicate hm) (by decide)
  · exact (hn _ hm).2.2.1 rfl

theorem not_hidden {w : World} (hw : Proper w) {k : Nat} {ns : List Str} {p : Path} (h : w.node (p ++ ns) ≠ none) :
    Pel.isHidden (List.replicate k "..".toList ++ ns) = false := by
  unfold Pel.isHidden
  rw [List.any_eq_false]
  intro e he
  rcases List.mem_append.1 he with hm | hm
  · rw [List.eq_of_mem_replicate hm]
    decide
  · obtain ⟨h1, h2⟩ := hw.name _ h e (List.mem_append_right _ hm)
    have : Pel.ignored e = false := by
      unfold Pel.ignored
      unfold Pel.hiddenNames at h2
      simp only [List.mem_cons, List.not_mem_nil, or_false, not_or] at h2
      obtain ⟨a, b, c, d, f, g⟩ := h2
      simp only [h1.2.2.1, h1.2.2.2, a, b, c, d, f, g, decide_false, Bool.or_self]
    simp [this]

/-- If the target is known and is not reached by steps up only, it is found. -/
theorem locate_of {w : World} (hw : Proper w) {cur p : Path} {file : Str} {r : Pel.Result} {l : List Str} {e : Str} (hr : Pel.getPathElements w.top file = some r)
    (ho : r.outside = false) (hl : r.elems = l ++ [e]) (he : e ≠ "..".toList) (hp : resolve r.elems (if r.root then [] else cur) = some p) (hn : w.node p ≠ none) :
    locate w cur file = some (p.dropLast, p) := by
  obtain ⟨r', h1, ⟨k, ns, h2, h2'⟩, h3, h4, _⟩ := elements w.top file
  rw [hr] at h1
  cases h1
  unfold locate
  rw [hr]
  simp only
  generalize (if r.root then [] else cur) = start at hp
  -- the last element is a name
  have hns : ns ≠ [] := by
    rintro rfl
    rw [List.append_nil] at h2
    rw [hl] at h2
    have : e ∈ List.replicate k "..".toList := by rw [← h2]; simp
    exact he (List.eq_of_mem_replicate this)
  obtain ⟨ns', e', rfl⟩ : ∃ ns' e', ns = ns' ++ [e'] := ⟨ns.dropLast, ns.getLast hns, (List.dropLast_concat_getLast hns).symm⟩
  have hee : e' = e := by
    rw [hl, ← List.append_assoc] at h2
    have := List.append_inj' h2 rfl
    simpa using this.2.symm
  subst hee
  have hll : l = List.replicate k "..".toList ++ ns' := by
    rw [hl, ← List.append_assoc] at h2
    exact (List.append_inj' h2 rfl).1
  rw [h2, resolve_ups] at hp
  split at hp
  · rename_i hk
    rw [resolve_names h2'] at hp
    have hpe := (Option.some.inj hp).symm
    rw [h4, h2, not_hidden hw (p := start.take (start.length - k)) (by rw [← hpe]; exact hn), ho]
    simp only [Bool.false_eq_true, if_false]
    rw [← List.append_assoc, List.getLast?_concat, List.dropLast_concat]
    simp only
    rw [findDir_ups _ _ _ hk, findDir_names hw (e := e') (fun n hn => h2' n (List.mem_append_left _ hn)) (by rw [List.append_assoc, ← hpe]; exact hn)]
    simp only
    rw [List.append_assoc, ← hpe, if_neg hn, hpe, ← List.append_assoc, List.dropLast_concat]
  · cases hp

theorem locate_target {w : World} (hw : Proper w) {cur d p : Path} {file : Str} (h : locate w cur file = some (d, p)) :
    Target w cur file p ∧ w.node p ≠ none ∧ d = p.dropLast ∧ ∃ r l e, Pel.getPathElements w.top file = some r ∧ r.outside = false ∧ r.elems = l ++ [e] ∧ e ≠ "..".toList := by
  obtain ⟨r, hr, hnorm, h3, h4, _⟩ := elements w.top file
  unfold locate at h
  rw [hr] at h
  simp only at h
  split at h
  · cases h
  · split at h
    · cases h
    · rename_i ho
      have ho : r.outside = false := by simpa using ho
      split at h
      · cases h
      · rename_i e he
        split at h
        · cases h
        · rename_i d' hd
          split at h
          · cases h
          · rename_i hn
            cases h
            have hne : r.elems ≠ [] := by rintro hx; rw [hx] at he; cases he
            have hel : r.elems = r.elems.dropLast ++ [e] := by
              have := List.getLast?_eq_some_getLast hne
              rw [this] at he
              rw [← Option.some.inj he]
              exact (List.dropLast_concat_getLast hne).symm
            have hnm := (hw.name _ hn e (by simp)).1
            have hdot : ".".toList ∉ r.elems.dropLast := fun hx => normal_dot hnorm (List.dropLast_subset _ hx)
            refine ⟨?_, hn, by simp, r, _, e, hr, ho, hel, hnm.2.2.2⟩
            rw [target_iff hr]
            refine ⟨ho, ?_⟩
            rw [hel, resolve_append, findDir_resolve hdot hd]
            exact resolve_name hnm _

/-- What is included is exactly what the path means. -/
theorem locate_iff {w : World} (hw : Proper w) {cur p d : Path} {file t : Str} (hc : IsDir w cur) (ht : w.text p = some t) :
    locate w cur file = some (d, p) ↔ Target w cur file p ∧ w.node p ≠ none ∧ d = p.dropLast := by
  constructor
  · intro h
    obtain ⟨h1, h2, h3, _⟩ := locate_target hw h
    exact ⟨h1, h2, h3⟩
  · rintro ⟨h1, h2, rfl⟩
    obtain ⟨r, hr, ⟨k, ns, hk, hn⟩, h3, h4, _⟩ := elements w.top file
    rw [target_iff hr] at h1
    have hstart : IsDir w (if r.root then [] else cur) := by
      split
      · intro k
        simpa using hc 0
      · exact hc
    by_cases hns : ns = []
    · subst hns
      exfalso
      have := h1.2
      generalize (if r.root then [] else cur) = start at hstart this
      rw [hk, resolve_ups] at this
      split at this
      · have := Option.some.inj this
        rw [← this, hstart] at ht
        cases ht
      · cases this
    · have hel : r.elems = (List.replicate k "..".toList ++ ns.dropLast) ++ [ns.getLast hns] := by
        rw [List.append_assoc, List.dropLast_concat_getLast hns]
        exact hk
      exact locate_of hw hr h1.1 hel (hn _ (List.getLast_mem hns)).2.2.2 h1.2 h2

/-- It does not depend on more than the node. -/
theorem locate_agree {w w' : World} (hw : Proper w) (hw' : Proper w') {cur p d : Path} {file : Str} (ht : w.top = w'.top) (h : locate w cur file = some (d, p))
    (hn : w.node p = w'.node p) : locate w' cur file = some (d, p) := by
  obtain ⟨h1, h2, rfl, r, l, e, hr, ho, hl, he⟩ := locate_target hw h
  rw [target_iff hr] at h1
  rw [ht] at hr
  exact locate_of hw' hr ho hl he h1.2 (hn ▸ h2)

theorem rulesPath_text (n : Nat) (name : Str) : rulesPath n name = Pel.text (List.replicate n "..".toList ++ [name]) := by
  unfold rulesPath
  induction n with
  | zero => simp [Pel.text, List.intercalate]
  | succ n ih =>
    rw [List.replicate_succ, List.replicate_succ, List.flatten_cons, List.append_assoc, ih]
    unfold Pel.text
    rw [List.cons_append]
    generalize hl : List.replicate n "..".toList ++ [name] = l
    cases l with
    | nil => simp at hl
    | cons a l => simp [List.intercalate, List.intersperse]

theorem rulesPath_comps (n : Nat) {name : Str} (h : Name name) : Comps (rulesPath n name) (List.replicate n "..".toList ++ [name]) := by
  rw [rulesPath_text]
  refine Pel.comps_text (w := []) (fun e he => ?_) (by simp)
  rcases List.mem_append.1 he with he | he
  · rw [List.eq_of_mem_replicate he]; exact Pel.good_dotdot
  · rw [List.mem_singleton.1 he]; exact ⟨h.1, h.2.1⟩

theorem rulesPath_head (n : Nat) {name : Str} (h : Name name) : (rulesPath n name).head? ≠ some '/' := by
  unfold rulesPath
  cases n with
  | zero =>
    cases name with
    | nil => exact absurd rfl h.1
    | cons c s =>
      simp only [List.replicate_zero, List.flatten_nil, List.nil_append, List.head?_cons, ne_eq, Option.some.injEq]
      rintro rfl
      exact h.2.1 List.mem_cons_self
  | succ n =>
    rw [List.replicate_succ]
    simp

theorem isLua_rulesPath (n : Nat) (name : Str) : isLua (rulesPath n name) = isLua name := by
  unfold rulesPath
  induction n with
  | zero => rfl
  | succ n ih =>
    rw [List.replicate_succ, List.flatten_cons, List.append_assoc, ← ih]
    generalize (List.replicate n "../".toList).flatten ++ name = s
    show isLua ('.' :: '.' :: '/' :: s) = isLua s
    simp [isLua, List.isPrefixOf]

theorem rules_target {w : World} {cur p : Path} {n : Nat} {name : Str} (h : Name name) (hn : n ≤ cur.length) :
    Target w cur (rulesPath n name) p ↔ p = cur.take (cur.length - n) ++ [name] := by
  obtain ⟨r, hr, _, h3, _, h5⟩ := elements w.top (rulesPath n name)
  have hroot : r.root = false := by
    rw [h3]
    simpa using rulesPath_head n h
  obtain ⟨h6, h7⟩ := h5 hroot
  rw [target_iff hr, hroot]
  simp only [Bool.false_eq_true, if_false]
  rw [← h7 _ cur (rulesPath_comps n h), resolve_ups, if_pos hn, resolve_name h, h6]
  simp [eq_comm]

end Tup.Include
