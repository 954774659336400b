import Verif.Bins.Spec
import Verif.Execute.Props

/-! Lemmas on bins. -/

namespace Tup.Bins

open Tup.Names Tup.Execute

theorem find_name {n : Str} {l : List Bin} {b : Bin} (h : find n l = some b) : b.name = n := by
  induction l with
  | nil => cases h
  | cons c l ih =>
    rw [find] at h
    split at h
    · cases h; assumption
    · exact ih h

theorem find_add (n m : Str) (l : List Bin) :
    find m (add n l) = match find m l with
      | some b => some b
      | none => if m = n then some ⟨n, []⟩ else none := by
  unfold add
  cases hn : find n l with
  | some b =>
    simp only
    cases hm : find m l with
    | some c => rfl
    | none =>
      simp only
      rw [if_neg]
      rintro rfl
      rw [hn] at hm; cases hm
  | none =>
    simp only [find]
    by_cases e : n = m
    · subst e; simp [hn]
    · rw [if_neg e]
      cases find m l with
      | some c => rfl
      | none => simp [Ne.symm e]

theorem find_addEntry (n m : Str) (e : BinEntry) (l : List Bin) :
    find m (addEntry n e l) = (find m l).map fun b => if m = n then { b with entries := b.entries ++ [e] } else b := by
  induction l with
  | nil => rfl
  | cons c l ih =>
    by_cases h : c.name = n
    · rw [addEntry, if_pos h, find, find]
      by_cases g : c.name = m
      · rw [if_pos g, if_pos g]
        simp [← h, ← g]
      · rw [if_neg g, if_neg g]
        have : m ≠ n := fun e => g (h.trans e.symm)
        simp [this]
    · rw [addEntry, if_neg h, find, find]
      by_cases g : c.name = m
      · rw [if_pos g, if_pos g]
        have : m ≠ n := fun e => h (g.trans e)
        simp [this]
      · rw [if_neg g, if_neg g]; exact ih

theorem find_addNames (bin : Option Str) (m : Str) (es : List Entry) : ∀ l : List Bin,
    find m (addNames bin es l) = (find m l).map fun b =>
      if bin = some m then { b with entries := b.entries ++ es.map fun e => ⟨e.path, e.tent⟩ } else b := by
  cases bin with
  | none => intro l; simp [addNames]
  | some n =>
    induction es with
    | nil => intro l; simp [addNames]
    | cons e es ih =>
      intro l
      have := ih (addEntry n ⟨e.path, e.tent⟩ l)
      simp only [addNames, List.foldl_cons] at this ⊢
      rw [this, find_addEntry, Option.map_map]
      congr 1
      funext b
      by_cases h : m = n
      · subst h; simp
      · have h' : ¬ n = m := fun e => h e.symm
        simp [h, h']

variable {σ : Type}

/-- The bins are what the record says, and there is a bin for each that the record names. -/
structure Inv (s : State σ) : Prop where
  contents : ∀ b c, find b s.bins = some c → c.entries = Contents s.made b
  there : ∀ m ∈ s.made, ∀ b, m.bin = some b → (find b s.bins).isSome

theorem Inv.none {s : State σ} (h : Inv s) {b : Str} (hb : find b s.bins = none) : Contents s.made b = [] := by
  unfold Contents
  have : (s.made.filter fun m => m.bin = some b) = [] := by
    rw [List.filter_eq_nil_iff]
    intro m hm e
    have := h.there m hm b (by simpa using e)
    rw [hb] at this; cases this
  rw [this]; rfl

theorem contents_snoc (made : List Made) (m : Made) (b : Str) :
    Contents (made ++ [m]) b = Contents made b ++ if m.bin = some b then puts m else [] := by
  unfold Contents
  rw [List.filter_append, List.flatMap_append]
  congr 1
  by_cases h : m.bin = some b <;> simp [h]

/-- Adding the names of a command to its bin. -/
theorem Inv.put {s : State σ} (h : Inv s) {bin : Option Str} (hb : ∀ b, bin = some b → (find b s.bins).isSome)
    {base : σ} {m : Made} {es : List Entry} (hm : m.bin = bin)
    (he : puts m = es.map fun e => ⟨e.path, e.tent⟩) :
    Inv (σ := σ) ⟨addNames bin es s.bins, base, s.made ++ [m]⟩ := by
  constructor
  · intro b c hc
    rw [find_addNames] at hc
    rw [contents_snoc, hm]
    cases hf : find b s.bins with
    | none => rw [hf] at hc; cases hc
    | some d =>
      rw [hf] at hc
      have hd := h.contents b d hf
      rw [Option.map_some] at hc
      by_cases e : bin = some b
      · rw [if_pos e] at hc ⊢
        cases hc
        rw [hd, he]
      · rw [if_neg e] at hc ⊢
        cases hc
        rw [hd, List.append_nil]
  · intro x hx b hxb
    have hs : (find b s.bins).isSome := by
      rcases List.mem_append.1 hx with hx | hx
      · exact h.there x hx b hxb
      · rw [List.mem_singleton] at hx
        subst hx
        exact hb b (hm ▸ hxb)
    rw [find_addNames, Option.isSome_map]
    exact hs

/-- What one step of a rule does with bins and record. -/
theorem doRule_some {B : Base σ} {bin : Option Str} {s s' : State σ} {j : Job} (h : doRule B bin s j = some s') :
    ∃ es base m, s' = ⟨addNames bin es s.bins, base, s.made ++ [m]⟩ ∧ m.bin = bin ∧ m.job = j ∧
      puts m = es.map fun e => ⟨e.path, e.tent⟩ := by
  unfold doRule at h
  by_cases hc : j.command = []
  · rw [if_pos hc] at h
    cases h
    exact ⟨_, _, _, rfl, rfl, rfl, by simp [puts, hc]⟩
  · rw [if_neg hc] at h
    split at h
    · cases h
    · split at h
      · cases h
      · split at h
        · cases h
        · split at h
          · cases h
          · cases h
            exact ⟨_, _, _, rfl, rfl, rfl, by simp [puts, hc]⟩

theorem resolve_some {B : Base σ} {bin : Option Str} {s s' : State σ} {ps : List Str} {nl : Option NameList}
    {l : List Entry} (h : (world B bin).resolve s ps nl = some (s', l)) :
    ∃ pls nls, copyPaths B.reOk s.bins 1 ps = some pls ∧ toNames B s.bins s.base pls nl = some (s'.base, nls) ∧
      nls.entries = l ∧ s'.bins = s.bins ∧ s'.made = s.made := by
  unfold world at h
  simp only at h
  split at h
  · cases h
  · split at h
    · cases h
    · rename_i pls hp _ b nls ht
      cases h
      exact ⟨pls, nls, hp, ht, rfl, rfl, rfl⟩

/-- From `s` to `s'` the commands `js` were made for a rule with this bin. -/
structure Step (bin : Option Str) (s s' : State σ) (js : List Job) : Prop where
  inv : Inv s → (∀ b, bin = some b → (find b s.bins).isSome) → Inv s'
  names : ∀ b, (find b s'.bins).isSome = (find b s.bins).isSome
  made : ∃ new, s'.made = s.made ++ new ∧ new.map (·.job) = js ∧ ∀ m ∈ new, m.bin = bin

theorem Step.refl {bin : Option Str} {s s' : State σ} (hb : s'.bins = s.bins) (hm : s'.made = s.made) :
    Step bin s s' [] where
  inv := fun h _ => ⟨by rw [hb, hm]; exact h.contents, by rw [hb, hm]; exact h.there⟩
  names := fun b => by rw [hb]
  made := ⟨[], by rw [hm, List.append_nil], rfl, by simp⟩

theorem Step.trans {bin : Option Str} {s s' s'' : State σ} {js js' : List Job} (h : Step bin s s' js)
    (h' : Step bin s' s'' js') : Step bin s s'' (js ++ js') where
  inv := fun hi hb => h'.inv (h.inv hi hb) fun b e => by rw [h.names]; exact hb b e
  names := fun b => by rw [h'.names, h.names]
  made := by
    obtain ⟨n, h1, h2, h3⟩ := h.made
    obtain ⟨n', h4, h5, h6⟩ := h'.made
    refine ⟨n ++ n', by rw [h4, h1, List.append_assoc], by rw [List.map_append, h2, h5], ?_⟩
    intro m hm
    rcases List.mem_append.1 hm with hm | hm
    · exact h3 m hm
    · exact h6 m hm

theorem Step.resolve {B : Base σ} {bin : Option Str} {s s' : State σ} {ps : List Str} {nl : Option NameList}
    {l : List Entry} (h : (world B bin).resolve s ps nl = some (s', l)) : Step bin s s' [] := by
  obtain ⟨_, _, _, _, _, h1, h2⟩ := resolve_some h
  exact .refl h1 h2

theorem Step.run {B : Base σ} {bin : Option Str} {s s' : State σ} {j : Job} (h : (world B bin).run s j = some s') :
    Step bin s s' [j] := by
  obtain ⟨es, base, m, rfl, h1, h2, h3⟩ := doRule_some h
  exact ⟨fun hi hb => hi.put hb h1 h3, fun b => by rw [find_addNames, Option.isSome_map],
    ⟨[m], rfl, by simp [h2], by simpa using h1⟩⟩

theorem Step.macroInputs {B : Base σ} {bin : Option Str} {s s' : State σ} {nl : Option NameList} {i : Option Str}
    {l : List Entry} (h : MacroInputs (world B bin) nl s i l s') : Step bin s s' [] := by
  cases h with
  | none => exact .refl rfl rfl
  | some _ h => exact .resolve h

theorem Step.one {B : Base σ} {T : Table} {bin : Option Str} {r : Rule} {s s' : State σ} {e : Entry} {j : Job}
    (h : One (world B bin) T r s e j s') : Step bin s s' [j] := by
  cases h with
  | plain _ h1 h2 => exact (Step.resolve h1).trans (.run h2)
  | bang _ _ h0 h1 h2 => exact (Step.macroInputs h0).trans ((Step.resolve h1).trans (.run h2))

theorem Step.each {B : Base σ} {T : Table} {bin : Option Str} {r : Rule} {s s' : State σ} {l : List Entry}
    {js : List Job} (h : Each (world B bin) T r s l js s') : Step bin s s' js := by
  induction h with
  | nil => exact .refl rfl rfl
  | cons h1 _ ih => exact (Step.one h1).trans ih

theorem Step.meaning {B : Base σ} {T : Table} {bin : Option Str} {r : Rule} {s s' : State σ} {js : List Job}
    (h : Meaning (world B bin) T r s js s') : Step bin s s' js := by
  cases h with
  | each _ _ h => exact .each h
  | plain _ _ _ _ h1 h2 => exact (Step.resolve h1).trans (.run h2)
  | bang _ _ _ _ h1 _ h2 h3 => exact (Step.resolve h1).trans ((Step.macroInputs h2).trans (.run h3))
  | empty _ _ _ _ h1 _ h2 h3 => exact (Step.resolve h1).trans ((Step.macroInputs h2).trans (.run h3))
  | nothing _ _ _ _ h => exact .resolve h

/-! ### Name lists -/

theorem run_add {nl : NameList} (h : Run nl) (l : List Entry) : Run (l.foldl NameList.add nl) := by
  induction l generalizing nl with
  | nil => exact h
  | cons e l ih => exact ih (Run.step (op := .add e) h)

theorem entries_add (l : List Entry) : ∀ nl : NameList, (l.foldl NameList.add nl).entries = nl.entries ++ l := by
  induction l with
  | nil => intro nl; simp
  | cons e l ih =>
    intro nl
    rw [List.foldl_cons, ih]
    simp [NameList.add]

theorem addBin_eq (b : Bin) (o : Nat) (nl : NameList) :
    addBin b o nl = (b.entries.map fun e => pathEntry e.path o e.tent).foldl NameList.add nl := by
  unfold addBin
  rw [List.foldl_map]

theorem entries_exclude (re : Str → Bool) (nl : NameList) :
    (exclude re nl).entries = nl.entries.filter fun e => !re e.path := by
  unfold exclude
  generalize nl.tot = t
  induction nl.entries generalizing t with
  | nil => rfl
  | cons e l ih =>
    rw [deleteLoop]
    cases h : re e.path with
    | true => simp [ih, h]
    | false => simp [ih, h]

theorem getNames_iff (B : Base σ) {s0 : State σ} (hi : Inv s0) (s0' : σ) : ∀ (pls done : List Pl) (s : σ)
    (nl : NameList), Run nl → Gathered B s0.made s0' done nl.entries s → ∀ {s' : σ} {nl' : NameList},
    getNames B s0.bins pls s nl = some (s', nl') →
      Run nl' ∧ Gathered B s0.made s0' (done ++ pls) nl'.entries s' := by
  intro pls
  induction pls with
  | nil =>
    intro done s nl hr hg s' nl' h
    cases h
    exact ⟨hr, by rw [List.append_nil]; exact hg⟩
  | cons p pls ih =>
    intro done s nl hr hg s' nl' h
    rw [show done ++ p :: pls = (done ++ [p]) ++ pls by simp]
    rw [getNames] at h
    split at h
    · rename_i n hk
      split at h
      · cases h
      · rename_i b hb
        rw [addBin_eq] at h
        refine ih _ _ _ (run_add hr _) ?_ h
        rw [entries_add, hi.contents n b hb]
        exact hg.bin hk
    · rename_i re hk
      refine ih _ _ _ (Run.step (op := .exclude _) hr) ?_ h
      show Gathered _ _ _ _ (exclude _ _).entries _
      rw [entries_exclude]
      exact hg.excl hk
    · rename_i hk1 hk2
      split at h
      · cases h
      · rename_i s1 es hl
        refine ih _ _ _ (run_add hr _) ?_ h
        rw [entries_add]
        refine hg.file ?_ hl
        cases hk : p.kind with
        | file => exact .inl rfl
        | group => exact .inr rfl
        | bin n => exact absurd hk (hk1 n)
        | excl re => exact absurd hk (hk2 re)

/-! ### Lists of paths -/

theorem newPl_none_head {reOk : Str → Bool} {p : Str} {k : PathList.Kind} (h : PathList.newPl none reOk p = some k) :
    p.head? ≠ some '{' := by
  intro e
  cases p with
  | nil => cases e
  | cons c t =>
    rw [List.head?_cons] at e
    cases e
    simp [PathList.newPl] at h

theorem newPls_some {reOk : Str → Bool} {o : Nat} : ∀ {ps : List Str} {new : List Pl},
    newPls reOk o ps = some new → new.map (·.mem) = ps ∧ ∀ q ∈ new, q.orderid = o ∧ q.mem.head? ≠ some '{' ∧
      PathList.newPl none reOk q.mem = some q.kind := by
  intro ps
  induction ps with
  | nil => intro new h; cases h; simp
  | cons p ps ih =>
    intro new h
    rw [newPls] at h
    split at h
    · cases h
    · rename_i k hk
      split at h
      · cases h
      · rename_i r hr
        cases h
        obtain ⟨h1, h2⟩ := ih hr
        refine ⟨by rw [List.map_cons, h1], fun q hq => ?_⟩
        rcases List.mem_cons.1 hq with rfl | hq
        · exact ⟨rfl, newPl_none_head hk, hk⟩
        · exact h2 q hq

theorem words_pieces : ∀ (t cur : Str), (∀ c ∈ cur, ¬ Blank c) → Words (cur ++ t) (pieces cur t) := by
  intro t
  induction t with
  | nil =>
    intro cur hc
    rw [List.append_nil]
    cases cur with
    | nil => exact .nil
    | cons c l => exact .last (by simp) hc
  | cons c t ih =>
    intro cur hc
    rw [pieces]
    by_cases hb : c = ' ' ∨ c = '\t'
    · rw [if_pos hb]
      by_cases hn : cur = []
      · subst hn
        rw [if_pos rfl]
        exact .blank hb (ih [] (by simp))
      · rw [if_neg hn]
        exact .word hn hc hb (ih [] (by simp))
    · rw [if_neg hb]
      have := ih (cur ++ [c]) (by
        intro d hd
        rcases List.mem_append.1 hd with hd | hd
        · exact hc d hd
        · rw [List.mem_singleton] at hd; subst hd; exact hb)
      rw [List.append_assoc] at this
      exact this

theorem evalPaths_some {B : Base σ} {s : σ} {nl : Option NameList} : ∀ {ps qs : List Pl},
    evalPaths B s nl ps = some qs → Expands B s nl ps qs := by
  intro ps
  induction ps with
  | nil => intro qs h; cases h; exact .nil
  | cons p ps ih =>
    intro qs h
    rw [evalPaths] at h
    split at h
    · cases h
    · rename_i t ht
      by_cases e : t = p.mem
      · rw [if_neg (by simpa using e)] at h
        simp only at h
        split at h
        · cases h
        · rename_i r hr
          cases h
          exact .same (e ▸ ht) (ih hr)
      · rw [if_pos e] at h
        split at h
        · cases h
        · rename_i new hn
          split at h
          · cases h
          · rename_i r hr
            cases h
            obtain ⟨h1, h2⟩ := newPls_some hn
            exact .other ht e (by rw [h1]; exact words_pieces t [] (by simp)) h2 (ih hr)

theorem toNames_some {B : Base σ} {s : State σ} (hi : Inv s) {b b' : σ} {ps : List Pl} {nl : Option NameList}
    {l : NameList} (h : toNames B s.bins b ps nl = some (b', l)) :
    Run l ∧ Reads B s.made b ps nl l.entries b' := by
  unfold toNames at h
  split at h
  · cases h
  · rename_i qs hq
    split at h
    · cases h
    · rename_i s1 hd
      obtain ⟨h1, h2⟩ := getNames_iff B hi s1 qs [] s1 .empty .init .nil h
      rw [List.nil_append] at h2
      exact ⟨h1, .mk (evalPaths_some hq) hd h2⟩

/-- The paths are made from their texts and numbered. -/
inductive Numbered (bins : Option (Str → Bool)) (reOk : Str → Bool) : Nat → List Pl → Prop
  | nil {n} : Numbered bins reOk n []
  | cons {n p l} : PathList.newPl bins reOk p.mem = some p.kind → p.orderid = n → Numbered bins reOk (n + 1) l →
      Numbered bins reOk n (p :: l)

theorem pathList_numbered (bins : Option (Str → Bool)) (reOk : Str → Bool) : ∀ (fuel n : Nat) (s : Str) (l : List Pl),
    PathList.pathList bins reOk fuel n s = .ok l → Numbered bins reOk n l := by
  intro fuel
  induction fuel with
  | zero => intro n s l h; cases h; exact .nil
  | succ fuel ih =>
    intro n s l h
    rw [PathList.pathList] at h
    split at h
    · cases h; exact .nil
    · split at h
      · cases h
      · cases h
      · split at h
        · cases h
        · rename_i k hk
          split at h
          · rename_i r hr
            cases h
            exact .cons hk rfl (ih _ _ _ hr)
          · rename_i hne
            exact absurd h (hne l)

theorem optPaths_numbered {bins : Option (Str → Bool)} {reOk : Str → Bool} {i : Option Str} {l : List Pl}
    (h : optPaths bins reOk i = .ok l) : Numbered bins reOk 1 l := by
  cases i with
  | none => cases h; exact .nil
  | some i => exact pathList_numbered _ _ _ _ _ _ h

theorem copyPaths_eq {reOk : Str → Bool} {bins : List Bin} : ∀ {n : Nat} {l : List Pl},
    Numbered (known bins) reOk n l → copyPaths reOk bins n (texts l) = some l := by
  intro n l h
  induction h with
  | nil => rfl
  | @cons n p l h1 h2 _ ih =>
    show copyPaths reOk bins n (p.mem :: texts l) = _
    rw [copyPaths, h1]
    simp only
    rw [ih]
    cases p
    subst h2
    rfl

/-- Lists of paths only depend on which bins there are. -/
theorem known_congr {bins bins' : List Bin} (h : ∀ b, (find b bins').isSome = (find b bins).isSome) :
    known bins' = known bins := by
  unfold known
  rw [funext h]

theorem binPath_kind {k : Str → Bool} {reOk : Str → Bool} {p b : Str} (hp : BinPath p b) :
    PathList.newPl (some k) reOk p = if k b then some (.bin b) else none := by
  obtain ⟨t, rfl, hb⟩ := hp
  have h1 : '}' ∈ b ++ "}".toList ++ t := by simp
  have h2 : (b ++ "}".toList ++ t).takeWhile (· ≠ '}') = b := by
    rw [List.append_assoc]
    rw [List.takeWhile_append_of_pos (by
      intro c hc
      have : c ≠ '}' := by rintro rfl; exact hb hc
      simpa using this)]
    simp
  show PathList.newPl (some k) reOk ('{' :: (b ++ "}".toList ++ t)) = _
  simp only [PathList.newPl]
  rw [if_pos h1, h2]

theorem mem_takeWhile {c : Char} {f : Char → Bool} {r : Str} (h : c ∈ r.takeWhile f) : f c = true :=
  List.all_eq_true.1 List.all_takeWhile c h

theorem bin_kind {k : Option (Str → Bool)} {reOk : Str → Bool} {p b : Str}
    (h : PathList.newPl k reOk p = some (.bin b)) : BinPath p b ∧ ∃ f, k = some f ∧ f b = true := by
  unfold PathList.newPl at h
  split at h
  · rename_i r
    split at h
    · cases h
    · rename_i f
      by_cases hm : '}' ∈ r
      · rw [if_pos hm] at h
        simp only at h
        by_cases hb : f (r.takeWhile (· ≠ '}')) = true
        · rw [if_pos hb] at h
          cases h
          refine ⟨?_, f, rfl, hb⟩
          have hs : r.takeWhile (· ≠ '}') ++ r.dropWhile (· ≠ '}') = r := List.takeWhile_append_dropWhile
          cases hd : r.dropWhile (· ≠ '}') with
          | nil =>
            exfalso
            rw [hd, List.append_nil] at hs
            rw [← hs] at hm
            simpa using mem_takeWhile hm
          | cons c t =>
            have hc : c = '}' := by
              have := List.head_dropWhile_not (l := r) (fun c => decide (c ≠ '}')) (by rw [hd]; simp)
              simp only [hd, List.head_cons] at this
              simpa using this
            subst hc
            refine ⟨t, ?_, fun h => ?_⟩
            · rw [hd] at hs
              show '{' :: r = _
              conv => lhs; rw [← hs]
              simp
            · simpa using mem_takeWhile h
        · rw [if_neg hb] at h; cases h
      · rw [if_neg hm] at h; cases h
  · split at h <;> cases h
  · split at h
    · split at h <;> cases h
    · cases h

end Tup.Bins
