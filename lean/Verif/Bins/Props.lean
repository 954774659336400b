import Verif.Bins.Lemmas

/-! C78: a bin collects the files of the rules that name it, and stands for exactly those. -/

namespace Tup.Bins

open Tup.Names Tup.Execute

variable {σ : Type}

/-- A state that is reached while a Tupfile is parsed, behind the lines `lines`. -/
def Reached (B : Base σ) (lines : List (Line σ)) (s : State σ) : Prop :=
  ∃ T base, parse B lines T (init base) = .ok s

/-! ### What a rule line does -/

/-- The bins while a rule is worked on. -/
def binsOf (t : Rules.RuleText) (bins : List Bin) : List Bin :=
  match t.bin with
  | none => bins
  | some b => add b bins

theorem find_binsOf (t : Rules.RuleText) (bins : List Bin) (m : Str) :
    find m (binsOf t bins) = match find m bins with
      | some b => some b
      | none => if t.bin = some m then some ⟨m, []⟩ else none := by
  unfold binsOf
  cases hb : t.bin with
  | none => cases find m bins <;> simp
  | some b =>
    simp only
    rw [find_add]
    cases find m bins with
    | some c => rfl
    | none =>
      by_cases e : m = b
      · subst e; simp
      · have : ¬ b = m := fun h => e h.symm
        simp [e, this]

theorem Inv.binsOf {s : State σ} (h : Inv s) (t : Rules.RuleText) (base : σ) :
    Inv (σ := σ) ⟨binsOf t s.bins, base, s.made⟩ := by
  constructor
  · intro b c hc
    have hc : find b (Bins.binsOf t s.bins) = some c := hc
    rw [find_binsOf] at hc
    cases hf : find b s.bins with
    | some d => rw [hf] at hc; cases hc; exact h.contents b _ hf
    | none =>
      rw [hf] at hc
      simp only at hc
      split at hc
      · cases hc; exact (h.none hf).symm
      · cases hc
  · intro m hm b e
    have := h.there m hm b e
    show (find b (Bins.binsOf t s.bins)).isSome = true
    rw [find_binsOf]
    cases hf : find b s.bins with
    | some d => rfl
    | none => rw [hf] at this; cases this

/-- The parts of an accepted rule. -/
structure Parts (B : Base σ) (T : Table) (s s' : State σ) (p : Str) where
  t : Rules.RuleText
  text : Rules.parseRule p = .ok t
  oo : List Pl
  ins : List Pl
  ooPaths : optPaths (known (binsOf t s.bins)) B.reOk t.orderOnly = .ok oo
  insPaths : optPaths (known (binsOf t s.bins)) B.reOk t.inputs = .ok ins
  base : σ
  inputs : NameList
  names : toNames B (binsOf t s.bins) s.base ins none = some (base, inputs)
  r : Rule
  foreach_ : r.foreach_ = t.foreach_
  emptyInput : r.emptyInput = t.emptyInput
  inputs_eq : r.inputs = inputs
  ooPaths_eq : r.ooPaths = texts oo
  oo_eq : r.oo = .empty
  bangOo_eq : r.bangOo = .empty
  bangExtra_eq : r.bangExtra = []
  command_eq : r.command = t.command
  js : List Job
  exec : execute (world B t.bin) T ⟨binsOf t s.bins, base, s.made⟩ r = some (s', js)

theorem parts {B : Base σ} {T : Table} {s s' : State σ} {p : Str} (h : parseRule B T s p = .ok s') :
    Nonempty (Parts B T s s' p) := by
  unfold parseRule at h
  split at h
  · cases h
  · rename_i t ht
    simp only at h
    split at h
    · cases h
    · cases h
    · rename_i oo hoo
      split at h
      · cases h
      · cases h
      · rename_i ins hins
        split at h
        · cases h
        · rename_i base inputs hn
          split at h
          · cases h
          · cases h
          · split at h
            · cases h
            · cases h
            · split at h
              · cases h
              · rename_i s1 js he
                cases h
                exact ⟨⟨t, ht, oo, ins, hoo, hins, base, inputs, hn, _, rfl, rfl, rfl, rfl, rfl, rfl, rfl, rfl, js, he⟩⟩

variable {B : Base σ} {T : Table} {s s' : State σ} {p : Str}

theorem Parts.run (q : Parts B T s s' p) (hi : Inv s) : Run q.inputs :=
  (toNames_some (s := ⟨binsOf q.t s.bins, s.base, s.made⟩) (hi.binsOf q.t s.base) q.names).1

theorem Parts.reads (q : Parts B T s s' p) (hi : Inv s) : Reads B s.made s.base q.ins none q.inputs.entries q.base :=
  (toNames_some (s := ⟨binsOf q.t s.bins, s.base, s.made⟩) (hi.binsOf q.t s.base) q.names).2

theorem Parts.meaning (q : Parts B T s s' p) (hi : Inv s) :
    Meaning (world B q.t.bin) T q.r ⟨binsOf q.t s.bins, q.base, s.made⟩ q.js s' :=
  (c51_rule _ T _ s' q.r q.js
    ⟨q.oo_eq, q.bangOo_eq, q.bangExtra_eq, by rw [q.inputs_eq]; exact q.run hi⟩).1 q.exec

theorem Parts.step (q : Parts B T s s' p) (hi : Inv s) :
    Step q.t.bin ⟨binsOf q.t s.bins, q.base, s.made⟩ s' q.js := .meaning (q.meaning hi)

theorem Parts.there (q : Parts B T s s' p) : ∀ b, q.t.bin = some b → (find b (binsOf q.t s.bins)).isSome := by
  intro b hb
  rw [find_binsOf, hb]
  cases find b s.bins <;> simp

theorem Parts.inv (q : Parts B T s s' p) (hi : Inv s) : Inv s' :=
  (q.step hi).inv (hi.binsOf q.t q.base) q.there

theorem Parts.find_isSome (q : Parts B T s s' p) (hi : Inv s) (b : Str) :
    (find b s'.bins).isSome ↔ (find b s.bins).isSome ∨ q.t.bin = some b := by
  rw [(q.step hi).names]
  show (find b (binsOf q.t s.bins)).isSome ↔ _
  rw [find_binsOf]
  cases find b s.bins with
  | some c => simp
  | none => by_cases e : q.t.bin = some b <;> simp [e]

theorem parse_inv : ∀ (lines : List (Line σ)) (T : Table) (s s' : State σ), parse B lines T s = .ok s' → Inv s →
    Inv s' ∧ (∀ b, (find b s'.bins).isSome ↔ (find b s.bins).isSome ∨ Filled lines b) ∧
      ∃ new, s'.made = s.made ++ new := by
  intro lines
  induction lines with
  | nil =>
    intro T s s' h hi
    cases h
    refine ⟨hi, fun b => ⟨.inl, fun h => h.elim id ?_⟩, [], by simp⟩
    rintro ⟨p, hp, _⟩
    cases hp
  | cons x lines ih =>
    intro T s s' h hi
    cases x with
    | rule p =>
      rw [parse] at h
      split at h
      · rename_i s1 h1
        obtain ⟨q⟩ := parts h1
        obtain ⟨h2, h3, new, h4⟩ := ih T s1 s' h (q.inv hi)
        obtain ⟨new1, h5, _⟩ := (q.step hi).made
        have h5 : s1.made = s.made ++ new1 := h5
        refine ⟨h2, fun b => ?_, new1 ++ new, by rw [h4, h5, List.append_assoc]⟩
        rw [h3, q.find_isSome hi]
        constructor
        · rintro ((h | h) | ⟨p', hp', hf⟩)
          · exact .inl h
          · exact .inr ⟨p, List.mem_cons_self, q.t, q.text, h⟩
          · exact .inr ⟨p', List.mem_cons_of_mem _ hp', hf⟩
        · rintro (h | ⟨p', hp', hf⟩)
          · exact .inl (.inl h)
          · rcases List.mem_cons.1 hp' with e | hp'
            · cases e
              obtain ⟨t, ht, hb⟩ := hf
              rw [q.text] at ht
              cases ht
              exact .inl (.inr hb)
            · exact .inr ⟨p', hp', hf⟩
      · rename_i hne
        exact absurd h (hne s')
    | other base T' =>
      rw [parse] at h
      obtain ⟨h2, h3, h4⟩ := ih T' _ s' h ⟨hi.contents, hi.there⟩
      refine ⟨h2, fun b => ?_, h4⟩
      rw [h3]
      constructor
      · rintro (h | ⟨p', hp', hf⟩)
        · exact .inl h
        · exact .inr ⟨p', List.mem_cons_of_mem _ hp', hf⟩
      · rintro (h | ⟨p', hp', hf⟩)
        · exact .inl h
        · rcases List.mem_cons.1 hp' with e | hp'
          · cases e
          · exact .inr ⟨p', hp', hf⟩

theorem inv_init (base : σ) : Inv (init base) := by
  constructor
  · intro b c h
    cases h
  · intro m hm
    cases hm

theorem Reached.inv {lines : List (Line σ)} (h : Reached B lines s) : Inv s := by
  obtain ⟨T, base, h⟩ := h
  exact (parse_inv lines T _ s h (inv_init base)).1

theorem numbered_kind {bins : Option (Str → Bool)} {reOk : Str → Bool} {n : Nat} {l : List Pl}
    (h : Numbered bins reOk n l) {x : Pl} (hx : x ∈ l) : PathList.newPl bins reOk x.mem = some x.kind := by
  induction h with
  | nil => cases hx
  | cons h1 _ _ ih =>
    rcases List.mem_cons.1 hx with rfl | hx
    · exact h1
    · exact ih hx

theorem resolve_reads {bin : Option Str} {oo : List Pl} {nl : Option NameList} {l : List Entry} (hi : Inv s)
    (hN : Numbered (known s.bins) B.reOk 1 oo) (h : (world B bin).resolve s (texts oo) nl = some (s', l)) :
    Reads B s.made s.base oo nl l s'.base := by
  obtain ⟨pls, nls, h1, h2, h3, _, _⟩ := resolve_some h
  rw [copyPaths_eq hN] at h1
  cases h1
  rw [← h3]
  exact (toNames_some hi h2).2

/-- One resolution and one command. -/
theorem does_one {bin : Option Str} {oo : List Pl} {s0 s1 s2 : State σ} {l : List Entry} {j : Job}
    (hmade : s0.made = s.made) (hI : Inv s0) (hN : Numbered (known s0.bins) B.reOk 1 oo)
    (hr : (world B bin).resolve s0 (texts oo) (some j.inputs) = some (s1, l)) {s1' : State σ}
    (hmade' : s1'.made = s1.made) (hrun : (world B bin).run s1' j = some s2) (hoo : j.oo = l) :
    ∃ m, s2.made = s.made ++ [m] ∧ m.job = j ∧ m.bin = bin ∧
      ∃ b b', Reads B s.made b oo (some m.job.inputs) m.job.oo b' := by
  obtain ⟨es, base, m, rfl, h1, h2, _⟩ := doRule_some hrun
  have hrd := resolve_reads hI hN hr
  obtain ⟨_, _, _, _, _, _, hm1⟩ := resolve_some hr
  refine ⟨m, ?_, h2, h1, s0.base, s1.base, ?_⟩
  · show s1'.made ++ [m] = _
    rw [hmade', hm1, hmade]
  · rw [h2, hoo, ← hmade]
    exact hrd

theorem Step.known {bin : Option Str} {js : List Job} (h : Step bin s s' js) : known s'.bins = known s.bins :=
  known_congr h.names

theorem Step.here {bin : Option Str} {js : List Job} (h : Step bin s s' js)
    (hb : ∀ b, bin = some b → (find b s.bins).isSome) : ∀ b, bin = some b → (find b s'.bins).isSome :=
  fun b e => by rw [h.names]; exact hb b e

theorem Step.nothing {bin : Option Str} (h : Step bin s s' []) : s'.made = s.made := by
  obtain ⟨new, h1, h2, _⟩ := h.made
  rw [h1, List.map_eq_nil_iff.1 h2, List.append_nil]

theorem one_does {bin : Option Str} {r : Rule} {e : Entry} {j : Job} {oo : List Pl}
    (h : One (world B bin) T r s e j s') (hoo : r.ooPaths = texts oo) (hI : Inv s)
    (hb : ∀ b, bin = some b → (find b s.bins).isSome) (hN : Numbered (known s.bins) B.reOk 1 oo) :
    ∃ m, s'.made = s.made ++ [m] ∧ m.job = j ∧ m.bin = bin ∧
      ∃ b b', Reads B s.made b oo (some m.job.inputs) m.job.oo b' := by
  cases h with
  | plain _ h1 h2 =>
    rw [hoo] at h1
    exact does_one rfl hI hN h1 rfl h2 rfl
  | bang _ _ h0 h1 h2 =>
    rw [hoo] at h1
    have st := Step.macroInputs h0
    exact does_one st.nothing (st.inv hI hb) (by rw [st.known]; exact hN) h1 rfl h2 rfl

theorem each_does {bin : Option Str} {r : Rule} {l : List Entry} {js : List Job} {oo : List Pl}
    (h : Each (world B bin) T r s l js s') (hoo : r.ooPaths = texts oo) (hI : Inv s)
    (hb : ∀ b, bin = some b → (find b s.bins).isSome) (hN : Numbered (known s.bins) B.reOk 1 oo) :
    ∃ new, s'.made = s.made ++ new ∧ new.map (·.job) = js ∧ (∀ m ∈ new, m.bin = bin) ∧
      ∀ k m, new[k]? = some m → ∃ b b', Reads B (s.made ++ new.take k) b oo (some m.job.inputs) m.job.oo b' := by
  induction h with
  | nil => exact ⟨[], by simp, rfl, by simp, by simp⟩
  | cons h1 _ ih =>
    have st := Step.one h1
    obtain ⟨m, hm1, hm2, hm3, hm4⟩ := one_does h1 hoo hI hb hN
    obtain ⟨new, h2, h3, h4, h5⟩ := ih (st.inv hI hb) (st.here hb) (by rw [st.known]; exact hN)
    refine ⟨m :: new, by rw [h2, hm1]; simp, by rw [List.map_cons, hm2, h3], ?_, ?_⟩
    · intro x hx
      rcases List.mem_cons.1 hx with rfl | hx
      · exact hm3
      · exact h4 x hx
    · intro k x hx
      cases k with
      | zero =>
        simp only [List.getElem?_cons_zero, Option.some.injEq] at hx
        subst hx
        simpa using hm4
      | succ k =>
        rw [List.getElem?_cons_succ] at hx
        obtain ⟨b, b', hr⟩ := h5 k x hx
        rw [hm1, List.append_assoc] at hr
        exact ⟨b, b', hr⟩

/-- All commands of a rule. -/
theorem does {bin : Option Str} {r : Rule} {js : List Job} {oo : List Pl}
    (h : Meaning (world B bin) T r s js s') (hoo : r.ooPaths = texts oo) (hI : Inv s)
    (hb : ∀ b, bin = some b → (find b s.bins).isSome) (hN : Numbered (known s.bins) B.reOk 1 oo) :
    ∃ new, s'.made = s.made ++ new ∧ new.map (·.job) = js ∧ (∀ m ∈ new, m.bin = bin) ∧
      ∀ k m, new[k]? = some m → ∃ b b', Reads B (s.made ++ new.take k) b oo (some m.job.inputs) m.job.oo b' := by
  have single : ∀ {j : Job}, (∃ m, s'.made = s.made ++ [m] ∧ m.job = j ∧ m.bin = bin ∧
      ∃ b b', Reads B s.made b oo (some m.job.inputs) m.job.oo b') →
      ∃ new, s'.made = s.made ++ new ∧ new.map (·.job) = [j] ∧ (∀ m ∈ new, m.bin = bin) ∧
      ∀ k m, new[k]? = some m → ∃ b b', Reads B (s.made ++ new.take k) b oo (some m.job.inputs) m.job.oo b' := by
    rintro j ⟨m, h1, h2, h3, h4⟩
    refine ⟨[m], h1, by simp [h2], by simpa using h3, ?_⟩
    intro k x hx
    cases k with
    | zero =>
      simp only [List.getElem?_cons_zero, Option.some.injEq] at hx
      subst hx
      simpa using h4
    | succ k => simp at hx
  cases h with
  | each _ _ h => exact each_does h hoo hI hb hN
  | plain _ _ _ _ h1 h2 =>
    rw [hoo] at h1
    exact single (does_one rfl hI hN h1 rfl h2 rfl)
  | bang _ _ _ _ h1 _ h2 h3 =>
    rw [hoo] at h1
    exact single (does_one rfl hI hN h1 (Step.macroInputs h2).nothing h3 rfl)
  | empty _ _ _ _ h1 _ h2 h3 =>
    rw [hoo] at h1
    exact single (does_one rfl hI hN h1 (Step.macroInputs h2).nothing h3 rfl)
  | nothing _ _ _ _ h =>
    obtain ⟨_, _, _, _, _, _, hm⟩ := resolve_some h
    exact ⟨[], by rw [hm]; simp, rfl, by simp, by simp⟩

/-! ### The property -/

/-- C78: behind any lines of a Tupfile there is a bin for exactly the names that a rule among them fills, and it
contains exactly what the commands of the rules with that name have put there, in that order. -/
theorem c78_contents {lines : List (Line σ)} (h : Reached B lines s) (b : Str) :
    ((find b s.bins).isSome ↔ Filled lines b) ∧ ∀ c, find b s.bins = some c → c.entries = Contents s.made b := by
  refine ⟨?_, h.inv.contents b⟩
  obtain ⟨T, base, h⟩ := h
  rw [(parse_inv lines T _ s h (inv_init base)).2.1 b]
  constructor
  · rintro (h | h)
    · cases h
    · exact h
  · exact .inr

/-- C78: nothing is ever taken out of a bin, and later rules only add behind what is there. -/
theorem c78_grow {lines : List (Line σ)} (h : Reached B lines s) {more : List (Line σ)}
    (hp : parse B more T s = .ok s') (b : Str) : Contents s.made b <+: Contents s'.made b := by
  obtain ⟨_, _, new, hn⟩ := parse_inv more T s s' hp h.inv
  rw [hn]
  unfold Contents
  rw [List.filter_append, List.flatMap_append]
  exact List.prefix_append _ _

/-- The rule makes one command for each of its inputs. -/
def ForeachText (T : Table) (t : Rules.RuleText) : Prop :=
  t.foreach_ = true ∨ (IsMacro t.command ∧ ∃ m, T t.command = some m ∧ m.foreach_ = true)

/-- C78: what a rule reads and what it fills.  The inputs are looked up among what the rules above it have made; a
rule with `foreach` makes a command for each of them, any other rule one for all of them together.  All its commands
belong to the bin that it names, and the order-only inputs of each command are looked up among what has been made
before that command. -/
theorem c78_rule {lines : List (Line σ)} (h : Reached B lines s) (hp : parseRule B T s p = .ok s') :
    ∃ t ins oo l new base, Rules.parseRule p = .ok t ∧
      optPaths (known (binsOf t s.bins)) B.reOk t.inputs = .ok ins ∧
      optPaths (known (binsOf t s.bins)) B.reOk t.orderOnly = .ok oo ∧
      Reads B s.made s.base ins none l base ∧
      s'.made = s.made ++ new ∧ (∀ m ∈ new, m.bin = t.bin) ∧
      (ForeachText T t → ∃ d, Distinct l d ∧ new.map (·.job.inputs.entries) = d.map fun e => [e]) ∧
      (¬ ForeachText T t → l ≠ [] ∨ t.emptyInput = true →
        ∃ m, new = [m] ∧ Distinct l m.job.inputs.entries) ∧
      (¬ ForeachText T t → l = [] → t.emptyInput = false →
        (IsMacro t.command → T (t.command ++ ".EMPTY".toList) = none) → new = []) ∧
      ∀ k m, new[k]? = some m → ∃ b b', Reads B (s.made ++ new.take k) b oo (some m.job.inputs) m.job.oo b' := by
  have hi := h.inv
  obtain ⟨q⟩ := parts hp
  have hm := q.meaning hi
  have hfresh : Fresh q.r := ⟨q.oo_eq, q.bangOo_eq, q.bangExtra_eq, by rw [q.inputs_eq]; exact q.run hi⟩
  have hI := hi.binsOf q.t q.base
  have hN : Numbered (known (binsOf q.t s.bins)) B.reOk 1 q.oo := optPaths_numbered q.ooPaths
  obtain ⟨new, h1, h2, h3, h4⟩ := does hm q.ooPaths_eq hI q.there hN
  have hfe : Foreach T q.r ↔ ForeachText T q.t := by
    unfold Foreach ForeachText
    rw [q.foreach_, q.command_eq]
  refine ⟨q.t, q.ins, q.oo, q.inputs.entries, new, q.base, q.text, q.insPaths, q.ooPaths, q.reads hi, h1, h3,
    fun hf => ?_, fun hf hne => ?_, fun hf hl he hempty => ?_, h4⟩
  · obtain ⟨d, hd, hj⟩ := c51_foreach _ T _ s' q.r q.js hfresh (hfe.2 hf) q.exec
    refine ⟨d, by rw [← q.inputs_eq]; exact hd, ?_⟩
    rw [← hj, ← h2, List.map_map]
    rfl
  · obtain ⟨j, hj, hd⟩ := c51_plain _ T _ s' q.r q.js hfresh (fun h => hf (hfe.1 h))
      (by rw [q.inputs_eq, q.emptyInput]; exact hne) q.exec
    rw [hj] at h2
    cases new with
    | nil => cases h2
    | cons m rest =>
      cases rest with
      | nil =>
        refine ⟨m, rfl, ?_⟩
        simp only [List.map_cons, List.map_nil, List.cons.injEq, and_true] at h2
        rw [h2, ← q.inputs_eq]
        exact hd
      | cons _ _ => simp at h2
  · have := c51_none _ T _ s' q.r q.js hfresh (by rw [q.inputs_eq]; exact hl) (by rw [q.emptyInput]; exact he)
      (by rw [q.command_eq]; exact hempty) q.exec
    rw [this] at h2
    exact List.map_eq_nil_iff.1 h2

/-- C78: a path `{b}` in the inputs or order-only inputs of an accepted rule names a bin that the rule itself or a
rule above it fills. -/
theorem c78_known {lines : List (Line σ)} (h : Reached B lines s) (hp : parseRule B T s p = .ok s')
    {t : Rules.RuleText} (ht : Rules.parseRule p = .ok t) {i : Option Str} (hio : i = t.inputs ∨ i = t.orderOnly)
    {l : List Pl} (hl : optPaths (known (binsOf t s.bins)) B.reOk i = .ok l) {x : Pl} (hx : x ∈ l) {b : Str}
    (hb : BinPath x.mem b) : x.kind = .bin b ∧ Filled (lines ++ [.rule p]) b := by
  have hk : PathList.newPl (known (binsOf t s.bins)) B.reOk x.mem = some x.kind :=
    numbered_kind (optPaths_numbered hl) hx
  rw [known, binPath_kind hb] at hk
  split at hk
  · rename_i hf
    refine ⟨(Option.some.inj hk).symm, ?_⟩
    rw [find_binsOf] at hf
    cases hs : find b s.bins with
    | some c =>
      obtain ⟨p', hp', hf'⟩ := (c78_contents h b).1.1 (by rw [hs]; rfl)
      exact ⟨p', List.mem_append_left _ hp', hf'⟩
    | none =>
      rw [hs] at hf
      simp only at hf
      split at hf
      · rename_i e
        exact ⟨p, by simp, t, ht, e⟩
      · cases hf
  · cases hk

theorem gathered_bins {made : List Made} {a b : σ} {qs : List Pl} {l : List Entry} (h : Gathered B made a qs l b) :
    ∀ bs : List Str, qs.map (·.kind) = bs.map PathList.Kind.bin →
      l.map (fun e => (⟨e.path, e.tent⟩ : BinEntry)) = bs.flatMap (Contents made) := by
  induction h with
  | nil =>
    intro bs h
    cases bs with
    | nil => rfl
    | cons _ _ => cases h
  | @bin pls l s' p n _ hk ih =>
    intro bs h
    rw [List.map_append] at h
    obtain ⟨bs1, bs2, rfl, h1, h2⟩ := List.append_eq_map_iff.1 h
    cases bs2 with
    | nil => cases h2
    | cons c rest =>
      cases rest with
      | cons _ _ => simp at h2
      | nil =>
        simp only [List.map_cons, List.map_nil, List.cons.injEq, and_true] at h2
        rw [hk] at h2
        cases h2
        rw [List.map_append, List.flatMap_append, ih bs1 h1.symm, List.map_map]
        simp only [List.flatMap_cons, List.flatMap_nil, List.append_nil]
        congr 1
        exact List.map_id _
  | @excl pls l s' p re _ hk ih =>
    intro bs h
    have : p.kind ∈ bs.map PathList.Kind.bin := by rw [← h]; simp
    obtain ⟨c, _, hc⟩ := List.mem_map.1 this
    rw [hk] at hc; cases hc
  | @file pls l s' p s'' new _ hk _ ih =>
    intro bs h
    have : p.kind ∈ bs.map PathList.Kind.bin := by rw [← h]; simp
    obtain ⟨c, _, hc⟩ := List.mem_map.1 this
    rcases hk with hk | hk <;> (rw [hk] at hc; cases hc)

theorem expands_same {a : σ} {nl : Option NameList} {ps qs : List Pl} (h : Expands B a nl ps qs)
    (hs : ∀ x ∈ ps, B.expand a nl x.mem = some x.mem) : qs = ps := by
  induction h with
  | nil => rfl
  | same _ _ ih => rw [ih fun x hx => hs x (List.mem_cons_of_mem _ hx)]
  | other h1 h2 =>
    have := hs _ List.mem_cons_self
    rw [h1] at this
    exact absurd (Option.some.inj this) h2

/-- C78: a rule whose inputs are the bins `bs` gets the contents of these bins, all of them, in order: a command for
each distinct one with `foreach`, otherwise one command for all, and none if the bins are empty. -/
theorem c78_taken {lines : List (Line σ)} (h : Reached B lines s) (hp : parseRule B T s p = .ok s')
    {t : Rules.RuleText} (ht : Rules.parseRule p = .ok t) {ins : List Pl}
    (hins : optPaths (known (binsOf t s.bins)) B.reOk t.inputs = .ok ins) {bs : List Str}
    (hbs : ins.map (·.kind) = bs.map .bin) (hs : ∀ x ∈ ins, B.expand s.base none x.mem = some x.mem) :
    ∃ l new, s'.made = s.made ++ new ∧
      l.map (fun e => (⟨e.path, e.tent⟩ : BinEntry)) = bs.flatMap (Contents s.made) ∧
      (ForeachText T t → ∃ d, Distinct l d ∧ new.map (·.job.inputs.entries) = d.map fun e => [e]) ∧
      (¬ ForeachText T t → l ≠ [] → ∃ m, new = [m] ∧ Distinct l m.job.inputs.entries) ∧
      (¬ ForeachText T t → ¬ IsMacro t.command → l = [] → t.emptyInput = false → new = []) := by
  obtain ⟨t', ins', oo, l, new, base, h1, h2, _, h4, h5, _, h7, h8, h9, _⟩ := c78_rule h hp
  rw [ht] at h1
  cases h1
  rw [hins] at h2
  cases h2
  refine ⟨l, new, h5, ?_, h7, fun a b => h8 a (.inl b), fun a b c d => h9 a c d fun e => absurd e b⟩
  cases h4 with
  | mk he _ hg =>
    rw [expands_same he hs] at hg
    exact gathered_bins hg bs hbs

/-- C78: a bin cannot come out of a variable: if the text of a path changes when it is expanded, no word of it
begins with a brace. -/
theorem c78_literal {lines : List (Line σ)} (h : Reached B lines s) (hp : parseRule B T s p = .ok s')
    {t : Rules.RuleText} (ht : Rules.parseRule p = .ok t) {ins : List Pl}
    (hins : optPaths (known (binsOf t s.bins)) B.reOk t.inputs = .ok ins) {x : Pl} (hx : x ∈ ins) {e : Str}
    (he : B.expand s.base none x.mem = some e) (hne : e ≠ x.mem) :
    ∃ ws, Words e ws ∧ ∀ q ∈ ws, q.head? ≠ some '{' := by
  obtain ⟨t', ins', oo, l, new, base, h1, h2, _, h4, _⟩ := c78_rule h hp
  rw [ht] at h1
  cases h1
  rw [hins] at h2
  cases h2
  cases h4 with
  | mk hE hd hg =>
    clear hins hd hg
    induction hE with
    | nil => cases hx
    | @same p ps qs h1 _ ih =>
      rcases List.mem_cons.1 hx with rfl | hx
      · rw [he] at h1
        exact absurd (Option.some.inj h1) hne
      · exact ih hx
    | @other p ps qs t new h1 h2 h3 h4 _ ih =>
      rcases List.mem_cons.1 hx with rfl | hx
      · rw [he] at h1
        cases h1
        refine ⟨_, h3, fun q hq => ?_⟩
        obtain ⟨y, hy, rfl⟩ := List.mem_map.1 hq
        exact (h4 y hy).2.1
      · exact ih hx

/-! ### Examples -/

/-- The number of a file in the examples. -/
def exNode (p : Str) : Nat := p.foldl (fun n c => 31 * n + c.toNat) 0

/-- Paths stand for themselves, and an output has the text of the rule appended to the name of the first input. -/
def exB : Base Unit where
  reOk := fun _ => true
  reMatch := fun re p => re.isPrefixOf p
  expand := fun _ _ t => some t
  depend := fun _ _ => some ()
  lookup := fun _ p => some ((), [pathEntry p.mem p.orderid (some (exNode p.mem))])
  outputs := fun _ j o _ => some ((), o.map fun x =>
    let path := (j.inputs.entries.map (·.path)).headD [] ++ x
    outputEntry path 0 (some (exNode path)))
  finish := fun _ _ _ _ => some ()

def exT : Table := fun _ => none

/-- Two objects and a library that is passed through; the last rule takes all but one. -/
def exLines : List (Line Unit) :=
  [.rule " foreach a.c b.c |> cc |> .o | .d {objs}".toList, .rule " lib.a |> |> {objs}".toList,
    .rule " {objs} ^b |> ld |> .exe".toList]

/-- What is seen of the result: the inputs and order-only inputs of the commands. -/
def exShow (r : PathList.Res (State Unit)) : Option (List (List String × List String)) :=
  match r with
  | .ok s => some (s.made.map fun m =>
      (m.job.inputs.entries.map fun e => String.ofList e.path, m.job.oo.map fun e => String.ofList e.path))
  | _ => none

theorem exLines_ok : exShow (parse exB exLines exT (init ())) =
    some [(["a.c"], []), (["b.c"], []), (["lib.a"], []), (["a.c.o", "lib.a"], [])] := by decide +kernel

/-- The state behind the first two lines of the example. -/
theorem ex_reached : ∃ s, Reached exB (exLines.take 2) s ∧
    Contents s.made "objs".toList = [⟨"a.c.o".toList, some (exNode "a.c.o".toList)⟩,
      ⟨"b.c.o".toList, some (exNode "b.c.o".toList)⟩, ⟨"lib.a".toList, some (exNode "lib.a".toList)⟩] := by
  have h : (match parse exB (exLines.take 2) exT (init ()) with
    | .ok s => Contents s.made "objs".toList
    | _ => []) = [⟨"a.c.o".toList, some (exNode "a.c.o".toList)⟩,
      ⟨"b.c.o".toList, some (exNode "b.c.o".toList)⟩, ⟨"lib.a".toList, some (exNode "lib.a".toList)⟩] := by
    decide +kernel
  cases hp : parse exB (exLines.take 2) exT (init ()) with
  | ok s => rw [hp] at h; exact ⟨s, ⟨exT, (), hp⟩, h⟩
  | err => rw [hp] at h; cases h
  | ub => rw [hp] at h; cases h

/-- The third line is accepted there, `{objs}` is a bin in it, and reads exactly these. -/
example : ∃ s s', Reached exB (exLines.take 2) s ∧
    parseRule exB exT s " foreach {objs} |> strip |> .s {stripped}".toList = .ok s' := by
  have h : (match parse exB (exLines.take 2) exT (init ()) with
    | .ok s => (exShow (parseRule exB exT s " foreach {objs} |> strip |> .s {stripped}".toList)).isSome
    | _ => false) = true := by decide +kernel
  cases hp : parse exB (exLines.take 2) exT (init ()) with
  | ok s =>
    rw [hp] at h
    simp only at h
    cases hq : parseRule exB exT s " foreach {objs} |> strip |> .s {stripped}".toList with
    | ok s' => exact ⟨s, s', ⟨exT, (), hp⟩, hq⟩
    | err => rw [hq] at h; cases h
    | ub => rw [hq] at h; cases h
  | err => rw [hp] at h; cases h
  | ub => rw [hp] at h; cases h

/-- C78: the order-only inputs of a rule with `foreach` may name the bin that the rule itself fills; then each
command waits for the outputs of those before it, while the inputs do not change under way. -/
theorem c78_own :
    exShow (parse exB [.rule " foreach a.c b.c | {x} |> cc |> .o {x}".toList] exT (init ())) =
      some [(["a.c"], []), (["b.c"], ["a.c.o"])] ∧
    exShow (parse exB [.rule " a |> |> {x}".toList, .rule " foreach {x} |> cc |> .o {x}".toList,
      .rule " {x} |> ld |> .l".toList] exT (init ())) =
      some [(["a"], []), (["a"], []), (["a", "a.o"], [])] := by decide +kernel

/-- C78: text behind the closing brace is ignored, and extra outputs are not put into the bin. -/
theorem c78_odd :
    exShow (parse exB [.rule " a |> cc |> .o | .d {x}".toList, .rule " {x}/y |> ld |> .l".toList] exT (init ())) =
      some [(["a"], []), (["a.o"], [])] := by decide +kernel

/-- An unknown bin is an error, and so is one that is filled only further down. -/
example : exShow (parse exB [.rule " {x} |> ld |> .l".toList, .rule " a |> cc |> .o {x}".toList] exT (init ())) =
    none := by decide +kernel

end Tup.Bins
