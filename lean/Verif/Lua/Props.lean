import Verif.Lua.Lemmas
import Verif.Lua.Heap
import Verif.Bins.Props

/-! C85: the rules of a Tupfile.lua. -/

namespace Tup.Lua

open Tup (Str)
open Tup.Bins (Base State)
open Tup.PathList (newPl Means Kind)

/-- C85: a rule of a Tupfile.lua does what the same rule does in a Tupfile: it has the same commands, inputs, outputs and bins, or both fail. -/
theorem c85_line {σ : Type} {B : Base σ} {T : Execute.Table} {s : State σ} {c : Call} (h : Comparable B s c) :
    Bins.parseRule B T s (line c) = match define B T s c with
      | some s' => .ok s'
      | none => .err := by
  have hin : ∀ w ∈ c.inputs, Plain w := fun w hw => (h.ins w (List.mem_append_left _ hw)).1
  have hei : ∀ w ∈ c.extraInputs, Plain w := fun w hw => (h.ins w (List.mem_append_right _ hw)).1
  have pl : ∀ w ∈ c.outputs ++ c.extraOutputs, Plain w ∧ w.head? ≠ some '{' := by
    intro w hw
    obtain ⟨p, _, k, hk⟩ := h.outs w hw
    exact ⟨p, means_none_head hk⟩
  obtain ⟨xi, xoo, xo, xeo, hparse, wi, woo, wo, weo⟩ := parse_line hin hei (fun w hw => pl w (List.mem_append_left _ hw)) (fun w hw => pl w (List.mem_append_right _ hw))
    h.tight h.bar h.bang h.bin h.each h.notEach
  let kin : Str → Kind := fun w => (newPl (Bins.known s.bins) B.reOk w).getD .file
  let kout : Str → Kind := fun w => (newPl none B.reOk w).getD .file
  have hkin : ∀ w ∈ c.inputs ++ c.extraInputs, Means (Bins.known s.bins) B.reOk w (kin w) := by
    intro w hw
    obtain ⟨_, _, k, hk⟩ := h.ins w hw
    have := (PathList.c04_kinds w k).mpr hk
    show Means _ _ _ ((newPl _ _ w).getD _)
    rw [this]; exact hk
  have hkout : ∀ w ∈ c.outputs ++ c.extraOutputs, Means none B.reOk w (kout w) := by
    intro w hw
    obtain ⟨_, _, k, hk⟩ := h.outs w hw
    have := (PathList.c04_kinds w k).mpr hk
    show Means _ _ _ ((newPl _ _ w).getD _)
    rw [this]; exact hk
  have li : ∀ l : List Str, (∀ w ∈ l, Plain w) → ∀ w ∈ l, w.length < PathList.pathMax := fun l hl w hw => (hl w hw).len
  -- what a Tupfile reads
  have key : ∀ bins : List Bins.Bin, (∀ w k, Means (Bins.known s.bins) B.reOk w k → Means (Bins.known bins) B.reOk w k) →
      Bins.optPaths (Bins.known bins) B.reOk xoo = .ok (PathList.numbered kin 1 c.extraInputs) ∧ Bins.optPaths (Bins.known bins) B.reOk xi = .ok (PathList.numbered kin 1 c.inputs) := by
    intro bins hb
    exact ⟨optPaths_written woo kin (fun w hw => (PathList.c04_kinds w _).mpr (hb w _ (hkin w (List.mem_append_right _ hw)))) (li _ hei),
      optPaths_written wi kin (fun w hw => (PathList.c04_kinds w _).mpr (hb w _ (hkin w (List.mem_append_left _ hw)))) (li _ hin)⟩
  have ko : Bins.optPaths none B.reOk (some xo) = .ok (PathList.numbered kout 1 c.outputs) :=
    optPaths_written (x := some xo) wo kout (fun w hw => (PathList.c04_kinds w _).mpr (hkout w (List.mem_append_left _ hw))) fun w hw => (pl w (List.mem_append_left _ hw)).1.len
  have keo : Bins.optPaths none B.reOk xeo = .ok (PathList.numbered kout 1 c.extraOutputs) :=
    optPaths_written weo kout (fun w hw => (PathList.c04_kinds w _).mpr (hkout w (List.mem_append_right _ hw))) fun w hw => (pl w (List.mem_append_right _ hw)).1.len
  -- what a Tupfile.lua reads
  have p1 : paths B s 1 c.inputs = some (PathList.numbered kin 1 c.inputs) :=
    paths_numbered B s kin _ _ fun w hw => ⟨(h.ins w (List.mem_append_left _ hw)).2.1, (PathList.c04_kinds w _).mpr (hkin w (List.mem_append_left _ hw))⟩
  have p2 : paths B s 1 c.extraInputs = some (PathList.numbered kin 1 c.extraInputs) :=
    paths_numbered B s kin _ _ fun w hw => ⟨(h.ins w (List.mem_append_right _ hw)).2.1, (PathList.c04_kinds w _).mpr (hkin w (List.mem_append_right _ hw))⟩
  have p3 : paths B s 1 c.outputs = some (PathList.numbered kout 1 c.outputs) :=
    paths_numbered B s kout _ _ fun w hw => ⟨(h.outs w (List.mem_append_left _ hw)).2.1, (PathList.c04_kinds w _).mpr (means_none (hkout w (List.mem_append_left _ hw)))⟩
  have p4 : paths B s 1 c.extraOutputs = some (PathList.numbered kout 1 c.extraOutputs) :=
    paths_numbered B s kout _ _ fun w hw => ⟨(h.outs w (List.mem_append_right _ hw)).2.1, (PathList.c04_kinds w _).mpr (means_none (hkout w (List.mem_append_right _ hw)))⟩
  have hex : ∀ w ∈ c.inputs, B.expand s.base none w = some w := fun w hw => (h.ins w (List.mem_append_left _ hw)).2.1
  have emp : ∀ l : List Str, decide (PathList.numbered kin 1 l = []) = decide (l = []) := by
    intro l
    cases l <;> simp [PathList.numbered]
  unfold Bins.parseRule define
  rw [hparse, p1, p2, p3, p4]
  dsimp only
  cases hb : c.bin with
  | none =>
    have hK := key s.bins fun _ _ h => h
    dsimp only
    rw [hK.1, hK.2]
    dsimp only
    unfold Bins.toNames
    rw [evalPaths_numbered B s.base kin c.inputs 1 hex]
    dsimp only
    cases hd : B.depend s.base (PathList.numbered kin 1 c.inputs) with
    | none => rfl
    | some base =>
      dsimp only
      cases hg : Bins.getNames B (s.bins) (PathList.numbered kin 1 c.inputs) base .empty with
      | none => rfl
      | some r =>
        dsimp only
        rw [keo]
        dsimp only
        rw [ko]
        dsimp only
        rw [emp]
        generalize Execute.execute _ T _ _ = q
        cases q with
        | none => rfl
        | some q => rfl
  | some b =>
    have hK := key (Bins.add b s.bins) fun _ _ h => means_add h
    dsimp only
    rw [hK.1, hK.2]
    dsimp only
    unfold Bins.toNames
    rw [evalPaths_numbered B s.base kin c.inputs 1 hex]
    dsimp only
    cases hd : B.depend s.base (PathList.numbered kin 1 c.inputs) with
    | none => rfl
    | some base =>
      dsimp only
      cases hg : Bins.getNames B (Bins.add b s.bins) (PathList.numbered kin 1 c.inputs) base .empty with
      | none => rfl
      | some r =>
        dsimp only
        rw [keo]
        dsimp only
        rw [ko]
        dsimp only
        rw [emp]
        generalize Execute.execute _ T _ _ = q
        cases q with
        | none => rfl
        | some q => rfl

/-- C85: a call that is accepted has one of the four forms. -/
theorem c85_forms {addr : Nat → Str} {fe : Bool} {h : Heap} {a b c : Val} {r : Heap × Call} (e : rule addr fe h a b c = some r) : ∃ i s o, Form a b c i s o := by
  unfold rule at e
  cases c with
  | nil =>
    cases b with
    | nil =>
      cases a with
      | str s => exact ⟨_, _, _, .command⟩
      | _ => cases e
    | str s =>
      cases a with
      | ref i => exact ⟨_, _, _, .noOutputs⟩
      | _ => cases e
    | ref o =>
      cases a with
      | str s => exact ⟨_, _, _, .noInputs⟩
      | _ => cases e
    | _ => cases a <;> cases e
  | _ =>
    cases b with
    | str s => exact ⟨_, _, _, .three (by simp)⟩
    | _ => cases a <;> cases e

/-- C85: a call of one of the four forms defines the rule that its arguments stand for; of the tables that there were, only those in the arguments are changed: the inputs lose `extra_inputs`, the outputs lose `extra_outputs` and `bin`. -/
theorem c85_call {addr : Nat → Str} {h : Heap} {a b c i o : Val} {call : Call} (f : Form a b c i call.command o) (st : Stands h i o call) :
    ∃ h' : Heap, rule addr call.foreach_ h a b c = some (h', call) ∧ ∀ (j : Nat) (t : Tab), h[j]? = some t → h'[j]? = some (strip (taken i o j) t) := rule_spec f st

/-- Taking fields away twice is taking them away once. -/
theorem stands_again {h h' : Heap} {i o : Val} {call : Call} (st : Stands h i o call) (k : ∀ (j : Nat) (t : Tab), h[j]? = some t → h'[j]? = some (strip (taken i o j) t)) :
    Stands h' i o { call with extraInputs := [], extraOutputs := [], bin := none } := by
  have arg : ∀ {v : Val} {n l : List Str}, Arg h v n l → Arg h' v n l := by
    intro v n l ha
    rcases ha with ha | ha | ⟨j, t, e, ht, h1, h2⟩
    · exact .inl ha
    · exact .inr (.inl ha)
    · exact .inr (.inr ⟨j, _, e, k j t ht, h1, fun x hx => h2 x (List.mem_filter.mp hx).1⟩)
  have gone : ∀ {v : Val} {n l : List Str} {q : Str}, Arg h v n l → (∀ j, v = .ref j → q ∈ taken i o j) → fieldOf h' v q = .nil := by
    intro v n l q ha hq
    rcases ha with ⟨rfl, _⟩ | ⟨w, rfl, _⟩ | ⟨j, t, rfl, ht, _⟩
    · rfl
    · rfl
    · show get h' j q = .nil
      rw [get_of (k j t ht), field_strip, if_pos (hq j rfl)]
  refine ⟨arg st.ins, .inl ⟨gone st.ins fun j e => ?_, rfl⟩, arg st.outs, .inl ⟨gone st.outs fun j e => ?_, rfl⟩, .inl ⟨gone st.outs fun j e => ?_, rfl⟩⟩
  · rw [e]; simp [taken]
  · rw [e]; simp [taken]
  · rw [e]; simp [taken]

/-- C85: the second of two calls with the same tables has no extra inputs, no extra outputs and no bin. -/
theorem c85_again {addr : Nat → Str} {h : Heap} {a b c i o : Val} {call : Call} (f : Form a b c i call.command o) (st : Stands h i o call) :
    ∃ h' h'' : Heap, rule addr call.foreach_ h a b c = some (h', call) ∧
      rule addr call.foreach_ h' a b c = some (h'', { call with extraInputs := [], extraOutputs := [], bin := none }) := by
  obtain ⟨h', e, k⟩ := rule_spec (addr := addr) f st
  obtain ⟨h'', e', _⟩ := rule_spec (addr := addr) (call := { call with extraInputs := [], extraOutputs := [], bin := none }) f (stands_again st k)
  exact ⟨h', h'', e, e'⟩

/-- C85: the bin that a rule fills is not known to its own inputs: it has to be there already. -/
theorem c85_own_bin {σ : Type} {B : Base σ} {T : Execute.Table} {s s' : State σ} {c : Call} (h : define B T s c = some s') {b : Str} (hb : '}' ∉ b)
    (hw : ('{' :: b ++ ['}']) ∈ c.inputs ++ c.extraInputs) (he : B.expand s.base none ('{' :: b ++ ['}']) = some ('{' :: b ++ ['}'])) :
    (Bins.find b s.bins).isSome = true := by
  have key : ∀ (l : List Str) (n : Nat) (r : List Bins.Pl), paths B s n l = some r → ('{' :: b ++ ['}']) ∈ l → (Bins.find b s.bins).isSome = true := by
    intro l
    induction l with
    | nil => intro n r _ hm; cases hm
    | cons w l ih =>
      intro n r hp hm
      unfold paths at hp
      rcases List.mem_cons.mp hm with rfl | hm
      · rw [he] at hp
        dsimp only at hp
        cases hk : newPl (Bins.known s.bins) B.reOk ('{' :: b ++ ['}']) with
        | none => rw [hk] at hp; cases hp
        | some k =>
          have := (PathList.c04_kinds _ k).mp hk
          generalize hw' : ('{' :: b ++ ['}']) = w at this
          cases this with
          | @bin bl name rest h1 h2 h3 =>
            have : b ++ ['}'] = name ++ '}' :: rest := by
              have := (List.cons.inj (show '{' :: (b ++ ['}']) = '{' :: (name ++ '}' :: rest) from hw')).2
              exact this
            have e1 := strchr_append (c := '}') (a := b) (b := []) hb
            have e2 := strchr_append (c := '}') (a := name) (b := rest) h2
            rw [this, e2] at e1
            have := (Prod.mk.inj (Option.some.inj e1)).1
            subst this
            cases h1
            exact h3
          | excl _ => cases hw'
          | group a _ _ _ => subst hw'; exact absurd rfl a
          | file a _ _ => subst hw'; exact absurd rfl a
      · cases h1 : B.expand s.base none w with
        | none => rw [h1] at hp; cases hp
        | some t =>
          rw [h1] at hp
          dsimp only at hp
          cases h2 : newPl (Bins.known s.bins) B.reOk t with
          | none => rw [h2] at hp; cases hp
          | some k =>
            rw [h2] at hp
            dsimp only at hp
            cases h3 : paths B s (n + 1) l with
            | none => rw [h3] at hp; cases hp
            | some r => exact ih _ _ h3 hm
  unfold define at h
  cases h1 : paths B s 1 c.inputs with
  | none => rw [h1] at h; cases h
  | some p1 =>
    cases h2 : paths B s 1 c.extraInputs with
    | none => rw [h1, h2] at h; cases h
    | some p2 =>
      rcases List.mem_append.mp hw with hw | hw
      · exact key _ _ _ h1 hw
      · exact key _ _ _ h2 hw

/-! ### Examples and differences -/

/-- `tup.foreach_rule({'a.c', 'b.c', extra_inputs = 'x.h'}, 'cc', {'.o', extra_outputs = {'.d'}, bin = '{objs}'})`: the inputs are at 0, the outputs at 1, the extra outputs at 2. -/
def exHeap : Heap :=
  [{ arr := [.str "a.c".toList, .str "b.c".toList], fields := [(xIn, .str "x.h".toList)] },
    { arr := [.str ".o".toList], fields := [(xOut, .ref 2), (kBin, .str "{objs}".toList)] },
    { arr := [.str ".d".toList] }]

def exCall : Call :=
  { inputs := ["a.c".toList, "b.c".toList], extraInputs := ["x.h".toList], outputs := [".o".toList], extraOutputs := [".d".toList], bin := some "objs".toList, command := "cc".toList, foreach_ := true }

/-- The arguments stand for the rule, the rule can be written in a Tupfile, and this is how. -/
theorem exStands : Stands exHeap (.ref 0) (.ref 1) exCall where
  ins := .inr (.inr ⟨0, _, rfl, rfl, rfl, by decide⟩)
  extraIns := .inr (.inl ⟨_, rfl, rfl⟩)
  outs := .inr (.inr ⟨1, _, rfl, rfl, rfl, by decide⟩)
  extraOuts := .inr (.inr ⟨2, _, rfl, rfl, rfl, by decide⟩)
  bin := .inr ⟨_, rfl, by decide⟩

theorem plain_of {w : Str} (h : (w ≠ [] ∧ (∀ c ∈ w, isSpace c = false ∧ c ≠ '\\' ∧ c ≠ '"' ∧ c ≠ '|')) ∧ w.length < 4096) : Plain w := ⟨h.1.1, h.1.2, h.2⟩

theorem exComparable : Comparable Bins.exB (Bins.init ()) exCall where
  ins := by
    intro w hw
    have : w = "a.c".toList ∨ w = "b.c".toList ∨ w = "x.h".toList := by simpa [exCall] using hw
    rcases this with rfl | rfl | rfl <;> exact ⟨plain_of (by decide), rfl, .file, .file (by decide) (by decide) (by decide)⟩
  outs := by
    intro w hw
    have : w = ".o".toList ∨ w = ".d".toList := by simpa [exCall] using hw
    rcases this with rfl | rfl <;> exact ⟨plain_of (by decide), rfl, .file, .file (by decide) (by decide) (by decide)⟩
  tight := ⟨by intro c hc; cases hc; rfl, by intro c hc; cases hc; rfl⟩
  bar := strstr_none.mp (by decide)
  bang := by intro h; cases h
  bin := by intro b hb; cases hb; decide
  each := by decide
  notEach := by intro h; cases h

example : line exCall = " foreach a.c b.c | x.h |> cc |> .o | .d {objs}".toList ∧
    (∃ h', rule (fun _ => []) true exHeap (.ref 0) (.str "cc".toList) (.ref 1) = some (h', exCall)) ∧
    (∃ s', define Bins.exB Bins.exT (Bins.init ()) exCall = some s' ∧ Bins.exShow (.ok s') = some [(["a.c"], ["x.h"]), (["b.c"], ["x.h"])]) := by
  refine ⟨by decide, ?_, ?_⟩
  · obtain ⟨h', e, _⟩ := c85_call (addr := fun _ => []) (a := .ref 0) (b := .str "cc".toList) (c := .ref 1) (call := exCall) (.three (by simp)) exStands
    exact ⟨h', e⟩
  · have h : (match define Bins.exB Bins.exT (Bins.init ()) exCall with
      | some s' => decide (Bins.exShow (.ok s') = some [(["a.c"], ["x.h"]), (["b.c"], ["x.h"])])
      | none => false) = true := by decide +kernel
    cases hd : define Bins.exB Bins.exT (Bins.init ()) exCall with
    | none => rw [hd] at h; cases h
    | some s' => rw [hd] at h; exact ⟨s', rfl, of_decide_eq_true h⟩

/-- Nothing is found for `*.c`. -/
def exNone : Base Unit := { Bins.exB with lookup := fun _ p => if p.mem = "*.c".toList then some ((), []) else Bins.exB.lookup () p }

def exPlain (ins : List Str) (bin : Option Str) (cmd : Str) : Call :=
  { inputs := ins, extraInputs := [], outputs := ["out".toList], extraOutputs := [], bin := bin, command := cmd, foreach_ := false }

/-- `c85_own_bin`: a rule that fills the bin it has as input is an error; once another rule has filled the bin it is not. -/
example : define Bins.exB Bins.exT (Bins.init ()) (exPlain ["{objs}".toList] (some "objs".toList) "ld".toList) = none ∧
    ((define Bins.exB Bins.exT (Bins.init ()) exCall).bind fun s => define Bins.exB Bins.exT s (exPlain ["{objs}".toList] (some "objs".toList) "ld".toList)).isSome = true := by
  refine ⟨?_, by decide +kernel⟩
  cases h : define Bins.exB Bins.exT (Bins.init ()) (exPlain ["{objs}".toList] (some "objs".toList) "ld".toList) with
  | none => rfl
  | some s' => exact absurd (c85_own_bin h (b := "objs".toList) (by decide) (by decide) rfl) (by decide)

/-- What is seen of the result of a rule. -/
def exSee (r : Option (State Unit)) : Option (List (List String × String)) :=
  r.map fun s => s.made.map fun m => (m.job.inputs.entries.map fun e => String.ofList e.path, String.ofList m.job.command)

def exTup (T : Execute.Table) (l : String) : Option (List (List String × String)) :=
  match Bins.parseRule exNone T (Bins.init ()) l.toList with
  | .ok s => exSee (some s)
  | _ => none

/-- One macro, `!m`. -/
def exMacro : Execute.Table := fun n => if n = "!m".toList then some ⟨false, none, "cc".toList, [], []⟩ else none

/-- C85: where the two differ.  A pattern that nothing matches: in a Tupfile there is no command; in a Tupfile.lua there is none if the pattern is the input, but a command without inputs if the input is the empty list that
`tup.glob` gave for it.  A string with a blank is one path, where a Tupfile has two.  A macro cannot have arguments.  And a rule cannot take the bin that it is the first to fill. -/
theorem c85_differences :
    exTup Bins.exT " *.c |> cc |> out" = some [] ∧
    exSee (define exNone Bins.exT (Bins.init ()) (exPlain ["*.c".toList] none "cc".toList)) = some [] ∧
    exSee (define exNone Bins.exT (Bins.init ()) (exPlain [] none "cc".toList)) = some [([], "cc")] ∧
    exTup Bins.exT " a b |> cc |> out" = some [(["a", "b"], "cc")] ∧
    exSee (define exNone Bins.exT (Bins.init ()) (exPlain ["a b".toList] none "cc".toList)) = some [(["a b"], "cc")] ∧
    (exTup Bins.exT " {b} a |> cc |> out {b}") = some [(["a"], "cc")] ∧
    exSee (define exNone Bins.exT (Bins.init ()) (exPlain ["{b}".toList, "a".toList] (some "b".toList) "cc".toList)) = none ∧
    exTup exMacro " a |> !m -O |> out" = some [(["a"], "cc")] ∧
    exSee (define exNone exMacro (Bins.init ()) (exPlain ["a".toList] none "!m".toList)) = some [(["a"], "cc")] ∧
    exSee (define exNone exMacro (Bins.init ()) (exPlain ["a".toList] none "!m -O".toList)) = none := by
  refine ⟨?_, ?_, ?_, ?_, ?_, ?_, ?_, ?_, ?_, ?_⟩ <;> decide +kernel

end Tup.Lua
