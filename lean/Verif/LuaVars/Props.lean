import Verif.LuaVars.Lemmas

/-! Property theorems for C86. -/

namespace Tup.LuaVars

open Tup (Str)
open Tup.Lua (Val Heap Tab)

variable {α : Type}

/-- **C86 (what is read).** Tupfiles that are parsed one after the other, each of which may have others parsed at any depth, all run, and read what `readsAll` says: a variable is that of the Tupfile itself, which starts with none and which no other
one touches, or else the common one.  At the end no Tupfile is left on the stack. -/
theorem c86_reads (env : α) (l : List (Script α)) (g : Vars α) :
    ∃ s', runAll env l (init g) = some (s', readsAll env l ⟨g, fun _ => none⟩) ∧ s'.tupvars = [] := by
  obtain ⟨s', h, t, _⟩ := runAll_spec env l (init g) rfl
  exact ⟨s', h, t⟩

/-- Two variables for the examples. -/
def x : Str := "x".toList
def y : Str := "y".toList

/-- `x = 1`, another Tupfile has `x = 2; y = 3` and in the middle a third one; then `x` and `y` are read. -/
def nested : Script Nat :=
  .set x (some 1) (.other (.set x (some 2) (.other (.set x (some 7) (.get x .done)) (.set y (some 3) (.get x .done)))) (.get x (.get y (.getVar x .done))))

example : (runAll 0 [nested, .get x .done] (init fun _ => none)).map (·.2) = some [[some 1, none, some 1], [none]] := by decide +kernel

/-- **C86 (privacy).** If the Tupfiles that come before, and those that are parsed in its middle, only read and assign variables, a Tupfile reads what it reads when it is the only one. -/
theorem c86_private (env : α) (l m : List (Script α)) (p : Script α) (g : Vars α) {s s1 : St α} {out : List (List (Option α))} {o : List (List (Option α))}
    (hl : ∀ q, q ∈ l → Clean q) (hp : OthersClean p) (hr : ∀ k, NoRaw k p)
    (h : runAll env (l ++ p :: m) (init g) = some (s, out)) (h1 : runAll env [alone p] (init g) = some (s1, o)) :
    ∃ v, o = [v] ∧ out[l.length]? = some v := by
  obtain ⟨s', e, _, _⟩ := runAll_spec env (l ++ p :: m) (init g) rfl
  obtain ⟨s2, e2, _, _⟩ := runAll_spec env [alone p] (init g) rfl
  rw [h] at e
  rw [h1] at e2
  have eo : out = readsAll env (l ++ p :: m) (shared (init g)) := congrArg Prod.snd (Option.some.inj e)
  have eo2 : o = readsAll env [alone p] (shared (init g)) := congrArg Prod.snd (Option.some.inj e2)
  have hg : ∀ k, (shared (init g)).environ k = none := fun _ => rfl
  refine ⟨_, eo2, ?_⟩
  have len : ∀ (l : List (Script α)) (g : Shared α), (readsAll env l g).length = l.length := by
    intro l
    induction l with
    | nil => exact fun _ => rfl
    | cons p l ih => exact fun g => congrArg (· + 1) (ih _)
  rw [eo, readsAll_append, leavesAll_clean l _ hl hg, List.getElem?_append_right (by rw [len]; exact Nat.le_refl _), len, Nat.sub_self]
  show some (reads env p _ _) = _
  rw [reads_alone env hp hr _ _ hg]

example : OthersClean nested ∧ (∀ k, NoRaw k nested) ∧ Clean nested := ⟨⟨⟨trivial, trivial⟩, trivial⟩, fun _ => ⟨⟨trivial, trivial⟩, trivial⟩, ⟨⟨trivial, trivial⟩, trivial⟩⟩

example : (runAll 0 [.set y (some 9) .done, nested] (init fun _ => none)).map (·.2) = some [[], [some 1, none, some 1]]
    ∧ (runAll 0 [alone nested] (init fun _ => none)).map (·.2) = some [[some 1, none, some 1]] := by
  refine ⟨?_, ?_⟩ <;> decide +kernel

/-- **C86 (the last assignment).** The value that a Tupfile has assigned is the one that it reads later, whatever other Tupfiles do in the meantime, as long as nobody uses `rawset` on that variable and it is not `_G`. -/
theorem c86_last_set (env : α) (l : List (Script α)) (p q : Script α) (g : Vars α) (k : Str) (v : α) {s : St α} {out : List (List (Option α))}
    (hl : ∀ q, q ∈ l → NoRaw k q) (hp : NoRaw k p) (hq : NoRaw k q) (own : Leaves k q) (hk : k ≠ "_G".toList)
    (h : runAll env (l ++ [andThen p (.set k (some v) (andThen q (.get k .done)))]) (init g) = some (s, out)) :
    ∃ o, out.getLast? = some o ∧ o.getLast? = some (some v) := by
  obtain ⟨s', e, _, _⟩ := runAll_spec env (l ++ [andThen p (.set k (some v) (andThen q (.get k .done)))]) (init g) rfl
  rw [h] at e
  have eo := congrArg Prod.snd (Option.some.inj e)
  dsimp only at eo
  rw [readsAll_append] at eo
  refine ⟨reads env (andThen p (.set k (some v) (andThen q (.get k .done)))) (leavesAll l (shared (init g))) (fun _ => none), ?_, ?_⟩
  · rw [eo]
    exact List.getLast?_concat
  · have e1 : (leavesAll l (shared (init g))).environ k = none := leavesAll_noRaw l _ hl rfl
    generalize leavesAll l (shared (init g)) = g1 at e1
    have e2 := leaves_noRaw hp g1 e1
    rw [reads_andThen]
    generalize leaves p g1 = g2 at e2
    generalize keeps p g1 (fun _ => none) = own2
    simp only [reads]
    rw [if_neg (by rw [e2]; simp), reads_andThen]
    simp only [reads]
    have e3 := leaves_noRaw hq g2 e2
    rw [if_neg (by rw [e3]; simp), if_neg hk, keeps_leaves own, upd_self, if_pos (by simp), ← List.append_assoc]
    exact List.getLast?_concat

example : (runAll 0 ([.set x (some 5) .done] ++ [andThen (.get x .done) (.set x (some 1) (andThen (.other (.set x (some 2) .done) (.set y (some 3) .done)) (.get x .done)))]) (init fun _ => none)).map (·.2)
    = some [[], [none, some 1]] := by decide +kernel

/-- **C86 (what is not assigned).** A variable that the Tupfile has not assigned, and that nobody has put into what is common, is the one that Lua or tup has defined, or nil: whatever the Tupfiles before have assigned to it. -/
theorem c86_unset (env : α) (l : List (Script α)) (p : Script α) (g : Vars α) (k : Str) {s : St α} {out : List (List (Option α))}
    (hl : ∀ q, q ∈ l → Quiet k q) (hp : Quiet k p) (own : Leaves k p) (hk : k ≠ "_G".toList)
    (h : runAll env (l ++ [andThen p (.get k .done)]) (init g) = some (s, out)) :
    ∃ o, out.getLast? = some o ∧ o.getLast? = some (g k) := by
  obtain ⟨s', e, _, _⟩ := runAll_spec env (l ++ [andThen p (.get k .done)]) (init g) rfl
  rw [h] at e
  have eo := congrArg Prod.snd (Option.some.inj e)
  dsimp only at eo
  rw [readsAll_append] at eo
  refine ⟨reads env (andThen p (.get k .done)) (leavesAll l (shared (init g))) (fun _ => none), ?_, ?_⟩
  · rw [eo]
    exact List.getLast?_concat
  · have e1 : (leavesAll l (shared (init g))).environ k = none := leavesAll_noRaw l _ (fun q hq => (hl q hq).noRaw) rfl
    have e4 : (leavesAll l (shared (init g))).globals k = g k := leavesAll_quiet l _ hl
    generalize leavesAll l (shared (init g)) = g1 at e1 e4
    have e2 := leaves_noRaw hp.noRaw g1 e1
    rw [reads_andThen]
    simp only [reads]
    rw [if_neg (by rw [e2]; simp), if_neg hk, keeps_leaves own, if_neg (by simp), leaves_quiet hp, e4]
    exact List.getLast?_concat

example : (runAll 0 ([.set x (some 5) .done] ++ [andThen (.set y (some 2) (.other (.set x (some 2) .done) .done)) (.get x .done)]) (init fun k => if k = x then some 8 else none)).map (·.2)
    = some [[], [some 8]] := by decide +kernel

/-- **C86 (what leaks).** `tup.import` gives the Tupfile the words (1), and every Tupfile behind it the text (2) though that has not imported the variable; so do `rawset(_G, …)`, which even hides the Tupfile's own variable, and `tup.ext` with `match`. -/
theorem c86_leaks :
    (runAll 0 [.import_ x (some 1) (some 2) (.get x .done), .get x .done] (init fun _ => none)).map (·.2) = some [[some 1], [some 2]]
    ∧ (runAll 0 [.rawset x (some 3) .done, .set x (some 4) (.get x (.getVar x .done)), .get x .done] (init fun _ => none)).map (·.2) = some [[], [some 4, none], [some 4]]
    ∧ (runAll 0 [.ext (some 5) .done, .get "match".toList .done] (init fun _ => none)).map (·.2) = some [[], [some 5]] := by
  refine ⟨?_, ?_, ?_⟩ <;> decide +kernel

/-! ### `+=` -/

/-- **C86 (`+=`).** The result is a list of the elements of the left side and then those of the right side; it is the left side itself if that is a table, which keeps its fields, and a new table otherwise; no other table changes. -/
theorem c86_append {h : Heap} {a b : Val} {la lb : List Val} (ha : Elems h a la) (hb : Elems h b lb) :
    ∃ (h' : Heap) (i : Nat) (t : Tab), append h a b = some (h', .ref i) ∧ h'[i]? = some t ∧ t.arr = la ++ lb ∧ t.joins = true
      ∧ (∀ j, j ≠ i → j < h.length → h'[j]? = h[j]?)
      ∧ ((a = .ref i ∧ (h[i]?).map (·.fields) = some t.fields ∧ h'.length = h.length) ∨ ((∀ j, a ≠ .ref j) ∧ i = h.length ∧ t.fields = [] ∧ h'.length = h.length + 1)) := by
  have main : ∀ (h1 : Heap) (i : Nat) (t : Tab), appendTo h a = some (h1, i) → h1[i]? = some t → t.arr = la → (∀ j, j < h.length → h1[j]? = h[j]?) →
      ∃ h' t', append h a b = some (h', .ref i) ∧ h'[i]? = some t' ∧ t'.arr = la ++ lb ∧ t'.joins = true ∧ (∀ j, j ≠ i → j < h.length → h'[j]? = h[j]?) ∧ t'.fields = t.fields ∧ h'.length = h1.length := by
    intro h1 i t e1 e2 e3 e4
    have e5 : appended h1 b = some lb := by
      rcases hb with ⟨rfl, rfl⟩ | ⟨s, rfl, rfl⟩ | ⟨j, u, rfl, hj, rfl⟩
      · rfl
      · rfl
      · have := (List.getElem?_eq_some_iff.mp hj).1
        show (h1[j]?).map _ = _
        rw [e4 j this, hj]
        rfl
    have il := (List.getElem?_eq_some_iff.mp e2).1
    refine ⟨h1.set i { t with arr := t.arr ++ lb, joins := true }, { t with arr := t.arr ++ lb, joins := true }, ?_, List.getElem?_set_self il, by rw [← e3], rfl, fun j hj hl => ?_, rfl, List.length_set⟩
    · unfold append
      rw [e1]
      dsimp only
      rw [e5, e2]
    · rw [List.getElem?_set_ne (Ne.symm hj), e4 j hl]
  rcases ha with ⟨rfl, rfl⟩ | ⟨s, rfl, rfl⟩ | ⟨i, t, rfl, hi, e⟩
  · obtain ⟨h', t', r1, r2, r3, r4, r5, r6, r7⟩ := main (h ++ [{}]) h.length {} rfl (by simp) rfl (fun j hj => List.getElem?_append_left hj)
    exact ⟨h', _, t', r1, r2, r3, r4, r5, Or.inr ⟨fun j e => (by cases e), rfl, r6, by simpa using r7⟩⟩
  · obtain ⟨h', t', r1, r2, r3, r4, r5, r6, r7⟩ := main (h ++ [{ arr := [.str s] }]) h.length _ rfl List.getElem?_concat_length rfl (fun j hj => List.getElem?_append_left hj)
    exact ⟨h', _, t', r1, r2, r3, r4, r5, Or.inr ⟨fun j e => (by cases e), rfl, r6, by simpa using r7⟩⟩
  · obtain ⟨h', t', r1, r2, r3, r4, r5, r6, r7⟩ := main h i t rfl hi e (fun _ _ => rfl)
    exact ⟨h', _, t', r1, r2, r3, r4, r5, Or.inl ⟨rfl, by rw [hi, r6]; rfl, r7⟩⟩

/-- A table with two elements. -/
def two : Heap := [{ arr := [.str x, .str y] }]

example : Elems two (.ref 0) [.str x, .str y] ∧ Elems two (.str x) [.str x] := ⟨Or.inr (Or.inr ⟨0, _, rfl, rfl, rfl⟩), Or.inr (Or.inl ⟨_, rfl, rfl⟩)⟩

/-- **C86 (`+=` of other values).** Nothing but nil, strings and tables can stand on either side; `hb`: a table that is a value exists. -/
theorem c86_append_error (h : Heap) (a b : Val) (hb : ∀ j, b = .ref j → j < h.length) : append h a b = none ↔ (¬ ∃ la, Elems h a la) ∨ ¬ ∃ lb, Elems h b lb := by
  constructor
  · intro e
    by_cases ha : ∃ la, Elems h a la
    · by_cases hb : ∃ lb, Elems h b lb
      · obtain ⟨la, ha⟩ := ha
        obtain ⟨lb, hb⟩ := hb
        obtain ⟨h', i, t, r, _⟩ := c86_append ha hb
        rw [r] at e
        cases e
      · exact Or.inr hb
    · exact Or.inl ha
  · intro e
    cases he : append h a b with
    | none => rfl
    | some r =>
      exfalso
      unfold append at he
      cases ea : appendTo h a with
      | none => rw [ea] at he; cases he
      | some q =>
        obtain ⟨h1, i⟩ := q
        rw [ea] at he
        dsimp only at he
        cases eb : appended h1 b with
        | none => rw [eb] at he; cases he
        | some new =>
          cases ei : h1[i]? with
          | none => rw [eb, ei] at he; cases he
          | some t =>
            rcases e with e | e
            · apply e
              cases a with
              | nil => exact ⟨_, Or.inl ⟨rfl, rfl⟩⟩
              | str s => exact ⟨_, Or.inr (Or.inl ⟨s, rfl, rfl⟩)⟩
              | ref k =>
                have e2 := Option.some.inj ea
                injection e2 with e3 e4
                subst e3 e4
                exact ⟨_, Or.inr (Or.inr ⟨k, t, rfl, ei, rfl⟩)⟩
              | _ => cases ea
            · apply e
              cases b with
              | nil => exact ⟨_, Or.inl ⟨rfl, rfl⟩⟩
              | str s => exact ⟨_, Or.inr (Or.inl ⟨s, rfl, rfl⟩)⟩
              | ref k => exact ⟨_, Or.inr (Or.inr ⟨k, _, rfl, List.getElem?_eq_getElem (hb k rfl), rfl⟩)⟩
              | _ => cases eb

example : append two (.bool true) (.str x) = none ∧ append two (.ref 0) (.num x) = none ∧ append two .nil (.node x) = none := ⟨rfl, rfl, rfl⟩

/-- **C86 (`+=` and the name of a table).** After `y = x`, `y += 'b'` changes `x` too; if `x` is a string it does not. -/
theorem c86_append_aliases :
    append [{ arr := [.str x] }] (.ref 0) (.str y) = some ([{ arr := [.str x, .str y], joins := true }], .ref 0)
    ∧ append [] (.str x) (.str y) = some ([{ arr := [.str x, .str y], joins := true }], .ref 0)
    ∧ append [{ arr := [.str x, .str y] }] (.ref 0) (.ref 0) = some ([{ arr := [.str x, .str y, .str x, .str y], joins := true }], .ref 0) := by
  exact ⟨rfl, rfl, rfl⟩

end Tup.LuaVars
