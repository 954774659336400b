import Verif.RunScript.Spec

/-! Lemmas for C81. -/

namespace Tup.RunScript

open Tup.Db Tup.PathList

variable {cx : Cx}

theorem virtual_iff {n : Node} : virtual n = true ↔ Virtual n := by
  simp only [virtual, Virtual, Bool.and_eq_true, Bool.or_eq_true, decide_eq_true_eq, or_assoc]

/-- What one row adds. -/
def Shown (w : W) (d : Nat) (i : Nat) (x : Str) : Prop :=
  ∃ n, w.db.node i = some n ∧ n.name = x ∧ n.dir = d ∧ (n.kind = .file ∨ n.kind = .generated ∨ n.kind = .dir) ∧
    w.gone i = false ∧ ¬ Virtual n

theorem addNames_spec (w : W) (d : Nat) (names : List Str) (i : Nat) (hn : names.Nodup) :
    (addNames w d names i).Nodup ∧ ∀ x, x ∈ addNames w d names i ↔ x ∈ names ∨ Shown w d i x := by
  unfold addNames
  cases h : w.db.node i with
  | none => exact ⟨hn, fun x => ⟨Or.inl, fun hx => hx.elim id fun ⟨n, h1, _⟩ => by rw [h] at h1; cases h1⟩⟩
  | some n =>
    have key : ∀ x, Shown w d i x ↔ n.name = x ∧ n.dir = d ∧ (n.kind = .file ∨ n.kind = .generated ∨ n.kind = .dir) ∧
        w.gone i = false ∧ ¬ Virtual n := by
      intro x
      constructor
      · rintro ⟨m, h1, h2⟩; rw [h] at h1; cases h1; exact h2
      · intro h2; exact ⟨n, h, h2⟩
    simp only [key]
    split
    · next hd =>
      simp only [Bool.and_eq_true, Bool.or_eq_true, decide_eq_true_eq, or_assoc] at hd
      by_cases hg : w.gone i = true
      · rw [if_pos hg]; exact ⟨hn, fun x => ⟨Or.inl, fun hx => hx.elim id fun h2 => by rw [h2.2.2.2.1] at hg; cases hg⟩⟩
      · rw [if_neg hg]
        by_cases hv : virtual n = true
        · rw [if_pos hv]; exact ⟨hn, fun x => ⟨Or.inl, fun hx => hx.elim id fun h2 => absurd (virtual_iff.1 hv) h2.2.2.2.2⟩⟩
        · rw [if_neg hv]
          by_cases hm : n.name ∈ names
          · rw [if_pos hm]; exact ⟨hn, fun x => ⟨Or.inl, fun hx => hx.elim id fun h2 => h2.1 ▸ hm⟩⟩
          · rw [if_neg hm]
            refine ⟨?_, fun x => ?_⟩
            · rw [List.nodup_append]
              refine ⟨hn, List.nodup_cons.2 ⟨List.not_mem_nil, List.nodup_nil⟩, ?_⟩
              intro a ha b hb he
              rw [List.mem_singleton] at hb
              exact hm (hb ▸ he ▸ ha)
            · rw [List.mem_append, List.mem_singleton]
              refine or_congr Iff.rfl ⟨fun hx => ⟨hx.symm, hd.1, hd.2, by simpa using hg, fun h => hv (virtual_iff.2 h)⟩, fun h2 => h2.1.symm⟩
    · next hd =>
      simp only [Bool.and_eq_true, Bool.or_eq_true, decide_eq_true_eq, or_assoc] at hd
      exact ⟨hn, fun x => ⟨Or.inl, fun hx => hx.elim id fun h2 => absurd ⟨h2.2.1, h2.2.2.1⟩ hd⟩⟩

theorem fold_spec (w : W) (d : Nat) : ∀ (l : List Nat) (names : List Str), names.Nodup →
    (l.foldl (addNames w d) names).Nodup ∧
      ∀ x, x ∈ l.foldl (addNames w d) names ↔ x ∈ names ∨ ∃ i ∈ l, Shown w d i x := by
  intro l
  induction l with
  | nil => intro names hn; exact ⟨hn, fun x => by simp⟩
  | cons i l ih =>
    intro names hn
    obtain ⟨h1, h2⟩ := addNames_spec w d names i hn
    obtain ⟨h3, h4⟩ := ih _ h1
    refine ⟨h3, fun x => ?_⟩
    rw [List.foldl_cons, h4, h2]
    simp only [List.mem_cons, or_assoc, exists_eq_or_imp]

theorem select_spec (ho : ∀ l, (cx.order l).Perm l) (w : W) (d : Nat) (names : List Str) (hn : names.Nodup) :
    (select cx w d names).Nodup ∧ ∀ x, x ∈ select cx w d names ↔ x ∈ names ∨ ∃ i, Shown w d i x := by
  obtain ⟨h1, h2⟩ := fold_spec w d (cx.order (List.range w.db.top)) names hn
  refine ⟨h1, fun x => (h2 x).trans (or_congr Iff.rfl ⟨fun ⟨i, _, h⟩ => ⟨i, h⟩, fun ⟨i, h⟩ => ⟨i, ?_, h⟩⟩)⟩
  obtain ⟨n, hn, _⟩ := h
  exact (ho _).mem_iff.2 (List.mem_range.2 (lt_top w.ok hn))

theorem shownAs_seen (db : Db) (d : Nat) (q : Str) : SeenAt cx db d q ↔ q = cx.path db (shownAs cx db d) := by
  have hcf : ∀ s, ComesFrom cx db d s → shownAs cx db d = s := by
    rintro s ⟨h1, ⟨n, h2, h3⟩, m, h4⟩
    unfold shownAs
    rw [if_neg (by rw [h1]; decide), h2]
    simp only [h3, h4, Option.isSome_some, if_true]
  have hno : (∀ s, ¬ ComesFrom cx db d s) → shownAs cx db d = d := by
    intro h
    unfold shownAs
    by_cases hr : cx.inRoot d = true
    · rw [if_pos hr]
    · rw [if_neg hr]
      cases h2 : db.node d with
      | none => rfl
      | some n =>
        cases h3 : n.src with
        | none => simp only [h3]
        | some s =>
          cases h4 : db.node s with
          | none => simp only [h3, h4, Option.isSome_none, Bool.false_eq_true, if_false]
          | some m => exact absurd ⟨by simpa using hr, ⟨n, h2, h3⟩, m, h4⟩ (h s)
  constructor
  · intro h
    cases h with
    | source hs => rw [hcf _ hs]
    | itself hs => rw [hno hs]
  · rintro rfl
    by_cases h : ∃ s, ComesFrom cx db d s
    · obtain ⟨s, hs⟩ := h
      rw [hcf s hs]; exact .source hs
    · rw [hno fun s hs => h ⟨s, hs⟩]; exact .itself fun s hs => h ⟨s, hs⟩

/-- The lists agree with the history. -/
def Known (cx : Cx) (h : List Moment) (dirs : Dirs) : Prop :=
  ∀ q, match dirs.find? fun e => decide (e.1 = q) with
    | none => ∀ m ∈ h, ¬ SeenAt cx m.1.db m.2 q
    | some e => ∃ w d, Latest cx h q w d ∧ Lists cx w d e.2

theorem genDirList_spec (ho : ∀ l, (cx.order l).Perm l) {w : W} {dirs dirs' : Dirs} {d : Nat}
    (h : genDirList cx w dirs d = some dirs') :
    ∃ names, dirs' = (cx.path w.db (shownAs cx w.db d), names) ::
      dirs.filter (fun e => decide (e.1 ≠ cx.path w.db (shownAs cx w.db d))) ∧ Lists cx w d names := by
  unfold genDirList at h
  split at h
  · cases h
  next n hn =>
  dsimp only at h
  split at h
  · cases h
  obtain ⟨h1, h2⟩ := select_spec ho w d [] List.nodup_nil
  have hrow : ∀ x, (∃ i, Shown w d i x) ∨ (∃ s, Image cx w.db d s ∧ ∃ i, Shown w s i x) ↔ Visible cx w d x := by
    intro x
    constructor
    · rintro (⟨i, m, a1, a2, a3, a4⟩ | ⟨s, hs, i, m, a1, a2, a3, a4⟩)
      · exact ⟨i, m, a1, a2, .inl a3, a4⟩
      · exact ⟨i, m, a1, a2, .inr (a3 ▸ hs), a4⟩
    · rintro ⟨i, m, a1, a2, a3 | a3, a4⟩
      · exact .inl ⟨i, m, a1, a2, a3, a4⟩
      · exact .inr ⟨m.dir, a3, i, m, a1, a2, rfl, a4⟩
  split at h
  · next s hr hs =>
    split at h
    · cases h
    cases h
    refine ⟨_, rfl, ?_⟩
    obtain ⟨h3, h4⟩ := select_spec ho w s _ h1
    refine ⟨h3, fun x => ?_⟩
    rw [h4, h2, ← hrow]
    simp only [List.not_mem_nil, false_or]
    refine or_congr Iff.rfl ⟨fun hx => ⟨s, ⟨hr, n, hn, hs⟩, hx⟩, ?_⟩
    rintro ⟨s', ⟨_, n', hn', hs'⟩, hx⟩
    rw [hn] at hn'; cases hn'
    rw [hs] at hs'; cases hs'
    exact hx
  · next hne =>
    cases h
    refine ⟨_, rfl, h1, fun x => ?_⟩
    rw [h2, ← hrow]
    simp only [List.not_mem_nil, false_or]
    refine ⟨Or.inl, fun hx => hx.elim id ?_⟩
    rintro ⟨s', ⟨hr, n', hn', hs'⟩, _⟩
    rw [hn] at hn'; cases hn'
    exact (hne s' hr hs').elim

theorem latest_snoc {h : List Moment} {q : Str} {w : W} {d : Nat} (m : Moment) (hl : Latest cx h q w d)
    (hm : ¬ SeenAt cx m.1.db m.2 q) : Latest cx (h ++ [m]) q w d := by
  obtain ⟨h1, h2, rfl, h3, h4⟩ := hl
  refine ⟨h1, h2 ++ [m], by simp, h3, fun x hx => ?_⟩
  rw [List.mem_append, List.mem_singleton] at hx
  rcases hx with hx | rfl
  · exact h4 x hx
  · exact hm

theorem known_gen (ho : ∀ l, (cx.order l).Perm l) {w : W} {dirs dirs' : Dirs} {d : Nat} {h : List Moment}
    (hk : Known cx h dirs) (hg : genDirList cx w dirs d = some dirs') : Known cx (h ++ [(w, d)]) dirs' := by
  obtain ⟨names, rfl, hl⟩ := genDirList_spec ho hg
  intro q
  rw [List.find?_cons]
  by_cases hq : cx.path w.db (shownAs cx w.db d) = q
  · rw [decide_eq_true hq]
    refine ⟨w, d, ⟨h, [], rfl, (shownAs_seen _ _ _).2 hq.symm, fun _ hx => absurd hx List.not_mem_nil⟩, hl⟩
  · rw [decide_eq_false hq]
    dsimp only
    have hns : ¬ SeenAt cx w.db d q := fun hs => hq ((shownAs_seen _ _ _).1 hs).symm
    rw [List.find?_filter]
    have : (fun e : Str × List Str => decide (decide (e.1 ≠ cx.path w.db (shownAs cx w.db d)) = true ∧ decide (e.1 = q) = true)) =
        fun e => decide (e.1 = q) := by
      funext e
      by_cases he : e.1 = q
      · have : e.1 ≠ cx.path w.db (shownAs cx w.db d) := fun h => hq (h ▸ he)
        simp [he, Ne.symm hq]
      · simp [he]
    rw [this]
    have := hk q
    split
    · next hf =>
      rw [hf] at this
      intro m hm
      rw [List.mem_append, List.mem_singleton] at hm
      rcases hm with hm | rfl
      · exact this m hm
      · exact hns
    · next e hf =>
      rw [hf] at this
      obtain ⟨w', d', h1, h2⟩ := this
      exact ⟨w', d', latest_snoc _ h1 hns, h2⟩

theorem known_gens (ho : ∀ l, (cx.order l).Perm l) {w : W} : ∀ (l : List Nat) (dirs dirs' : Dirs) (h : List Moment),
    Known cx h dirs → genDirLists cx w dirs l = some dirs' → Known cx (h ++ l.map fun d => (w, d)) dirs'
  | [], dirs, dirs', h, hk, hg => by cases hg; simpa using hk
  | d :: l, dirs, dirs', h, hk, hg => by
    rw [genDirLists] at hg
    split at hg
    · cases hg
    next dirs1 h1 =>
    have := known_gens ho l dirs1 dirs' _ (known_gen ho hk h1) hg
    rw [List.append_assoc] at this
    exact this

theorem preload_ok {st st' : St} {words : List Str} {ds : List Nat} (h : preload cx st words = .ok (st', ds)) :
    ∃ ts, targets cx st.w.db words = .ok ts ∧ ds = ts.map (·.1) ∧
      ∃ w ins, parseAll cx st.w st.ins ts = some (w, ins) ∧ st'.w = w ∧ st'.ins = ins ∧
        genDirLists cx w st.dirs ds = some st'.dirs ∧ st'.env = st.env ∧ st'.fail = st.fail := by
  unfold preload at h
  split at h
  · cases h
  split at h
  · cases h
  · cases h
  next ts hts =>
  split at h
  · cases h
  next w ins hp =>
  split at h
  · cases h
  next dirs hg =>
  cases h
  exact ⟨ts, hts, rfl, w, ins, hp, rfl, rfl, hg, rfl, rfl⟩

theorem run_ok {st st' : St} {sc : Script} (h : (run cx st sc).2 = some st') :
    ∃ dirs, genDirList cx st.w st.dirs cx.me = some dirs ∧
      (exec cx dirs sc st.fail).2.2.1 = true ∧ (run cx st sc).1 = (exec cx dirs sc st.fail).1 ∧
      rules cx.rule st.w (st.ins ++ st.env) [] ((exec cx dirs sc st.fail).2.2.2.takeWhile fun c => decide (c ≠ '\x00')) =
        some (st'.w, st'.ins) ∧ st'.dirs = dirs ∧ st'.env = st.env ∧ st'.fail = (exec cx dirs sc st.fail).2.1 := by
  unfold run at h ⊢
  split at h
  · cases h
  next dirs hd =>
  refine ⟨dirs, hd, ?_⟩
  dsimp only at h ⊢
  cases hok : (exec cx dirs sc st.fail).2.2.1 with
  | false => rw [hok] at h; simp at h
  | true =>
    rw [hok] at h
    simp only [if_true] at h
    split at h
    · cases h
    next w ins hr =>
    cases h
    refine ⟨rfl, ?_, hr, rfl, rfl, rfl⟩
    rfl

theorem reach_known (ho : ∀ l, (cx.order l).Perm l) {w : W} {env : List Nat} {h : List Moment} {st : St}
    (hr : Reach cx w env h st) : Known cx h st.dirs := by
  induction hr with
  | start => intro q; exact fun m hm => absurd hm List.not_mem_nil
  | preload _ hp ih =>
    obtain ⟨ts, _, _, w', ins, _, hw, _, hg, _, _⟩ := preload_ok hp
    have := known_gens ho _ _ _ _ ih hg
    rw [hw]; exact this
  | run _ hp ih =>
    obtain ⟨dirs, hd, _, _, _, he, _⟩ := run_ok hp
    rw [he]; exact known_gen ho ih hd
  | exports _ ih => exact ih
  | other _ _ ih => exact ih

theorem steps_append (st : St) (a b : List Op) :
    steps cx st (a ++ b) = match steps cx st a with | .ok st => steps cx st b | .err => .err | .ub => .ub := by
  induction a generalizing st with
  | nil => rfl
  | cons op a ih =>
    rw [List.cons_append, steps, steps]
    cases step cx st op with
    | ok st => exact ih st
    | err => rfl
    | ub => rfl

theorem step_reach {w : W} {env : List Nat} {h : List Moment} {st st' : St} {op : Op} (hr : Reach cx w env h st)
    (hs : step cx st op = .ok st') : ∃ h', Reach cx w env h' st' := by
  cases op with
  | preload words =>
    rw [step] at hs
    split at hs
    · next r hp => cases hs; exact ⟨_, .preload (ds := r.2) hr hp⟩
    · cases hs
    · cases hs
  | run sc =>
    rw [step] at hs
    split at hs
    · next hp => cases hs; exact ⟨_, .run hr hp⟩
    · cases hs
  | exports v => cases hs; exact ⟨_, .exports hr⟩
  | other f =>
    rw [step] at hs
    split at hs
    · cases hs
    · next hp => cases hs; exact ⟨_, .other hr hp⟩

theorem steps_reach {w : W} {env : List Nat} : ∀ {ops : List Op} {h : List Moment} {st st' : St}, Reach cx w env h st →
    steps cx st ops = .ok st' → ∃ h', Reach cx w env h' st'
  | [], _, _, _, hr, hs => by cases hs; exact ⟨_, hr⟩
  | op :: ops, _, _, _, hr, hs => by
    rw [steps] at hs
    split at hs
    · next hp =>
      obtain ⟨h', hr'⟩ := step_reach hr hp
      exact steps_reach hr' hs
    · cases hs
    · cases hs

/-! ### Scripts -/

theorem exec_log (dirs : Dirs) : ∀ (sc : Script) (fail : Bool), ∀ e ∈ (exec cx dirs sc fail).1, e.2 = readdir cx dirs e.1 := by
  intro sc
  induction sc with
  | done ok out => intro fail e he; exact absurd he List.not_mem_nil
  | list path k ih =>
    intro fail e he
    rw [exec] at he
    rcases List.mem_cons.1 he with rfl | he
    · rfl
    · exact ih _ _ e he

theorem exec_fail (dirs : Dirs) : ∀ (sc : Script) (fail : Bool),
    (exec cx dirs sc fail).2.1 = (fail || (exec cx dirs sc fail).1.any fun e => e.2.isNone) := by
  intro sc
  induction sc with
  | done ok out => intro fail; simp [exec]
  | list path k ih =>
    intro fail
    rw [exec]
    dsimp only
    rw [ih, List.any_cons, Bool.or_assoc]

theorem exec_ends (dirs : Dirs) : ∀ (sc : Script) (fail : Bool),
    Ends sc (exec cx dirs sc fail).1 (exec cx dirs sc fail).2.2.1 (exec cx dirs sc fail).2.2.2 := by
  intro sc
  induction sc with
  | done ok out => intro fail; exact .done
  | list path k ih => intro fail; rw [exec]; exact .list (ih _ _)

theorem step_fail {st st' : St} {op : Op} (hs : step cx st op = .ok st') (hf : st.fail = true) : st'.fail = true := by
  cases op with
  | preload words =>
    rw [step] at hs
    split at hs
    · next r hp =>
      cases hs
      obtain ⟨_, _, _, _, _, _, _, _, _, _, h⟩ := preload_ok (ds := r.2) hp
      rw [h, hf]
    · cases hs
    · cases hs
  | run sc =>
    rw [step] at hs
    split at hs
    · next hp =>
      cases hs
      obtain ⟨_, _, _, _, _, _, _, h⟩ := run_ok hp
      rw [h, exec_fail, hf, Bool.true_or]
    · cases hs
  | exports v => cases hs; exact hf
  | other f =>
    rw [step] at hs
    split at hs
    · cases hs
    · cases hs; exact hf

theorem steps_fail : ∀ {ops : List Op} {st st' : St}, steps cx st ops = .ok st' → st.fail = true → st'.fail = true
  | [], _, _, hs, hf => by cases hs; exact hf
  | op :: ops, _, _, hs, hf => by
    rw [steps] at hs
    split at hs
    · next hp => exact steps_fail hs (step_fail hp hf)
    · cases hs
    · cases hs

/-! ### The output -/

theorem rules_spec {rule : W → List Nat → Str → Option (W × List Nat)} {w' : W} {ins' : List Nat} :
    ∀ (s cur : Str) (w : W) (ins : List Nat), '\n' ∉ cur →
    (rules rule w ins cur s = some (w', ins') ↔ ∃ ls, Lines (cur ++ s) ls ∧ Follows rule w ins ls w' ins') := by
  intro s
  induction s with
  | nil =>
    intro cur w ins hc
    rw [rules, List.append_nil]
    by_cases h : cur = []
    · subst h
      rw [if_pos rfl]
      constructor
      · intro h; cases h; exact ⟨[], ⟨rfl, fun _ h => absurd h List.not_mem_nil⟩, .nil⟩
      · rintro ⟨ls, ⟨h1, h2⟩, hf⟩
        cases ls with
        | nil => cases hf; rfl
        | cons l ls => simp at h1
    · rw [if_neg h]
      constructor
      · intro h; cases h
      · rintro ⟨ls, ⟨h1, h2⟩, _⟩
        cases ls with
        | nil => exact absurd h1 h
        | cons l ls =>
          refine absurd ?_ hc
          rw [h1]; simp
  | cons c s ih =>
    intro cur w ins hc
    rw [rules.eq_def]
    dsimp only
    by_cases hn : c = '\n'
    · subst hn
      rw [if_pos rfl]
      have hsplit : ∀ ls, Lines (cur ++ '\n' :: s) ls ↔ ∃ ls', ls = cur :: ls' ∧ Lines s ls' := by
        intro ls
        constructor
        · rintro ⟨h1, h2⟩
          cases ls with
          | nil => simp at h1
          | cons l ls' =>
            have hl := h2 l (List.mem_cons_self ..)
            have h3 : cur ++ '\n' :: s = l ++ '\n' :: (ls'.map (· ++ ['\n'])).flatten := by
              rw [h1]; simp
            have : cur = l ∧ s = (ls'.map (· ++ ['\n'])).flatten := by
              clear h1 h2 ih
              induction cur generalizing l with
              | nil =>
                cases l with
                | nil => exact ⟨rfl, by simpa using h3⟩
                | cons a l => simp at h3; exact absurd h3.1 (by rintro rfl; simp at hl)
              | cons b cur ih =>
                cases l with
                | nil => simp at h3; exact absurd h3.1 (by rintro rfl; simp at hc)
                | cons a l =>
                  simp only [List.cons_append, List.cons.injEq] at h3
                  have := ih (by simp at hc; exact hc.2) l (by simp at hl; exact hl.2) h3.2
                  exact ⟨by rw [h3.1, this.1], this.2⟩
            exact ⟨ls', by rw [this.1], this.2, fun l hl => h2 l (List.mem_cons_of_mem _ hl)⟩
        · rintro ⟨ls', rfl, h1, h2⟩
          refine ⟨by simp [h1], fun l hl => ?_⟩
          rcases List.mem_cons.1 hl with rfl | hl
          · exact hc
          · exact h2 l hl
      simp only [hsplit]
      have ih0 := fun w ins => ih [] w ins List.not_mem_nil
      simp only [List.nil_append] at ih0
      split
      · next r =>
        split
        · next hr =>
          constructor
          · intro h; cases h
          · rintro ⟨_, ⟨ls', rfl, _⟩, hf⟩
            cases hf with
            | rule h1 _ => rw [hr] at h1; cases h1
        · next w1 ins1 hr =>
          rw [ih0]
          constructor
          · rintro ⟨ls, h1, h2⟩; exact ⟨_, ⟨ls, rfl, h1⟩, .rule hr h2⟩
          · rintro ⟨_, ⟨ls', rfl, h1⟩, hf⟩
            cases hf with
            | rule h2 h3 => rw [hr] at h2; cases h2; exact ⟨ls', h1, h3⟩
      · rw [ih0]
        constructor
        · rintro ⟨ls, h1, h2⟩; exact ⟨_, ⟨ls, rfl, h1⟩, .blank h2⟩
        · rintro ⟨_, ⟨ls', rfl, h1⟩, hf⟩
          cases hf with
          | blank h3 => exact ⟨ls', h1, h3⟩
      · rw [ih0]
        constructor
        · rintro ⟨ls, h1, h2⟩; exact ⟨_, ⟨ls, rfl, h1⟩, .comment h2⟩
        · rintro ⟨_, ⟨ls', rfl, h1⟩, hf⟩
          cases hf with
          | comment h3 => exact ⟨ls', h1, h3⟩
      · next h1 h2 h3 =>
        constructor
        · intro h; cases h
        · rintro ⟨_, ⟨ls', rfl, _⟩, hf⟩
          cases hf with
          | blank => exact (h2 rfl).elim
          | comment => exact (h3 _ rfl).elim
          | rule => exact (h1 _ rfl).elim
    · rw [if_neg hn, ih]
      · simp
      · simp only [List.mem_append, List.mem_singleton, not_or]
        exact ⟨hc, fun h => hn h.symm⟩

theorem before0 (out : Str) : Before0 out (out.takeWhile fun c => decide (c ≠ '\x00')) := by
  induction out with
  | nil => exact ⟨by simp, .inl rfl⟩
  | cons c s ih =>
    by_cases h : c = '\x00'
    · subst h
      rw [List.takeWhile_cons_of_neg (by decide)]
      exact ⟨by simp, .inr ⟨s, rfl⟩⟩
    · rw [List.takeWhile_cons_of_pos (by simpa using h)]
      obtain ⟨h1, h2⟩ := ih
      refine ⟨?_, ?_⟩
      · simp only [List.mem_cons, not_or]; exact ⟨fun e => h e.symm, h1⟩
      · rcases h2 with h2 | ⟨r, h2⟩
        · left; rw [← h2]
        · right; exact ⟨r, by rw [List.cons_append, ← h2]⟩

theorem before0_unique {out s : Str} (h : Before0 out s) : s = out.takeWhile fun c => decide (c ≠ '\x00') := by
  obtain ⟨h1, h2⟩ := h
  have h3 : ∀ c ∈ s, decide (c ≠ '\x00') = true := fun c hc => by
    rw [decide_eq_true_eq]; rintro rfl; exact h1 hc
  rcases h2 with rfl | ⟨r, rfl⟩
  · have := List.takeWhile_append_of_pos (l₂ := []) h3
    rw [List.append_nil, List.takeWhile_nil, List.append_nil] at this
    exact this.symm
  · rw [List.takeWhile_append_of_pos h3, List.takeWhile_cons_of_neg (by decide), List.append_nil]

/-! ### Inputs -/

theorem rules_keep {rule : W → List Nat → Str → Option (W × List Nat)} (hk : ∀ s, Keeps fun w ins => rule w ins s)
    {w w' : W} {ins ins' : List Nat} {ls : List Str} (h : Follows rule w ins ls w' ins') : ∀ i ∈ ins, i ∈ ins' := by
  induction h with
  | nil => exact fun _ => id
  | blank _ ih => exact ih
  | comment _ ih => exact ih
  | rule h1 _ ih => exact fun i hi => ih i (hk _ _ _ _ _ h1 i hi)

theorem parseAll_ins {w' : W} : ∀ {ts : List (Nat × Bool)} {w : W} {ins ins' : List Nat},
    parseAll cx w ins ts = some (w', ins') → (∀ i ∈ ins, i ∈ ins') ∧ ∀ d, (d, false) ∈ ts → d ≠ cx.me → d ∈ ins'
  | [], w, ins, ins', h => by cases h; exact ⟨fun _ => id, fun _ h => absurd h List.not_mem_nil⟩
  | (d, g) :: ts, w, ins, ins', h => by
    rw [parseAll] at h
    split at h
    · next hg =>
      obtain ⟨h1, h2⟩ := parseAll_ins (w := w) h
      refine ⟨h1, fun e he hne => ?_⟩
      rcases List.mem_cons.1 he with he | he
      · cases he
        simp only [Bool.false_or, decide_eq_true_eq] at hg
        exact absurd hg hne
      · exact h2 e he hne
    split at h
    · cases h
    split at h
    · cases h
    next w1 hw =>
    obtain ⟨h1, h2⟩ := parseAll_ins (w := w1) h
    refine ⟨fun i hi => h1 i (List.mem_append_left _ hi), fun e he hne => ?_⟩
    rcases List.mem_cons.1 he with he | he
    · cases he; exact h1 _ (List.mem_append_right _ (List.mem_singleton.2 rfl))
    · exact h2 e he hne

theorem run_ins (hk : ∀ s, Keeps fun w ins => cx.rule w ins s) {st st' : St} {sc : Script} (h : (run cx st sc).2 = some st') :
    ∀ i, i ∈ st.ins ∨ i ∈ st.env → i ∈ st'.ins := by
  obtain ⟨dirs, _, _, _, hr, _⟩ := run_ok h
  obtain ⟨ls, _, hf⟩ := (rules_spec _ [] _ _ List.not_mem_nil).1 hr
  intro i hi
  exact rules_keep hk hf i (List.mem_append.2 hi)

theorem step_ins {st st' : St} {op : Op} (hk : AllKeep cx [op]) (h : step cx st op = .ok st') :
    ∀ i ∈ st.ins, i ∈ st'.ins := by
  cases op with
  | preload words =>
    rw [step] at h
    split at h
    · next r hp =>
      cases h
      obtain ⟨ts, _, _, w, ins, h1, _, h2, _⟩ := preload_ok (ds := r.2) hp
      rw [h2]
      exact (parseAll_ins (w := st.w) h1).1
    · cases h
    · cases h
  | run sc =>
    rw [step] at h
    split at h
    · next hp => cases h; exact fun i hi => run_ins hk.1 hp i (.inl hi)
    · cases h
  | exports v => cases h; exact fun _ => id
  | other f =>
    rw [step] at h
    split at h
    · cases h
    · next hp => cases h; exact hk.2 f (List.mem_singleton.2 rfl) _ _ _ _ hp

theorem steps_ins : ∀ {ops : List Op} {st st' : St}, AllKeep cx ops → steps cx st ops = .ok st' →
    ∀ i ∈ st.ins, i ∈ st'.ins
  | [], _, _, _, h => by cases h; exact fun _ => id
  | op :: ops, st, st', hk, h => by
    rw [steps] at h
    split at h
    · next st1 hp =>
      have h1 := step_ins ⟨hk.1, fun f hf => hk.2 f (by rw [List.mem_singleton.1 hf]; exact List.mem_cons_self ..)⟩ hp
      have h2 := steps_ins ⟨hk.1, fun f hf => hk.2 f (List.mem_cons_of_mem _ hf)⟩ h
      exact fun i hi => h2 i (h1 i hi)
    · cases h
    · cases h

/-! ### `preload` -/

theorem target_ok {db : Db} {s : Str} {i : Nat} {g : Bool}
    (h : target cx db s = .ok (i, g)) :
    Names cx db s i ∧ (g = true ↔ newPl none cx.reOk s = some .group) := by
  unfold target at h
  split at h
  · cases h
  · cases h
  next k hne hk =>
  split at h
  · cases h
  next d last hf =>
  split at h
  · cases h
  next n hn =>
  split at h
  · cases h
  next j hj =>
  split at h
  · next hkind =>
    cases h
    obtain ⟨m, hm, hmk⟩ := isKind_iff.1 hkind
    refine ⟨⟨d, last, n, m, hf, hn, hm, hmk, ?_⟩, ?_⟩
    · by_cases hl : last = ['.', '.']
      · rw [if_pos hl] at hj
        split at hj
        · cases hj
        · next h0 => cases hj; exact .inl ⟨hl, rfl, h0⟩
      · rw [if_neg hl] at hj
        obtain ⟨m', hm', h1, h2⟩ := select_some hj
        rw [hm] at hm'; cases hm'
        exact .inr ⟨hl, h1, h2⟩
    · rw [hk]; simp
  · cases h

theorem targets_ok {db : Db} : ∀ {words : List Str} {ts : List (Nat × Bool)},
    targets cx db words = .ok ts →
    Each (fun s (t : Nat × Bool) => Names cx db s t.1 ∧ (t.2 = true ↔ newPl none cx.reOk s = some .group)) words ts
  | [], ts, h => by cases h; exact .nil
  | s :: l, ts, h => by
    rw [targets] at h
    split at h
    · cases h
    · cases h
    next t ht =>
    split at h
    · next ts' hts =>
      cases h
      exact .cons (target_ok (by rw [ht])) (targets_ok hts)
    · next hts => exact absurd h (hts ts)

theorem Each.map {α β γ : Type} {r : α → β → Prop} {r' : α → γ → Prop} {f : β → γ} {l : List α} {m : List β}
    (h : Each r l m) (hr : ∀ a b, b ∈ m → r a b → r' a (f b)) : Each r' l (m.map f) := by
  induction h with
  | nil => exact .nil
  | cons h _ ih =>
    exact .cons (hr _ _ (List.mem_cons_self ..) h) (ih fun a b hb => hr a b (List.mem_cons_of_mem _ hb))

theorem newPl_group {reOk : Str → Bool} {s : Str} (h : newPl none reOk s = some .group) : '<' ∈ s ∧ '>' ∈ s := by
  unfold newPl at h
  split at h
  · cases h
  · split at h <;> cases h
  · split at h
    · next h1 =>
      split at h
      · next h2 => exact ⟨h1, h2⟩
      · cases h
    · cases h

theorem step_env {st st' : St} {op : Op} (h : step cx st op = .ok st') :
    (∀ i ∈ st.env, i ∈ st'.env) ∧ ∀ i, op = .exports i → i ∈ st'.env := by
  cases op with
  | preload words =>
    rw [step] at h
    split at h
    · next r hp =>
      cases h
      obtain ⟨_, _, _, _, _, _, _, _, _, h, _⟩ := preload_ok (ds := r.2) hp
      rw [h]
      exact ⟨fun _ => id, fun _ h => by cases h⟩
    · cases h
    · cases h
  | run sc =>
    rw [step] at h
    split at h
    · next hp =>
      cases h
      obtain ⟨_, _, _, _, _, _, h, _⟩ := run_ok hp
      rw [h]
      exact ⟨fun _ => id, fun _ h => by cases h⟩
    · cases h
  | exports v =>
    cases h
    refine ⟨fun i hi => List.mem_append_left _ hi, fun i hi => ?_⟩
    cases hi
    exact List.mem_append_right _ (List.mem_singleton.2 rfl)
  | other f =>
    rw [step] at h
    split at h
    · cases h
    · cases h; exact ⟨fun _ => id, fun _ h => by cases h⟩

end Tup.RunScript
