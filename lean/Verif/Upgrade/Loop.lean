import Verif.Upgrade.Move

namespace Tup.Upgrade

/-- What the statements that lead from a version to the next do to what the database says. -/
def stepFn : Nat → Content → Option Content
  | 11, c => some (dropShadows c)
  | 13, c => toTupConfig c
  | 14, c => some (parseAll (dropGroups c))
  | 15, c => some (setSources c)
  | 16, c => some (parseAll c)
  | _, c => some c

theorem steps {v : Nat} (h1 : 3 ≤ v) (h2 : v < 19) : Step v (stepFn v) := by
  have : v = 3 ∨ v = 4 ∨ v = 5 ∨ v = 6 ∨ v = 7 ∨ v = 8 ∨ v = 9 ∨ v = 10 ∨ v = 11 ∨ v = 12 ∨ v = 13 ∨ v = 14 ∨ v = 15 ∨ v = 16 ∨ v = 17 ∨ v = 18 := by omega
  rcases this with rfl | rfl | rfl | rfl | rfl | rfl | rfl | rfl | rfl | rfl | rfl | rfl | rfl | rfl | rfl | rfl
  · exact step3
  · exact step4
  · exact step5
  · exact step6
  · exact step7
  · exact step8
  · exact step9
  · exact step10
  · exact step11
  · exact step12
  · exact step13
  · exact step14
  · exact step15
  · exact step16
  · exact step17
  · exact step18

theorem dirs_setSources (c : Content) : dirs (setSources c).nodes = dirs c.nodes := by
  simp only [dirs, setSources, List.filter_map, List.map_map]
  have e : ∀ n : Node, (if n.type = .int 4 then { n with srcid := n.dir } else n).type = n.type ∧ (if n.type = .int 4 then { n with srcid := n.dir } else n).id = n.id := by
    intro n; split <;> exact ⟨rfl, rfl⟩
  refine congr (congrArg _ (funext fun n => (e n).2)) ?_
  apply List.filter_congr
  intro n _
  simp only [Function.comp, (e n).1]

theorem parseAll_twice (c : Content) : parseAll (setSources (parseAll c)) = parseAll (setSources c) := by
  have h : dirs (setSources (parseAll c)).nodes = dirs c.nodes := by rw [dirs_setSources]; rfl
  have hc : (setSources (parseAll c)).create = c.create.filter (fun x => !(dirs c.nodes).contains x) ++ dirs c.nodes := rfl
  have hc2 : (setSources c).create = c.create := rfl
  unfold parseAll
  rw [show (setSources { c with create := c.create.filter (fun x => !(dirs c.nodes).contains x) ++ dirs c.nodes }) = { setSources c with create := c.create.filter (fun x => !(dirs c.nodes).contains x) ++ dirs c.nodes } from rfl]
  simp only [dirs_setSources, hc2]
  congr 1
  rw [List.filter_append, List.filter_filter]
  simp only [Bool.and_self]
  have : (dirs c.nodes).filter (fun x => !(dirs c.nodes).contains x) = [] := by
    rw [List.filter_eq_nil_iff]
    intro x hx
    simp [hx]
  rw [this, List.append_nil]

theorem expected_step {v : Nat} (h1 : 3 ≤ v) (h2 : v < 19) (c : Content) : expected v c = (stepFn v c).bind (expected (v + 1)) := by
  have : v = 3 ∨ v = 4 ∨ v = 5 ∨ v = 6 ∨ v = 7 ∨ v = 8 ∨ v = 9 ∨ v = 10 ∨ v = 11 ∨ v = 12 ∨ v = 13 ∨ v = 14 ∨ v = 15 ∨ v = 16 ∨ v = 17 ∨ v = 18 := by omega
  rcases this with rfl | rfl | rfl | rfl | rfl | rfl | rfl | rfl | rfl | rfl | rfl | rfl | rfl | rfl | rfl | rfl
  case inr.inr.inr.inr.inr.inr.inr.inr.inr.inr.inr.inl =>
    show some _ = some _
    exact congrArg some (parseAll_twice _).symm
  case inr.inr.inr.inr.inr.inr.inr.inr.inr.inr.inl =>
    show (match toTupConfig c with | none => none | some c => _) = (toTupConfig c).bind _
    cases toTupConfig c <;> rfl
  all_goals rfl

/-- The settings after one has been set. -/
def setRow (l : List Row) (k : Val) (n : Int) : List Row := l.filter (fun r => !(r .lval == k)) ++ [rowOf [(.lval, k), (.rval, .int n)]]

theorem setInt_mk {v : Nat} {rows : Tab → List Row} {k : Val} (hk : k ≠ .null) (n : Int) :
    setInt (mk v rows) k n = some (mk v (setRows rows .config (setRow (rows .config) k n))) := by
  let s : Schema := ⟨[.lval, .rval], none, [], [[.lval]]⟩
  let r : Row := rowOf [(.lval, k), (.rval, .int n)]
  have hc : ∀ x, s.clash r x = (x .lval == k) := by
    intro x
    show ([[Col.lval]].any fun cs => sameIn cs r x) = _
    simp only [List.any_cons, List.any_nil, Bool.or_false, sameIn, List.all_cons, List.all_nil, Bool.and_true]
    rw [show r .lval = k from rfl, sqlEq_of_ne hk]
    exact BEq.comm
  have hi : insertRow .replace s (rows .config) r = some (setRow (rows .config) k n) := by
    have hw : withKey s (rows .config) r = r := rfl
    have hm : s.missing r = false := rfl
    simp only [insertRow, hw, hm, Bool.false_eq_true, if_false]
    split
    · simp only [hc]; rfl
    · next h =>
      simp only [List.any_eq_true, not_exists, not_and, hc] at h
      rw [setRow, List.filter_eq_self.2]
      intro x hx
      simpa using h x hx
  show Option.map _ (insertRow .replace s (rows .config) r) = _
  rw [hi]
  refine congrArg some (Db.ext' (fun t => ?_) (fun i => rfl))
  cases t <;> rfl

theorem setRow_sound {v : Nat} {rows : Tab → List Row} {k : Val} {n : Int} (h : Sound v rows) :
    Sound v (setRows rows .config (setRow (rows .config) k n)) := by
  constructor
  · intro t s e
    by_cases ht : t = .config
    · subst ht
      cases e
      have hf := h.fits .config _ rfl
      have hg := fits_filter hf fun r => !(r .lval == k)
      constructor
      · intro r _; rfl
      · simp only [setRows, if_pos, setRow]
        rw [List.pairwise_append]
        refine ⟨hg.2, by simp, ?_⟩
        intro a ha b hb
        rw [List.mem_singleton.1 hb]
        have := (List.mem_filter.1 ha).2
        simp only [Bool.not_eq_true', beq_eq_false_iff_ne, ne_eq] at this
        simp [Schema.clash, sameIn, rowOf, sqlEq, this]
    · simp only [setRows, if_neg ht]
      exact h.fits t s e
  · exact h.links
  · exact h.names
  · exact h.sym
  · exact h.mtime

theorem setting_set {rows : Tab → List Row} {k k' : Val} {n : Int} :
    setting (setRows rows .config (setRow (rows .config) k n)) k' = if k' = k then some (.int n) else setting rows k' := by
  simp only [setting, setRows, if_pos, setRow, List.find?_append]
  by_cases h : k' = k
  · subst h
    rw [if_pos rfl]
    have : ((rows .config).filter fun r => !(r .lval == k')).find? (fun r => r .lval == k') = none := by
      rw [List.find?_eq_none]
      intro r hr
      simpa using (List.mem_filter.1 hr).2
    rw [this]
    simp [rowOf]
  · rw [if_neg h]
    have e1 : ((rows .config).filter fun r => !(r .lval == k)).find? (fun r => r .lval == k') = (rows .config).find? (fun r => r .lval == k') := by
      rw [List.find?_filter]
      congr 1
      funext r
      rw [Bool.eq_iff_iff]
      simp only [decide_eq_true_eq, Bool.and_eq_true, beq_iff_eq, Bool.not_eq_true', beq_eq_false_iff_ne, ne_eq]
      constructor
      · exact fun x => x.2
      · exact fun x => ⟨fun y => h (x.symm.trans y), x⟩
    rw [e1]
    simp [rowOf, Ne.symm h]

theorem loop : ∀ (n v : Nat) (rows : Tab → List Row), v + n = 19 → 3 ≤ v → Sound v rows →
    match expected v (content v rows) with
    | none => upgradeLoop (mk v rows) v n = none
    | some c => ∃ rows', upgradeLoop (mk v rows) v n = some (mk 19 rows') ∧ Sound 19 rows' ∧ content 19 rows' = c ∧
        (∀ k, k ≠ keyVersion → setting rows' k = setting rows k) ∧ (n ≠ 0 → setting rows' keyVersion = some (.int 19)) := by
  intro n
  induction n with
  | zero =>
    intro v rows hv _ hs
    obtain rfl : v = 19 := by omega
    exact ⟨rows, rfl, hs, rfl, fun _ _ => rfl, fun h => absurd rfl h⟩
  | succ n ih =>
    intro v rows hv h3 hs
    have hst := steps h3 (by omega) rows hs
    rw [expected_step h3 (by omega)]
    cases e : stepFn v (content v rows) with
    | none =>
      rw [e] at hst
      show upgradeLoop _ v (n + 1) = none
      simp only [upgradeLoop]
      rw [show execAll (mk v rows) (upgrade (v + 1)) = none from hst]
    | some c1 =>
      rw [e] at hst
      obtain ⟨rows1, x1, x2, x3, x4⟩ := hst
      have hset := setInt_mk (v := v + 1) (rows := rows1) (k := keyVersion) (by simp [keyVersion]) ((v + 1 : Nat) : Int)
      have ih' := ih (v + 1) (setRows rows1 .config (setRow (rows1 .config) keyVersion ((v + 1 : Nat) : Int))) (by omega) (by omega) (setRow_sound x2)
      have hcont : content (v + 1) (setRows rows1 .config (setRow (rows1 .config) keyVersion ((v + 1 : Nat) : Int))) = c1 := x3
      rw [hcont] at ih'
      have hrun : upgradeLoop (mk v rows) v (n + 1) = upgradeLoop (mk (v + 1) (setRows rows1 .config (setRow (rows1 .config) keyVersion ((v + 1 : Nat) : Int)))) (v + 1) n := by
        rw [upgradeLoop, x1]
        simp only
        rw [show ((v : Int) + 1) = ((v + 1 : Nat) : Int) by simp, hset]
      rw [hrun]
      show match expected (v + 1) c1 with | none => _ | some c => _
      cases e2 : expected (v + 1) c1 with
      | none => rw [e2] at ih'; exact ih'
      | some c =>
        rw [e2] at ih'
        obtain ⟨rows', y1, y2, y3, y4, y5⟩ := ih'
        refine ⟨rows', y1, y2, y3, ?_, ?_⟩
        · intro k hk
          rw [y4 k hk, setting_set, if_neg hk]
          simp only [setting, x4]
        · intro _
          by_cases hn : n = 0
          · subst hn
            simp only [upgradeLoop] at y1
            have hcfg : (mk (v + 1) (setRows rows1 .config (setRow (rows1 .config) keyVersion ((v + 1 : Nat) : Int)))).tables .config = (mk 19 rows').tables .config := by
              rw [Option.some.inj y1]
            have : rows' .config = setRow (rows1 .config) keyVersion ((v + 1 : Nat) : Int) := by
              have := Option.some.inj hcfg
              exact (congrArg Table.rows this).symm
            have h19 : v + 1 = 19 := by omega
            have hs' := setting_set (rows := rows1) (k := keyVersion) (k' := keyVersion) (n := ((v + 1 : Nat) : Int))
            rw [if_pos rfl] at hs'
            simp only [setting, setRows, if_pos] at hs'
            simp only [setting, this]
            rw [hs', h19]
            rfl
          · exact y5 hn

end Tup.Upgrade
