import Verif.Transact.Lemmas
import Verif.Transact.Spec

namespace Tup.Transact

variable {F D α β : Type}

theorem state_lastOf {w : World F D} {d : D} (hw : w.work = some d) (l : List (F × D)) :
    (lastOf w (l.map w.put)).state = lastState w.state l ∧ (lastOf w (l.map w.put)).work.isSome := by
  suffices h : ∀ v : World F D, v.work.isSome → (lastOf v (l.map w.put)).state = lastState v.state l ∧ (lastOf v (l.map w.put)).work.isSome by
    exact h w (by rw [hw]; rfl)
  induction l with
  | nil => exact fun v hv => ⟨rfl, hv⟩
  | cons x xs ih =>
    intro v _
    have hx : (w.put x).work.isSome := by simp [World.put, hw]
    have := ih (w.put x) hx
    have e : (w.put x).state = x := by simp [World.put, hw, World.state, World.view]
    rw [e] at this
    exact this

theorem work_eq (p : Work F D) (w : World F D) (hw : w.work.isSome) :
    ∃ t w', work p w = (t, w', .inr (p w.state).2) ∧ w'.state = lastState w.state (p w.state).1 ∧ w'.work.isSome := by
  obtain ⟨d, hd⟩ := Option.isSome_iff_exists.1 hw
  exact ⟨_, _, rfl, state_lastOf hd _⟩

/-- The result and the last world, without the trace. -/
def out (m : M F D α) (w : World F D) : World F D × (Int ⊕ α) := (m w).2

theorem out_bind (m : M F D α) (k : α → M F D β) (w : World F D) :
    out (m >>= k) w = match (generalizing := false) (out m w) with | (w', .inl r) => (w', .inl r) | (w', .inr a) => out (k a) w' := by
  unfold out
  rcases e : m w with ⟨t, w', r | a⟩
  · rw [bind_inl e]
  · rw [bind_inr e]

theorem out_work (p : Work F D) (w : World F D) (hw : w.work.isSome) :
    ∃ w', out (work p) w = (w', .inr (p w.state).2) ∧ w'.state = lastState w.state (p w.state).1 ∧ w'.work.isSome := by
  obtain ⟨t, w', h, h2⟩ := work_eq p w hw
  exact ⟨w', by unfold out; rw [h], h2⟩

theorem out_must (p : Work F D) (w : World F D) (hw : w.work.isSome) :
    ∃ w', w'.state = lastState w.state (p w.state).1 ∧ w'.work.isSome ∧
      out (must p) w = (w', if (p w.state).2 < 0 then .inl (-1) else .inr ()) := by
  obtain ⟨w', h, h2, h3⟩ := out_work p w hw
  refine ⟨w', h2, h3, ?_⟩
  unfold must
  rw [out_bind, h]
  show out (if (p w.state).2 < 0 then stop (-1) else ret () : M F D Unit) w' = _
  split <;> rfl

theorem must_bind (p : Work F D) (k : Unit → M F D Int) (w : World F D) (hw : w.work.isSome) :
    ((p w.state).2 < 0 ∧ value (out (must p >>= k) w).2 = -1) ∨
    (0 ≤ (p w.state).2 ∧ ∃ w', w'.state = lastState w.state (p w.state).1 ∧ w'.work.isSome ∧ out (must p >>= k) w = out (k ()) w') := by
  obtain ⟨w', h1, h2, h3⟩ := out_must p w hw
  rw [out_bind, h3]
  by_cases h : (p w.state).2 < 0
  · left; simp [h, value]
  · right; exact ⟨by omega, w', h1, h2, by simp [h]⟩

/-- A computation that runs some parts, and then a continuation. -/
def Chains (ps : List (Work F D)) (m k : M F D Int) : Prop := ∀ w, w.work.isSome →
  (value (out m w).2 = -1 ∧ ∀ s', ¬ Ran ps w.state s') ∨
  (∃ w', Ran ps w.state w'.state ∧ w'.work.isSome ∧ out m w = out k w')

theorem chains_nil {k : M F D Int} : Chains [] k k := fun w hw => .inr ⟨w, .nil _, hw, rfl⟩

theorem chains_must {p : Work F D} {ps : List (Work F D)} {m : Unit → M F D Int} {k : M F D Int} (h : Chains ps (m ()) k) :
    Chains (p :: ps) (must p >>= m) k := by
  intro w hw
  rcases must_bind p m w hw with ⟨h1, h2⟩ | ⟨h1, w', h2, h3, h4⟩
  · left
    refine ⟨h2, fun s' hs => ?_⟩
    cases hs with
    | cons h _ => omega
  · rw [h4]
    rcases h w' h3 with ⟨h5, h6⟩ | ⟨w2, h5, h6, h7⟩
    · left
      refine ⟨h5, fun s' hs => ?_⟩
      cases hs with
      | cons _ hr => exact h6 s' (h2 ▸ hr)
    · right
      exact ⟨w2, .cons h1 (h2 ▸ h5), h6, h7⟩

/-- A part whose value is looked at by the rest. -/
theorem chains_work {p : Work F D} {ps : List (Work F D)} {m : Int → M F D Int} {k : M F D Int} (hc : ∀ s, (p s).2 ≤ 0)
    (h0 : Chains ps (m 0) k) (hn : ∀ r w, r < 0 → w.work.isSome → value (out (m r) w).2 = -1) : Chains (p :: ps) (work p >>= m) k := by
  intro w hw
  obtain ⟨w', h1, h2, h3⟩ := out_work p w hw
  rw [out_bind, h1]
  show (value (out (m (p w.state).2) w').2 = -1 ∧ _) ∨ ∃ w2, _ ∧ _ ∧ out (m (p w.state).2) w' = out k w2
  have hle := hc w.state
  by_cases hneg : (p w.state).2 < 0
  · left
    refine ⟨hn _ _ hneg h3, fun s' hs => ?_⟩
    cases hs with
    | cons h _ => omega
  · have e : (p w.state).2 = 0 := by omega
    rw [e]
    rcases h0 w' h3 with ⟨h5, h6⟩ | ⟨w2, h5, h6, h7⟩
    · left
      refine ⟨h5, fun s' hs => ?_⟩
      cases hs with
      | cons _ hr => exact h6 s' (h2 ▸ hr)
    · right
      exact ⟨w2, .cons (by omega) (h2 ▸ h5), h6, h7⟩

theorem chains_append {ps qs : List (Work F D)} {m k l : M F D Int} (h1 : Chains ps m k) (h2 : Chains qs k l) : Chains (ps ++ qs) m l := by
  have split : ∀ (ps : List (Work F D)) (s s' : F × D), Ran (ps ++ qs) s s' → ∃ s1, Ran ps s s1 ∧ Ran qs s1 s' := by
    intro ps
    induction ps with
    | nil => exact fun s s' h => ⟨s, .nil _, h⟩
    | cons p ps ih =>
      intro s s' h
      cases h with
      | cons h h' => obtain ⟨s1, a, b⟩ := ih _ _ h'; exact ⟨s1, .cons h a, b⟩
  have det : ∀ (ps : List (Work F D)) (s s1 s2 : F × D), Ran ps s s1 → Ran ps s s2 → s1 = s2 := by
    intro ps
    induction ps with
    | nil => intro s s1 s2 h1 h2; cases h1; cases h2; rfl
    | cons p ps ih => intro s s1 s2 h1 h2; cases h1 with | cons _ a => cases h2 with | cons _ b => exact ih _ _ _ a b
  have join : ∀ (ps : List (Work F D)) (s s1 s' : F × D), Ran ps s s1 → Ran qs s1 s' → Ran (ps ++ qs) s s' := by
    intro ps
    induction ps with
    | nil => intro s s1 s' h1 h2; cases h1; exact h2
    | cons p ps ih => intro s s1 s' h1 h2; cases h1 with | cons h a => exact .cons h (ih _ _ _ a h2)
  intro w hw
  rcases h1 w hw with ⟨a, b⟩ | ⟨w1, a, b, c⟩
  · left
    refine ⟨a, fun s' hs => ?_⟩
    obtain ⟨s1, x, _⟩ := split _ _ _ hs
    exact b _ x
  · rw [c]
    rcases h2 w1 b with ⟨a', b'⟩ | ⟨w2, a', b', c'⟩
    · left
      refine ⟨a', fun s' hs => ?_⟩
      obtain ⟨s1, x, y⟩ := split _ _ _ hs
      rw [det _ _ _ _ x a] at y
      exact b' _ y
    · exact .inr ⟨w2, join _ _ _ _ a a', b', c'⟩

theorem Ran.det {ps : List (Work F D)} {s s1 s2 : F × D} (h1 : Ran ps s s1) (h2 : Ran ps s s2) : s1 = s2 := by
  induction h1 with
  | nil => cases h2; rfl
  | cons _ _ ih => cases h2 with | cons _ b => exact ih b

/-- The end of the phase after destroy_graph. -/
def finish (p : CreateParts F D) (refactoring : Bool) : M F D Int := do
  let s ← (fun w => ([], w, .inr (w.files, w.view)) : M F D (F × D))
  if refactoring && p.changed s then do
    let _ ← rollback
    stop (-1)
  else do
    let _ ← commit p.reclaim
    ret 0

theorem chains_outDestroy {p : CreateParts F D} {b : Bool} : Chains [p.destroy] (outDestroy p b) (finish p b) :=
  chains_must (m := fun _ => finish p b) chains_nil

theorem out_rollback_stop (w : World F D) : (out (rollback >>= fun _ => (stop (-1) : M F D Int)) w).2 = .inl (-1) := by
  rw [out_bind]
  have : (∃ w', out (rollback : M F D Int) w = (w', .inr 0)) ∨ ∃ w', out (rollback : M F D Int) w = (w', .inr (-1)) := by
    unfold rollback out
    cases h : w.work with
    | none => exact .inr ⟨w, by simp [h]⟩
    | some d => exact .inl ⟨{ w with work := none }, by simp [h]⟩
  rcases this with ⟨w', h⟩ | ⟨w', h⟩ <;> rw [h] <;> rfl

theorem chains_parsePart {p : CreateParts F D} {b : Bool} (hc : Codes p) : Chains (p.rest ++ [p.destroy]) (parsePart p b) (finish p b) := by
  refine chains_append (k := outDestroy p b) ?_ chains_outDestroy
  have tail : ∀ rc : Int, ∀ w : World F D, rc < 0 →
      value (out (if rc < 0 then (rollback >>= fun _ => stop (-1)) else outDestroy p b : M F D Int) w).2 = -1 := by
    intro rc w h
    rw [if_pos h, out_rollback_stop]; rfl
  have retb : ∀ (r : Int) (k : Int → M F D Int), ((ret r : M F D Int) >>= k) = k r := fun r k => rfl
  refine chains_must (chains_must (chains_work hc.parse ?_ ?_))
  · refine chains_must (m := fun _ => _) (chains_work hc.deleteFiles ?_ ?_)
    · refine chains_work hc.circCheck ?_ ?_
      · -- gitignore: any value that is not negative is a success
        intro w hw
        obtain ⟨w', h1, h2, h3⟩ := out_work p.gitignore w hw
        rw [show ifOk 0 p.gitignore = work p.gitignore from rfl, out_bind, h1]
        show (value (out (if (p.gitignore w.state).2 < 0 then (rollback >>= fun _ => stop (-1)) else outDestroy p b : M F D Int) w').2 = -1 ∧ _) ∨
          ∃ w2, _ ∧ _ ∧ out (if (p.gitignore w.state).2 < 0 then (rollback >>= fun _ => stop (-1)) else outDestroy p b : M F D Int) w' = _
        by_cases hneg : (p.gitignore w.state).2 < 0
        · left
          refine ⟨tail _ _ hneg, fun s' hs => ?_⟩
          cases hs with
          | cons h _ => omega
        · right
          rw [if_neg hneg]
          exact ⟨w', .cons (by omega) (h2 ▸ .nil _), h3, rfl⟩
      · intro r w hr _
        rw [show ifOk r p.gitignore = ret r from if_neg (by omega), retb]
        exact tail r w hr
    · intro r w hr _
      rw [show ifOk r p.circCheck = ret r from if_neg (by omega), retb, show ifOk r p.gitignore = ret r from if_neg (by omega), retb]
      exact tail r w hr
  · intro r w hr _
    rw [if_neg (by omega), retb]
    exact tail r w hr

/-- Everything before the last step of the phase. -/
theorem create_chain {p : CreateParts F D} {b : Bool} (hc : Codes p) (w : World F D) :
    (value (out (processCreate p b) w).2 = -1 ∧ ∀ s1 s2, Ran p.front w.state s1 → ¬ ((p.empty s1 = true ∧ Ran [p.destroy] s1 s2) ∨ (p.empty s1 = false ∧ Ran (p.rest ++ [p.destroy]) s1 s2))) ∨
    ∃ s1 w', Ran p.front w.state s1 ∧ ((p.empty s1 = true ∧ Ran [p.destroy] s1 w'.state) ∨ (p.empty s1 = false ∧ Ran (p.rest ++ [p.destroy]) s1 w'.state)) ∧
      w'.work.isSome ∧ out (processCreate p b) w = out (finish p b) w' := by
  obtain ⟨t, w0, r, e, _, _, h3, h4⟩ := begin_spec w
  have hw0 : w0.work.isSome := by rw [h3]; rfl
  have hs0 : w0.state = w.state := by simp [World.state, World.view, h3, h4]
  unfold processCreate
  rw [out_bind, show out begin' w = (w0, .inr r) by unfold out; rw [e]]
  dsimp only
  let k : M F D Int := do
    let s ← (fun w => ([], w, .inr (w.files, w.view)) : M F D (F × D))
    if p.empty s then outDestroy p b else parsePart p b
  have hf : Chains p.front (do
      must p.createGraph
      must p.select
      must p.variants
      must p.removing
      must p.buildGraph
      k) k := chains_must (chains_must (chains_must (chains_must (chains_must chains_nil))))
  rcases hf w0 hw0 with ⟨a, b'⟩ | ⟨w1, a, b', c⟩
  · left
    refine ⟨a, fun s1 s2 hs => ?_⟩
    rw [hs0] at b'
    exact absurd hs (b' s1)
  · have ek : out k w1 = out (if p.empty w1.state then outDestroy p b else parsePart p b) w1 := by
      show out (andThen _ _) w1 = _
      rfl
    rw [hs0] at a
    rw [show out (do
      must p.createGraph
      must p.select
      must p.variants
      must p.removing
      must p.buildGraph
      k) w0 = out k w1 from c, ek]
    cases he : p.empty w1.state with
    | true =>
      rw [if_pos rfl]
      rcases chains_outDestroy (p := p) (b := b) w1 b' with ⟨x, y⟩ | ⟨w2, x, y, z⟩
      · left
        refine ⟨x, fun s1 s2 hs => ?_⟩
        rw [← Ran.det a hs]
        rintro (⟨_, h⟩ | ⟨h, _⟩)
        · exact y _ h
        · rw [he] at h; cases h
      · exact .inr ⟨w1.state, w2, a, .inl ⟨he, x⟩, y, z⟩
    | false =>
      rw [if_neg (by simp)]
      rcases chains_parsePart (p := p) (b := b) hc w1 b' with ⟨x, y⟩ | ⟨w2, x, y, z⟩
      · left
        refine ⟨x, fun s1 s2 hs => ?_⟩
        rw [← Ran.det a hs]
        rintro (⟨h, _⟩ | ⟨_, h⟩)
        · rw [he] at h; cases h
        · exact y _ h
      · exact .inr ⟨w1.state, w2, a, .inr ⟨he, x⟩, y, z⟩

theorem out_finish {p : CreateParts F D} {b : Bool} {w : World F D} (hw : w.work.isSome) :
    (b = true ∧ p.changed w.state = true ∧ (out (finish p b) w).2 = .inl (-1)) ∨
    ((b = true → p.changed w.state = false) ∧ (out (finish p b) w).2 = .inr 0 ∧
      (out (finish p b) w).1.state = lastState w.state (p.reclaim w.state).1 ∧
      (0 ≤ (p.reclaim w.state).2 → (out (finish p b) w).1.work = none) ∧ ((p.reclaim w.state).2 < 0 → (out (finish p b) w).1.work.isSome)) := by
  have e : out (finish p b) w = out (if b && p.changed w.state then (rollback >>= fun _ => stop (-1)) else (commit p.reclaim >>= fun _ => ret 0) : M F D Int) w := rfl
  rw [e]
  by_cases hbc : (b && p.changed w.state) = true
  · left
    rw [if_pos hbc, out_rollback_stop]
    simp only [Bool.and_eq_true] at hbc
    exact ⟨hbc.1, hbc.2, rfl⟩
  · right
    rw [if_neg hbc]
    refine ⟨fun hb => by simpa [hb] using hbc, ?_⟩
    obtain ⟨w', h1, h2, h3⟩ := out_work p.reclaim w hw
    have ec : out (commit p.reclaim) w = out (if (p.reclaim w.state).2 < 0 then ret (-1) else commitStmt : M F D Int) w' := by
      unfold commit
      rw [out_bind, h1]
    rw [out_bind, ec]
    by_cases hneg : (p.reclaim w.state).2 < 0
    · rw [if_pos hneg]
      exact ⟨rfl, h2, fun h => by omega, fun _ => h3⟩
    · rw [if_neg hneg]
      obtain ⟨d, hd⟩ := Option.isSome_iff_exists.1 h3
      have : out (commitStmt : M F D Int) w' = ({ w' with disk := d, work := none }, .inr 0) := by unfold out; rw [commitStmt_some hd]
      rw [this]
      refine ⟨rfl, ?_, fun _ => rfl, fun h => absurd h hneg⟩
      rw [← h2]
      show (w'.files, d) = (w'.files, w'.view)
      simp [World.view, hd]

end Tup.Transact
