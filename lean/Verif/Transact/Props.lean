import Verif.Transact.Success
import Verif.DoRule.Props

/-
C43: what is recorded when the parsing of the Tupfiles fails, succeeds or is interrupted.
-/

namespace Tup.Transact

variable {F D : Type}

theorem rc_out (m : M F D Int) (w : World F D) : rc m w = value (out m w).2 := rfl

theorem final_out {α : Type} (m : M F D α) (w : World F D) : final m w = (out m w).1 := rfl

/-- If the parsing fails, at whatever part and after whatever it changed, then the recorded contents are those at its
beginning: at every moment in which the process could be killed, and when it ends. -/
theorem c43_failed (p : CreateParts F D) (refactoring : Bool) (w : World F D) (h : rc (processCreate p refactoring) w < 0) :
    (∀ x ∈ moments (processCreate p refactoring) w, x.ended = w.disk) ∧ (final (processCreate p refactoring) w).ended = w.disk := by
  rcases phase_create (p := p) (b := refactoring) w with ⟨h1, h2⟩ | ⟨_, h2⟩
  · refine ⟨?_, h2⟩
    intro x hx
    rcases List.mem_cons.1 hx with rfl | hx
    · rfl
    · exact h1 x hx
  · unfold rc at h
    rw [h2] at h
    exact absurd h (by decide)

/-- All together or nothing: at every moment the recorded contents are those at the beginning or those at the end. -/
theorem c43_atomic (p : CreateParts F D) (refactoring : Bool) (w : World F D) :
    ∃ before after, moments (processCreate p refactoring) w = before ++ after ∧ (∀ x ∈ before, x.ended = w.disk) ∧
      (∀ x ∈ after, x = final (processCreate p refactoring) w) := by
  rcases phase_create (p := p) (b := refactoring) w with ⟨h1, _⟩ | ⟨⟨t, h1, h2, _⟩, _⟩
  · refine ⟨_, [], (List.append_nil _).symm, ?_, (fun x hx => by cases hx)⟩
    intro x hx
    rcases List.mem_cons.1 hx with rfl | hx
    · rfl
    · exact h1 x hx
  · refine ⟨w :: t, [final (processCreate p refactoring) w], ?_, ?_, ?_⟩
    · show w :: (processCreate p refactoring w).1 = _
      rw [h1]; rfl
    · intro x hx
      rcases List.mem_cons.1 hx with rfl | hx
      · rfl
      · exact h2 x hx
    · intro x hx
      simpa using hx

/-- The parsing succeeds exactly when all of its parts do, else it fails. -/
theorem c43_succeeds_iff {p : CreateParts F D} (hc : Codes p) (refactoring : Bool) (w : World F D) :
    (rc (processCreate p refactoring) w = 0 ↔ ∃ s, Parsed p refactoring w.state s) ∧
    (rc (processCreate p refactoring) w = 0 ∨ rc (processCreate p refactoring) w = -1) := by
  rw [rc_out]
  rcases create_chain (b := refactoring) hc w with ⟨h1, h2⟩ | ⟨s1, w', h1, h2, h3, h4⟩
  · rw [h1]
    refine ⟨⟨fun h => absurd h (by decide), ?_⟩, .inr rfl⟩
    rintro ⟨s, hs⟩
    cases hs with
    | none a b c _ => exact absurd (.inl ⟨b, c⟩) (h2 _ _ a)
    | some a b c _ => exact absurd (.inr ⟨b, c⟩) (h2 _ _ a)
  · rw [h4]
    rcases out_finish (p := p) (b := refactoring) h3 with ⟨a, b, c⟩ | ⟨a, b, _⟩
    · rw [c]
      refine ⟨⟨fun h => absurd h (by decide), ?_⟩, .inr rfl⟩
      rintro ⟨s, hs⟩
      have same : ∀ s2, (p.empty s1 = true ∧ Ran [p.destroy] s1 s2) ∨ (p.empty s1 = false ∧ Ran (p.rest ++ [p.destroy]) s1 s2) → s2 = w'.state := by
        rintro s2 (⟨x, y⟩ | ⟨x, y⟩) <;> rcases h2 with ⟨x', y'⟩ | ⟨x', y'⟩
        · exact Ran.det y y'
        · rw [x] at x'; cases x'
        · rw [x] at x'; cases x'
        · exact Ran.det y y'
      cases hs with
      | none d e f g =>
        rw [Ran.det d h1] at e f
        rw [same s (.inl ⟨e, f⟩), b] at g
        exact absurd (g a) (by decide)
      | some d e f g =>
        rw [Ran.det d h1] at e f
        rw [same s (.inr ⟨e, f⟩), b] at g
        exact absurd (g a) (by decide)
    · rw [b]
      refine ⟨⟨fun _ => ⟨w'.state, ?_⟩, fun _ => rfl⟩, .inl rfl⟩
      rcases h2 with ⟨x, y⟩ | ⟨x, y⟩
      · exact .none h1 x y a
      · exact .some h1 x y a

/-- If it succeeds then all the changes of all the parts are recorded, together with the removal of the unused ghosts if
that does not fail. -/
theorem c43_recorded {p : CreateParts F D} (hc : Codes p) (refactoring : Bool) (w : World F D) {s : F × D} (h : Parsed p refactoring w.state s)
    (hr : 0 ≤ (p.reclaim s).2) :
    (final (processCreate p refactoring) w).ended = (lastState s (p.reclaim s).1).2 ∧
    (final (processCreate p refactoring) w).work = none ∧ (final (processCreate p refactoring) w).files = (lastState s (p.reclaim s).1).1 := by
  have hok := (c43_succeeds_iff hc refactoring w).1.2 ⟨s, h⟩
  rw [rc_out] at hok
  rw [final_out]
  rcases create_chain (b := refactoring) hc w with ⟨h1, _⟩ | ⟨s1, w', h1, h2, h3, h4⟩
  · rw [h1] at hok; exact absurd hok (by decide)
  · have same : s = w'.state := by
      cases h with
      | none d e f g =>
        rw [Ran.det d h1] at e f
        rcases h2 with ⟨_, y⟩ | ⟨x, _⟩
        · exact Ran.det f y
        · rw [e] at x; cases x
      | some d e f g =>
        rw [Ran.det d h1] at e f
        rcases h2 with ⟨x, _⟩ | ⟨_, y⟩
        · rw [e] at x; cases x
        · exact Ran.det f y
    rw [h4] at hok ⊢
    subst same
    rcases out_finish (p := p) (b := refactoring) h3 with ⟨_, _, c⟩ | ⟨_, _, c, d, _⟩
    · rw [c] at hok; exact absurd hok (by decide)
    · have hn := d hr
      refine ⟨?_, hn, ?_⟩
      · rw [← c]; show World.disk _ = World.view _; unfold World.view; rw [hn]
      · rw [← c]; rfl

/-- The result of the commit is not looked at: if the removal of the ghosts fails then the parsing has succeeded, all the
files are deleted or written, and nothing is recorded. -/
theorem c43_commit_ignored {p : CreateParts F D} (hc : Codes p) (refactoring : Bool) (w : World F D) {s : F × D} (h : Parsed p refactoring w.state s)
    (hr : (p.reclaim s).2 < 0) :
    rc (processCreate p refactoring) w = 0 ∧ (final (processCreate p refactoring) w).ended = w.disk := by
  have hok := (c43_succeeds_iff hc refactoring w).1.2 ⟨s, h⟩
  refine ⟨hok, ?_⟩
  rcases phase_create (p := p) (b := refactoring) w with ⟨_, h2⟩ | ⟨⟨t, _, _, hn⟩, _⟩
  · exact h2
  · exfalso
    rw [rc_out] at hok
    rcases create_chain (b := refactoring) hc w with ⟨h1, _⟩ | ⟨s1, w', h1, h2, h3, h4⟩
    · rw [h1] at hok; exact absurd hok (by decide)
    · have same : s = w'.state := by
        cases h with
        | none d e f g =>
          rw [Ran.det d h1] at e f
          rcases h2 with ⟨_, y⟩ | ⟨x, _⟩
          · exact Ran.det f y
          · rw [e] at x; cases x
        | some d e f g =>
          rw [Ran.det d h1] at e f
          rcases h2 with ⟨x, _⟩ | ⟨_, y⟩
          · rw [e] at x; cases x
          · exact Ran.det f y
      rw [h4] at hok
      rw [show (processCreate p refactoring w).2.1 = (out (processCreate p refactoring) w).1 from rfl, h4] at hn
      subst same
      rcases out_finish (p := p) (b := refactoring) h3 with ⟨_, _, c⟩ | ⟨_, _, _, _, c⟩
      · rw [c] at hok; exact absurd hok (by decide)
      · have := c hr
        rw [hn] at this; cases this

/-! ### The whole update -/

theorem call_trace {m : M F D Int} {k : Int → M F D Int} {w : World F D} :
    (call m >>= k) w = ((m w).1 ++ (k (rc m w) (final m w)).1, (k (rc m w) (final m w)).2.1, (k (rc m w) (final m w)).2.2) := by
  have e : call m w = ((m w).1, (m w).2.1, .inr (value (m w).2.2)) := rfl
  rw [bind_inr e]
  rfl

theorem out_call (m : M F D Int) (k : Int → M F D Int) (w : World F D) : out (call m >>= k) w = out (k (rc m w)) (final m w) := by
  unfold out; rw [call_trace]

/-- One more phase. -/
theorem phase_moments {ok : Int ⊕ Int → Prop} {m : M F D Int} (hm : Phase ok m) {w x : World F D} (hx : x ∈ (m w).1) :
    x.disk = w.disk ∨ x.disk = (final m w).disk := by
  rcases hm w with ⟨h1, _⟩ | ⟨⟨t, h1, h2, _⟩, _⟩
  · exact .inl (h1 x hx)
  · rw [h1] at hx
    rcases List.mem_append.1 hx with hx | hx
    · exact .inl (h2 x hx)
    · right
      simp only [List.mem_cons, List.not_mem_nil, or_false] at hx
      rw [hx]; rfl

theorem call_moments {ok : Int ⊕ Int → Prop} {m : M F D Int} (hm : Phase ok m) {k : Int → M F D Int} {w x : World F D}
    (hx : x ∈ moments (call m >>= k) w) : x.disk = w.disk ∨ x.disk = (final m w).disk ∨ x ∈ moments (k (rc m w)) (final m w) := by
  rcases List.mem_cons.1 hx with rfl | hx
  · exact .inl rfl
  · rw [call_trace] at hx
    rcases List.mem_append.1 hx with hx | hx
    · rcases phase_moments hm hx with h | h
      · exact .inl h
      · exact .inr (.inl h)
    · exact .inr (.inr (List.mem_cons_of_mem _ hx))

/-- The worlds after each of the phases of an update. -/
def after1 (p : Parts F D) (w : World F D) : World F D := final (simple p.fullDeps p.reclaim) w
def after2 (p : Parts F D) (w : World F D) : World F D := final (simple p.scan p.reclaim) (after1 p w)
def after3 (p : Parts F D) (w : World F D) : World F D := final (processConfig p.config) (after2 p w)
def after4 (p : Parts F D) (r : Bool) (w : World F D) : World F D := final (processCreate p.create r) (after3 p w)
def after5 (p : Parts F D) (r : Bool) (w : World F D) : World F D := final (processUpdate p.update) (after4 p r w)

theorem moments_stop {r : Int} {w x : World F D} (h : x ∈ moments (stop r : M F D Int) w) : x = w := by
  simpa [moments, stop] using h

theorem moments_ret {r : Int} {w x : World F D} (h : x ∈ moments (ret r : M F D Int) w) : x = w := by
  simpa [moments, ret] using h

theorem updater_eq (p : Parts F D) (phase : Nat) (r : Bool) : updater p phase r =
    (call (simple p.fullDeps p.reclaim) >>= fun rc => if rc < 0 then stop (-1) else
      call (simple p.scan p.reclaim) >>= fun rc => if rc < 0 then stop (-1) else
        call (processConfig p.config) >>= fun rc => if rc < 0 then stop (-1) else if phase = 1 then stop 0 else
          call (processCreate p.create r) >>= fun rc => if rc < 0 then stop (-1) else if phase = 2 then stop 0 else
            call (processUpdate p.update) >>= fun rc => if rc < 0 then stop (-1) else ret 0) := by
  rfl

/-- A process that is killed at any moment of an update leaves what was recorded before, or what one of the phases
recorded: never a part of the changes of a phase. -/
theorem c43_interrupted (p : Parts F D) (phase : Nat) (r : Bool) (w : World F D) :
    ∀ x ∈ moments (updater p phase r) w,
      x.ended ∈ [w.disk, (after1 p w).disk, (after2 p w).disk, (after3 p w).disk, (after4 p r w).disk, (after5 p r w).disk] := by
  intro x hx
  rw [updater_eq] at hx
  simp only [World.ended, List.mem_cons, List.not_mem_nil, or_false]
  rcases call_moments phase_simple hx with h | h | hx
  · exact .inl h
  · exact .inr (.inl h)
  change x ∈ moments _ (after1 p w) at hx
  split at hx
  · rw [moments_stop hx]; exact .inr (.inl rfl)
  rcases call_moments phase_simple hx with h | h | hx
  · exact .inr (.inl h)
  · exact .inr (.inr (.inl h))
  change x ∈ moments _ (after2 p w) at hx
  split at hx
  · rw [moments_stop hx]; exact .inr (.inr (.inl rfl))
  rcases call_moments phase_config hx with h | h | hx
  · exact .inr (.inr (.inl h))
  · exact .inr (.inr (.inr (.inl h)))
  change x ∈ moments _ (after3 p w) at hx
  split at hx
  · rw [moments_stop hx]; exact .inr (.inr (.inr (.inl rfl)))
  split at hx
  · rw [moments_stop hx]; exact .inr (.inr (.inr (.inl rfl)))
  rcases call_moments phase_create hx with h | h | hx
  · exact .inr (.inr (.inr (.inl h)))
  · exact .inr (.inr (.inr (.inr (.inl h))))
  change x ∈ moments _ (after4 p r w) at hx
  split at hx
  · rw [moments_stop hx]; exact .inr (.inr (.inr (.inr (.inl rfl))))
  split at hx
  · rw [moments_stop hx]; exact .inr (.inr (.inr (.inr (.inl rfl))))
  rcases call_moments phase_update hx with h | h | hx
  · exact .inr (.inr (.inr (.inr (.inl h))))
  · exact .inr (.inr (.inr (.inr (.inr h))))
  change x ∈ moments _ (after5 p r w) at hx
  split at hx
  · rw [moments_stop hx]; exact .inr (.inr (.inr (.inr (.inr rfl))))
  · rw [moments_ret hx]; exact .inr (.inr (.inr (.inr (.inr rfl))))

/-- If the parsing fails then the update fails, no command is run (the world is the one after the parsing), and the recorded
contents are those after the scan and the configuration. -/
theorem c43_update_fails (p : Parts F D) {phase : Nat} (hp : phase ≠ 1) (r : Bool) (w : World F D)
    (h1 : 0 ≤ rc (simple p.fullDeps p.reclaim) w) (h2 : 0 ≤ rc (simple p.scan p.reclaim) (after1 p w))
    (h3 : 0 ≤ rc (processConfig p.config) (after2 p w)) (h4 : rc (processCreate p.create r) (after3 p w) < 0) :
    rc (updater p phase r) w = -1 ∧ final (updater p phase r) w = after4 p r w ∧ (final (updater p phase r) w).ended = (after3 p w).disk := by
  have e : out (updater p phase r) w = (after4 p r w, .inl (-1)) := by
    rw [updater_eq, out_call, if_neg (by omega : ¬ rc (simple p.fullDeps p.reclaim) w < 0)]
    rw [show final (simple p.fullDeps p.reclaim) w = after1 p w from rfl, out_call,
      if_neg (by omega : ¬ rc (simple p.scan p.reclaim) (after1 p w) < 0)]
    rw [show final (simple p.scan p.reclaim) (after1 p w) = after2 p w from rfl, out_call,
      if_neg (by omega : ¬ rc (processConfig p.config) (after2 p w) < 0), if_neg hp]
    rw [show final (processConfig p.config) (after2 p w) = after3 p w from rfl, out_call, if_pos h4]
    rfl
  refine ⟨?_, ?_, ?_⟩
  · rw [rc_out, e]; rfl
  · rw [final_out, e]
  · rw [final_out, e]
    exact (c43_failed p.create r (after3 p w) h4).2

/-! ### The commands -/

/-- The results of the commands are recorded although some command failed (-1), but nothing is when the execution was
aborted (-2), although commands were run. -/
theorem c43_commands (p : UpdateParts F D) (w : World F D) {s : F × D} (hg : Ran [p.graph] w.state s) (he : p.empty s = false)
    {s' : F × D} (hs : Ran [p.serverInit] s s') :
    ((p.commands s').2 = -2 → rc (processUpdate p) w = -1 ∧ (final (processUpdate p) w).ended = w.disk) ∧
    ((p.commands s').2 ≠ -2 → ∀ s3, Ran [p.destroy] (lastState s' (p.commands s').1) s3 → 0 ≤ (p.reclaim s3).2 →
      rc (processUpdate p) w = (p.commands s').2 ∧ (final (processUpdate p) w).ended = (lastState s3 (p.reclaim s3).1).2) := by
  obtain ⟨t, w0, r, e, _, _, h3, h4⟩ := begin_spec w
  have hw0 : w0.work.isSome := by rw [h3]; rfl
  have hs0 : w0.state = w.state := by simp [World.state, World.view, h3, h4]
  have one : ∀ (q : Work F D) (k : M F D Int), Chains [q] (must q >>= fun _ => k) k := fun q k => chains_must (m := fun _ => k) chains_nil
  let k3 : M F D Int := do
    let rc ← work p.commands
    if rc = -2 then stop (-1) else updateEnd p rc
  let k2 : M F D Int := do
    must p.serverInit
    k3
  let k1 : M F D Int := do
    let s ← (fun w => ([], w, .inr (w.files, w.view)) : M F D (F × D))
    if p.empty s then updateEnd p 0 else k2
  have e0 : out (processUpdate p) w = out (must p.graph >>= fun _ => k1) w0 := by
    unfold processUpdate
    rw [out_bind, show out begin' w = (w0, .inr r) by unfold out; rw [e]]
  rcases one p.graph k1 w0 hw0 with ⟨_, b⟩ | ⟨w1, a1, b1, c1⟩
  · rw [hs0] at b; exact absurd hg (b s)
  rw [hs0] at a1
  have es : s = w1.state := Ran.det hg a1
  have e1 : out k1 w1 = out k2 w1 := by
    show out (if p.empty w1.state then updateEnd p 0 else k2) w1 = _
    rw [← es, if_neg (by rw [he]; decide)]
  rcases one p.serverInit k3 w1 b1 with ⟨_, b⟩ | ⟨w2, a2, b2, c2⟩
  · rw [← es] at b; exact absurd hs (b s')
  rw [← es] at a2
  have es' : s' = w2.state := Ran.det hs a2
  obtain ⟨w3, x1, x2, x3⟩ := out_work p.commands w2 b2
  have e3 : out k3 w2 = out (if (p.commands w2.state).2 = -2 then stop (-1) else updateEnd p (p.commands w2.state).2 : M F D Int) w3 := by
    show out (work p.commands >>= fun rc => if rc = -2 then stop (-1) else updateEnd p rc) w2 = _
    rw [out_bind, x1]
  have eall : out (processUpdate p) w = out (if (p.commands s').2 = -2 then stop (-1) else updateEnd p (p.commands s').2 : M F D Int) w3 := by
    rw [e0, c1, e1, show out k2 w1 = out k3 w2 from c2, e3, ← es']
  have hrc : rc (processUpdate p) w = value (out (processUpdate p) w).2 := rfl
  have hfin : final (processUpdate p) w = (out (processUpdate p) w).1 := rfl
  constructor
  · intro h2
    rw [if_pos h2] at eall
    refine ⟨by rw [hrc, eall]; rfl, ?_⟩
    rcases phase_update (p := p) w with ⟨_, h⟩ | ⟨⟨_, _, _, h⟩, _⟩
    · exact h
    · rw [show (processUpdate p w).2.1 = (out (processUpdate p) w).1 from rfl, eall] at h
      rw [show (out (stop (-1) : M F D Int) w3).1 = w3 from rfl] at h
      rw [h] at x3; cases x3
  · intro h2 s3 hd hr
    rw [if_neg h2] at eall
    rcases one p.destroy (commit p.reclaim >>= fun _ => ret (p.commands s').2) w3 x3 with ⟨_, b⟩ | ⟨w4, a4, b4, c4⟩
    · rw [x2, ← es'] at b; exact absurd hd (b s3)
    rw [x2, ← es'] at a4
    have e4 : s3 = w4.state := Ran.det hd a4
    have e5 : out (updateEnd p (p.commands s').2) w3 = out (commit p.reclaim >>= fun _ => ret (p.commands s').2) w4 := c4
    obtain ⟨w5, y1, y2, y3⟩ := out_work p.reclaim w4 b4
    obtain ⟨d, hd5⟩ := Option.isSome_iff_exists.1 y3
    have ec : out (commit p.reclaim) w4 = ({ w5 with disk := d, work := none }, .inr 0) := by
      unfold commit
      rw [out_bind, y1]
      show out (if (p.reclaim w4.state).2 < 0 then ret (-1) else commitStmt : M F D Int) w5 = _
      rw [if_neg (by rw [← e4]; omega)]
      unfold out; rw [commitStmt_some hd5]
    have e6 : out (commit p.reclaim >>= fun _ => ret (p.commands s').2) w4 = ({ w5 with disk := d, work := none }, .inr (p.commands s').2) := by
      rw [out_bind, ec]; rfl
    refine ⟨by rw [hrc, eall, e5, e6]; rfl, ?_⟩
    rw [hfin, eall, e5, e6, e4, ← y2]
    show d = w5.view
    unfold World.view; rw [hd5]

/-! ### Rules -/

open Tup.Db Tup.DoRule in
/-- The rules of a Tupfile, one after the other, as the parser handles them (`doRule`, the model of do_rule in
src/tup/parser.c:3475-3726).  Of the rule that is rejected some part has been written: `partly` gives the contents of the database
after each of its statements. -/
def parseRules (excl : Nat) (partly : Spec → Parse → List Db) : List Spec → Parse → List (Unit × Db) × Int
  | [], _ => ([], 0)
  | r :: rs, q =>
    match doRule excl r q with
    | none => ((partly r q).map fun d => ((), d), -1)
    | some q' =>
      let t := parseRules excl partly rs q'
      (((), q'.db) :: t.1, t.2)

open Tup.Db Tup.DoRule in
/-- The rules are all accepted, one after the other. -/
inductive Accepted (excl : Nat) : List Spec → Parse → Parse → Prop where
  | nil (q) : Accepted excl [] q q
  | cons {r rs q q' q''} : doRule excl r q = some q' → Accepted excl rs q' q'' → Accepted excl (r :: rs) q q''

open Tup.Db Tup.DoRule in
theorem parseRules_spec {excl : Nat} {partly : Spec → Parse → List Db} {rs : List Spec} {q : Parse} :
    (∃ q', Accepted excl rs q q' ∧ (parseRules excl partly rs q).2 = 0 ∧ lastState ((), q.db) (parseRules excl partly rs q).1 = ((), q'.db)) ∨
    ((∀ q', ¬ Accepted excl rs q q') ∧ (parseRules excl partly rs q).2 = -1) := by
  induction rs generalizing q with
  | nil => exact .inl ⟨q, .nil q, rfl, rfl⟩
  | cons r rs ih =>
    rw [parseRules]
    cases h : doRule excl r q with
    | none =>
      right
      refine ⟨fun q' ha => ?_, rfl⟩
      cases ha with
      | cons h' _ => rw [h] at h'; cases h'
    | some q1 =>
      rcases ih (q := q1) with ⟨q', a, b, c⟩ | ⟨a, b⟩
      · exact .inl ⟨q', .cons h a, b, c⟩
      · right
        refine ⟨fun q' ha => ?_, b⟩
        cases ha with
        | cons h' h2 => rw [h] at h'; cases h'; exact a _ h2

open Tup.Db Tup.DoRule in
/-- A single rejected rule, wherever it is: nothing of the other rules, and nothing of what was written for this one, is recorded. -/
theorem c43_rules {p : CreateParts Unit Db} (hc : Codes p) {excl : Nat} {partly : Spec → Parse → List Db} {rs : List Spec}
    {begin_ : Db → Parse} (hp : ∀ s, p.parse s = parseRules excl partly rs (begin_ s.2)) (refactoring : Bool) (w : World Unit Db)
    (hr : ∀ s1 s2 q, Ran p.front w.state s1 → Ran [p.serverInit, p.lua] s1 s2 → ¬ Accepted excl rs (begin_ s2.2) q) (he : ∀ s, p.empty s = false) :
    rc (processCreate p refactoring) w = -1 ∧
    (∀ x ∈ moments (processCreate p refactoring) w, x.ended = w.disk) ∧ (final (processCreate p refactoring) w).ended = w.disk := by
  have hrc : rc (processCreate p refactoring) w = -1 := by
    rcases (c43_succeeds_iff hc refactoring w).2 with h | h
    · obtain ⟨s, hs⟩ := (c43_succeeds_iff hc refactoring w).1.1 h
      cases hs with
      | none _ h _ _ => rw [he] at h; cases h
      | some hf _ h _ =>
        cases h with
        | cons h1 h => cases h with
          | cons h2 h => cases h with
            | cons h _ =>
              rw [hp] at h
              rcases parseRules_spec (excl := excl) (partly := partly) (rs := rs) (q := begin_ (lastState (lastState _ (p.serverInit _).1) (p.lua (lastState _ (p.serverInit _).1)).1).2) with ⟨q', a, _⟩ | ⟨_, b⟩
              · exact absurd a (hr _ _ _ hf (.cons h1 (.cons h2 (.nil _))))
              · exfalso
                rw [b] at h
                exact absurd h (by decide)
    · exact h
  exact ⟨hrc, c43_failed p refactoring w (by rw [hrc]; decide)⟩

/-! ### Cases -/

/-- A part that does nothing. -/
def skip : Work F D := fun _ => ([], 0)

/-- Files and recorded files; the parser records 1 and 2, file 7 is deleted, and the circular check gives `circ`. -/
def exParts (circ reclaim : Int) : CreateParts (List Nat) (List Nat) :=
  { createGraph := skip, select := skip, variants := skip, removing := skip, buildGraph := skip, empty := fun _ => false, serverInit := skip,
    lua := skip, parse := fun s => ([(s.1, 1 :: s.2), (s.1, 2 :: 1 :: s.2)], 0), normalDirs := skip,
    deleteFiles := fun s => ([(s.1.erase 7, s.2), (s.1.erase 7, s.2.erase 7)], 0), circCheck := fun _ => ([], circ), gitignore := skip,
    destroy := skip, changed := fun _ => true, reclaim := fun s => ([(s.1, s.2.erase 8)], reclaim) }

def exWorld : World (List Nat) (List Nat) := { files := [7, 9], disk := [7, 8, 9], work := none }

theorem exParts_codes {c r : Int} (hc : c ≤ 0) : Codes (exParts c r) := ⟨fun _ => Int.le_refl _, fun _ => Int.le_refl _, fun _ => hc⟩

-- success: all at once in the last moment
example : rc (processCreate (exParts 0 0) false) exWorld = 0 ∧
    (moments (processCreate (exParts 0 0) false) exWorld).map (·.disk) =
      [[7, 8, 9], [7, 8, 9], [7, 8, 9], [7, 8, 9], [7, 8, 9], [7, 8, 9], [7, 8, 9], [2, 1, 9]] := by decide

example : Parsed (exParts 0 0) false exWorld.state ([9], [2, 1, 8, 9]) :=
  .some (.cons (by decide) (.cons (by decide) (.cons (by decide) (.cons (by decide) (.cons (by decide) (.nil _)))))) rfl
    (.cons (by decide) (.cons (by decide) (.cons (by decide) (.cons (by decide) (.cons (by decide) (.cons (by decide) (.cons (by decide) (.cons (by decide) (.nil _)))))))))
    (fun h => by cases h)

-- failure after changes
example : rc (processCreate (exParts (-1) 0) false) exWorld = -1 ∧
    (moments (processCreate (exParts (-1) 0) false) exWorld).map (·.disk) =
      [[7, 8, 9], [7, 8, 9], [7, 8, 9], [7, 8, 9], [7, 8, 9], [7, 8, 9], [7, 8, 9]] := by decide

/-- But the files are not what they were: the deleted file stays deleted although it is recorded as existing (the next scan finds
that it is missing). -/
theorem c43_files_not_restored : ∃ (p : CreateParts (List Nat) (List Nat)) (w : World (List Nat) (List Nat)), Codes p ∧
    rc (processCreate p false) w < 0 ∧ (final (processCreate p false) w).ended = w.disk ∧ 7 ∈ w.disk ∧ 7 ∈ w.files ∧
    7 ∉ (final (processCreate p false) w).files :=
  ⟨exParts (-1) 0, exWorld, exParts_codes (by decide), by decide, by decide, by decide, by decide, by decide⟩

/-- A case of `c43_commit_ignored`: the parsing returns success, the file is deleted, and nothing is recorded. -/
theorem c43_success_unrecorded : ∃ (p : CreateParts (List Nat) (List Nat)) (w : World (List Nat) (List Nat)), Codes p ∧
    rc (processCreate p false) w = 0 ∧ (final (processCreate p false) w).ended = w.disk ∧
    (final (processCreate p false) w).view ≠ w.disk ∧ 7 ∈ w.disk ∧ 7 ∈ w.files ∧ 7 ∉ (final (processCreate p false) w).files :=
  ⟨exParts 0 (-1), exWorld, exParts_codes (by decide), by decide, by decide, by decide, by decide, by decide, by decide⟩

-- refactoring: the unexpected change is undone
example : rc (processCreate (exParts 0 0) true) exWorld = -1 ∧ (final (processCreate (exParts 0 0) true) exWorld).disk = [7, 8, 9] := by decide

/-- An update: the scan records 5, the configuration 6, then the parser as above, then the commands 3 and 4. -/
def exUpdateParts (circ cmds : Int) : Parts (List Nat) (List Nat) :=
  { fullDeps := skip, scan := fun s => ([(s.1, 5 :: s.2)], 0), reclaim := skip,
    config := { front := skip, vars := fun s => ([(s.1, 6 :: s.2)], 0), destroy := skip, reclaim := skip },
    create := exParts circ 0,
    update := { graph := skip, empty := fun _ => false, serverInit := skip, commands := fun s => ([(s.1, 3 :: s.2), (s.1, 4 :: 3 :: s.2)], cmds),
                destroy := skip, reclaim := skip } }

example : rc (updater (exUpdateParts (-1) 0) 0 false) exWorld = -1 ∧ (final (updater (exUpdateParts (-1) 0) 0 false) exWorld).ended = [6, 5, 7, 8, 9] := by decide
example : rc (updater (exUpdateParts 0 0) 0 false) exWorld = 0 ∧ (final (updater (exUpdateParts 0 0) 0 false) exWorld).ended = [4, 3, 2, 1, 6, 5, 9] := by decide
example : rc (updater (exUpdateParts 0 (-1)) 0 false) exWorld = -1 ∧ (final (updater (exUpdateParts 0 (-1)) 0 false) exWorld).ended = [4, 3, 2, 1, 6, 5, 9] := by decide
example : rc (updater (exUpdateParts 0 (-2)) 0 false) exWorld = -1 ∧ (final (updater (exUpdateParts 0 (-2)) 0 false) exWorld).ended = [2, 1, 6, 5, 9] := by decide

open Tup.Db Tup.DoRule in
/-- Two rules with the same output: the first is accepted, the second not (hypothesis of `c43_rules`). -/
example : ∀ q, ¬ Accepted 2 [exRule, exOther] exParse q := by
  intro q h
  cases h with
  | cons h h' =>
    rw [exRule_done] at h
    cases h
    cases h' with
    | cons h _ =>
      have : doRule 2 exOther exDone = none := by decide +kernel
      rw [this] at h; cases h

end Tup.Transact
