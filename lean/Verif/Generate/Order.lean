import Verif.Generate.Model
import Verif.Exec.Props

/-! Helpers for C72: the order in which the work function is called. -/

namespace Tup.Generate

open Tup.Exec

/-- A step of the main thread starts one job or none, and collects one result or none. -/
theorem main_cases {D : Type} {c : Cfg} {s s' : S D} (hm : mainStep c s = some s') :
    s'.db = s.db ∧
    ((s'.started = s.started ∧ s'.running = s.running ∧ (s'.fin = s.fin ∧ s'.failedL = s.failedL ∨ ∃ n ok, s.fin = (n, ok) :: s'.fin ∧ s'.failedL = if ok then s.failedL else n :: s.failedL)) ∨
     ∃ n rest, s.g.plist = n :: rest ∧ s'.running = n :: s.running ∧ s'.fin = s.fin ∧ s'.failedL = s.failedL ∧ s'.started = if s.g.trans n = .delete then s.started else n :: s.started) := by
  refine ⟨(main_mono hm).2.2.2.2.2.2, ?_⟩
  unfold mainStep at hm
  split at hm
  · split at hm
    · cases hm
      exact .inl ⟨rfl, rfl, .inl ⟨rfl, rfl⟩⟩
    · rename_i n rest hpl
      split at hm
      · cases hm
        exact .inl ⟨rfl, rfl, .inl ⟨rfl, rfl⟩⟩
      split at hm
      · cases hm
        exact .inl ⟨rfl, rfl, .inl ⟨rfl, rfl⟩⟩
      split at hm
      · split at hm
        · cases hm
          exact .inl ⟨rfl, rfl, .inl ⟨rfl, rfl⟩⟩
        · cases hm
          exact .inl ⟨rfl, rfl, .inl ⟨rfl, rfl⟩⟩
      split at hm
      · cases hm
        exact .inl ⟨rfl, rfl, .inl ⟨rfl, rfl⟩⟩
      · cases hm
        exact .inr ⟨n, rest, hpl, rfl, rfl, rfl, rfl⟩
  · split at hm
    · split at hm
      · cases hm
      · rename_i n ok fin' hfin
        split at hm
        · rename_i hok
          split at hm
          · cases hm
            exact .inl ⟨rfl, rfl, .inl ⟨rfl, rfl⟩⟩
          · cases hm
            exact .inl ⟨rfl, rfl, .inr ⟨n, ok, hfin, by rw [if_pos hok]⟩⟩
        · rename_i hok
          split at hm
          · cases hm
            exact .inl ⟨rfl, rfl, .inl ⟨rfl, rfl⟩⟩
          · cases hm
            exact .inl ⟨rfl, rfl, .inr ⟨n, ok, hfin, by rw [if_neg hok]⟩⟩
    · cases hm
      exact .inl ⟨rfl, rfl, .inl ⟨rfl, rfl⟩⟩
  · cases hm
  · cases hm

/-- What has been written is what the work function writes for the nodes in `log`. -/
structure Told (E : Env) (o0 : Out) (c : Cfg) (g0 : Graph) (rest : List Nat) (s : S Out) : Prop where
  log : ∀ x, x ∈ s.db.log ↔ x ∈ s.started ∧ x ∉ s.running
  nodup : s.db.log.Nodup
  order : ∀ a b u v, s.db.log = u ++ b :: v → Downstream g0 a b → HasJob c rest a → a ∈ v
  text : s.db = s.db.log.reverse.foldl (fun o n => (work E o n).1) o0
  fails : ∀ u n v, s.db.log = u ++ n :: v → (work E (v.reverse.foldl (fun o n => (work E o n).1) o0) n).2 = true ∨ (n, false) ∈ s.fin ∨ n ∈ s.failedL

theorem work_log (E : Env) (o : Out) (n : Nat) : (work E o n).1.log = n :: o.log := by
  unfold work
  simp only
  split
  · rfl
  split
  · rfl
  · rename_i d _ _ o' ho
    have : o'.log = n :: o.log := by
      split at ho
      · cases ho; rfl
      · cases hr : Relative.relative E.tab E.fuel o.cwd (E.src d) '/' with
        | none => rw [hr] at ho; cases ho
        | some s => rw [hr] at ho; cases ho; rfl
    split
    · exact this
    · exact this

variable {c : Cfg} {g0 : Graph} {root : Nat} {rest : List Nat}

theorem popped_down {s : S Out} (hi : Inv c g0 root rest s) {a b : Nat} (h : Downstream g0 a b) (hb : b ∈ s.started ∨ b ∈ s.popped) : a ∈ s.popped := by
  induction h with
  | one h =>
    rcases hb with hb | hb
    · exact hi.startedOrder _ hb _ h
    · exact hi.gi.popOrder _ hb _ h
  | tail _ h ih =>
    rcases hb with hb | hb
    · exact ih (.inr (hi.startedOrder _ hb _ h))
    · exact ih (.inr (hi.gi.popOrder _ hb _ h))

theorem told_step {E : Env} {o0 : Out} (hwf : WF g0 root rest) (htr : ∀ n, g0.trans n = .none) {s s' : S Out} (hi : Inv c g0 root rest s) (ht : Told E o0 c g0 rest s)
    (hst : Step c (Work E) s s') : Told E o0 c g0 rest s' := by
  have htn : ∀ n, s.g.trans n ≠ .delete := by
    intro n h
    rcases hi.gi.tr n with h1 | h1
    · rw [htr n, h] at h1; cases h1
    · rw [htr n] at h1; cases h1.1
  cases hst with
  | die h => exact ⟨ht.log, ht.nodup, ht.order, ht.text, ht.fails⟩
  | @finish n ok db' hn hw =>
    have hnl : n ∉ s.db.log := fun h => ((ht.log n).1 h).2 hn
    have hns : n ∈ s.started := (hi.heldStart n (List.mem_append_left _ hn)).1 (htn n)
    have hw : work E s.db n = (db', ok) := hw
    have hlog : db'.log = n :: s.db.log := by
      have := work_log E s.db n
      rw [hw] at this
      exact this
    have hrn : s.running.Nodup := ((List.nodup_append.1 ((List.nodup_append.1 hi.gi.nodup).2.1)).1)
    refine ⟨?_, ?_, ?_, ?_, ?_⟩
    · intro x
      simp only
      rw [hlog, List.mem_cons, ht.log]
      by_cases hx : x = n
      · subst hx
        refine ⟨fun _ => ⟨hns, ?_⟩, fun _ => .inl rfl⟩
        rw [hrn.mem_erase_iff]
        exact fun h => h.1 rfl
      · rw [hrn.mem_erase_iff]
        constructor
        · rintro (h | h)
          · exact absurd h hx
          · exact ⟨h.1, fun h' => h.2 h'.2⟩
        · intro h
          exact .inr ⟨h.1, fun h' => h.2 ⟨hx, h'⟩⟩
    · simp only
      rw [hlog]
      exact List.nodup_cons.2 ⟨hnl, ht.nodup⟩
    · intro a b u v huv hab ha
      simp only at huv
      rw [hlog] at huv
      cases u with
      | cons x u =>
        exact ht.order a b u v (List.cons.inj huv).2 hab ha
      | nil =>
        obtain ⟨h1, h2⟩ := List.cons.inj huv
        subst h1 h2
        have hp := popped_down hi hab (.inl hns)
        rw [ht.log]
        have hroot : a ≠ root := by
          rintro rfl
          exact (List.nodup_cons.1 hwf.nodup).1 ha.1
        refine ⟨?_, ?_⟩
        · rcases hi.poppedHow a hp with h | h | h
          · exact absurd h hroot
          · exact h
          · rw [ha.2] at h; cases h
        · intro hr
          exact htn a (hi.gi.popLive a hp (List.mem_append_right _ (List.mem_append_left _ hr)))
    · simp only
      rw [hlog, List.reverse_cons, List.foldl_append, ← ht.text]
      show db' = (work E s.db n).1
      rw [hw]
    · intro u m v huv
      simp only at huv ⊢
      rw [hlog] at huv
      cases u with
      | cons x u =>
        rcases ht.fails u m v (List.cons.inj huv).2 with h | h | h
        · exact .inl h
        · exact .inr (.inl (List.mem_cons_of_mem _ h))
        · exact .inr (.inr h)
      | nil =>
        obtain ⟨h1, h2⟩ := List.cons.inj huv
        subst h1 h2
        rw [← ht.text, hw]
        cases ok with
        | true => exact .inl rfl
        | false => exact .inr (.inl List.mem_cons_self)
  | main hm =>
    obtain ⟨hdb, h⟩ := main_cases hm
    rcases h with ⟨h1, h2, h3⟩ | ⟨n, r, h1, h2, h3, h4, h5⟩
    · refine ⟨?_, by rw [hdb]; exact ht.nodup, by rw [hdb]; exact ht.order, by rw [hdb]; exact ht.text, ?_⟩
      · rw [hdb, h1, h2]
        exact ht.log
      · intro u m v huv
        rw [hdb] at huv
        rcases h3 with ⟨h3, h4⟩ | ⟨n, ok, h3, h4⟩
        · rw [h3, h4]
          exact ht.fails u m v huv
        · rcases ht.fails u m v huv with h | h | h
          · exact .inl h
          · rw [h3] at h
            rcases List.mem_cons.1 h with h | h
            · cases h
              rw [h4]
              exact .inr (.inr List.mem_cons_self)
            · exact .inr (.inl h)
          · rw [h4]
            cases ok with
            | true => exact .inr (.inr h)
            | false => exact .inr (.inr (List.mem_cons_of_mem _ h))
    · rw [if_neg (htn n)] at h5
      have hns : n ∉ s.started := (hi.pend n (.inl (by rw [h1]; exact List.mem_cons_self))).1 (htn n)
      refine ⟨?_, by rw [hdb]; exact ht.nodup, by rw [hdb]; exact ht.order, by rw [hdb]; exact ht.text, by rw [hdb, h3, h4]; exact ht.fails⟩
      intro x
      rw [hdb, h5, h2, ht.log, List.mem_cons, List.mem_cons, not_or]
      constructor
      · rintro ⟨g1, g2⟩
        exact ⟨.inr g1, by rintro rfl; exact hns g1, g2⟩
      · rintro ⟨g1, g2, g3⟩
        exact ⟨g1.resolve_left g2, g3⟩

/-- When the executor reports success. -/
theorem told_done {E : Env} {o0 : Out} (ho : o0.log = []) (hj : 0 < c.jobs) (hwf : WF g0 root rest) (htr : ∀ n, g0.trans n = .none) {s : S Out} (hs : Running c (Work E) g0 o0 s)
    (hd : s.pc = .done true) : Told E o0 c g0 rest s ∧ (∀ x, x ∈ s.db.log ↔ HasJob c rest x) ∧
      ∀ u n v, s.db.log = u ++ n :: v → (work E (v.reverse.foldl (fun o n => (work E o n).1) o0) n).2 = true := by
  obtain ⟨s0, h0, hr⟩ := hs
  obtain ⟨s1, h1, hi, hp, _, _, _, hdb⟩ := start_inv (D := Out) hj hwf o0
  rw [h0] at h1
  injection h1 with h1
  subst h1
  have hst : s0.running = [] ∧ s0.started = [] := by
    unfold start at h0
    rw [hwf.nodes] at h0
    simp only at h0
    cases hpop : popNode { g0 with nodeList := rest } root with
    | none => rw [hpop] at h0; cases h0
    | some g => rw [hpop] at h0; cases h0; exact ⟨rfl, rfl⟩
  have ht0 : Told E o0 c g0 rest s0 := by
    have hl : s0.db.log = [] := by rw [hdb, ho]
    refine ⟨?_, ?_, ?_, ?_, ?_⟩
    · intro x
      rw [hl, hst.1, hst.2]
      simp
    · rw [hl]; exact List.nodup_nil
    · intro a b u v h
      rw [hl] at h
      simp at h
    · rw [hl, hdb]; rfl
    · intro u n v h
      rw [hl] at h
      simp at h
  have key : Inv c g0 root rest s ∧ root ∈ s.popped ∧ Told E o0 c g0 rest s := by
    clear hd
    induction hr with
    | refl => exact ⟨hi, by rw [hp]; exact List.mem_singleton.2 rfl, ht0⟩
    | tail hr' hst ih =>
      obtain ⟨g1, g2, g3⟩ := ih
      exact ⟨step_inv hwf g1 g2 hst, (step_mono hst).1 g2, told_step hwf htr g1 g3 hst⟩
  obtain ⟨hi', _, ht⟩ := key
  obtain ⟨hf, hjobs⟩ := c33_success_means_all_done hj hwf ⟨s0, h0, hr⟩ hd
  have hfl : s.failedL = [] := List.length_eq_zero_iff.1 (by rw [← hi'.failCount]; exact hf)
  have hact := (hi'.doneTrue hd).2.2.2
  have hfin : s.fin = [] := by
    simp only [S.active] at hact
    exact List.length_eq_zero_iff.1 (by omega)
  refine ⟨ht, fun x => ?_, fun u n v h => ?_⟩
  · rw [ht.log]
    constructor
    · rintro ⟨g1, _⟩
      exact ⟨hi'.startedSub x g1, hi'.startedExp x g1⟩
    · intro g
      have := hjobs x g
      exact ⟨this.1, this.2.1⟩
  · rcases ht.fails u n v h with g | g | g
    · exact g
    · rw [hfin] at g; cases g
    · rw [hfl] at g; cases g

end Tup.Generate
