import Verif.Transient.Spec
import Verif.Graph.Lemmas2

/-! The part of the graph that is there before transient commands are attached. -/

namespace Tup.Transient

open Tup.Graph
open Tup.Exec (upd upd_apply)

/-- The edges that are added for a node: none for a parked file. -/
def ops (d : Db) (n : Nat) : List Op := if Parked d n then [] else updateOps d.toLinks n

variable {d : Db} {root : Nat} {U : List Nat}

theorem ops_parked {n : Nat} (h : Parked d n) : ops d n = [] := if_pos h

theorem succ_ops (a b : Nat) : Succ (ops d) a b ↔ Follows d a b := by
  unfold Succ ops Follows
  by_cases h : Parked d a
  · simp [h]
  · rw [if_neg h]
    constructor
    · intro h1; exact ⟨(succ_updateOps _ a b).1 h1, h⟩
    · intro h1; exact (succ_updateOps _ a b).2 h1.1

theorem ops_ok (h : DbOk d root U) : OpsOk (ops d) root U where
  dst := by
    intro x hx o ho
    have := (succ_ops (d := d) x o.dst).1 ⟨o, ho, rfl⟩
    exact h.links x hx _ this.1
  src := by
    intro x _ o ho hc
    unfold ops at ho
    split at ho
    · cases ho
    · simp only [updateOps, List.mem_append, List.mem_map] at ho
      rcases ho with ⟨y, _, rfl⟩ | ⟨y, _, rfl⟩
      · rfl
      · simp at hc
  root := h.noRoot
  nodup := h.nodup

/-- State while the first nodes are put in. -/
structure Pre (d : Db) (root : Nat) (U R : List Nat) (b : B) : Prop where
  inv : ∃ E0, (∀ e, e ∈ E0 ↔ e.1 = root ∧ e.2 ∈ R) ∧ BInv (ops d) root U R E0 b
  noproc : ∀ x, b.st x ≠ .proc
  park : ∀ x, b.st x = .fin → Parked d x

theorem pre_empty (d : Db) (root : Nat) (U : List Nat) : Pre d root U [] (empty root) where
  inv := by
    refine ⟨[], by simp, ?_⟩
    constructor
    · exact base_empty root
    · intro l1 n l2 h; simp [empty] at h
    · intro x hx hr; simp [empty] at hx; exact absurd hx hr
    · intro x hx hr; simp [empty] at hx; exact absurd hx hr
    · simp
    · intro x hx hs; simp [empty] at hs
    · simp [empty]
  noproc := by intro x; simp [empty]
  park := by intro x h; simp [empty] at h

theorem pre_edge {R : List Nat} {b : B} (h : Pre d root U R b) {n : Nat} (hn : n ∈ U) (hr : root ∉ U) :
    ∃ b', makeEdge ⟨root, n, true⟩ b = some b' ∧ Pre d root U (R ++ [n]) b' ∧ b'.st = b.st ∧
      b'.nodeList = b.nodeList ∧ b'.plist = (if n ∈ b.nodes then b.plist else n :: b.plist) ∧
      (∀ x, x ∈ b'.nodes ↔ x ∈ b.nodes ∨ x = n) := by
  obtain ⟨E0, hE, hi⟩ := h.inv
  have hnr : n ≠ root := fun e => hr (e ▸ hn)
  rcases makeEdge_spec hi.base (o := ⟨root, n, true⟩) hnr with ⟨_, _, h3⟩ | ⟨_, b', e1, e2, e3, e4, e5, e6, e7⟩
  · exact absurd h3 (h.noproc n)
  · refine ⟨b', e1, ?_, e3, e4, e5, e6⟩
    have hnp : ∀ x, b'.st x ≠ .proc := by intro x; rw [e3]; exact h.noproc x
    refine ⟨⟨(root, n) :: E0, ?_, ?_⟩, hnp, by intro x; rw [e3]; exact h.park x⟩
    · intro e
      simp only [List.mem_cons, List.mem_append, List.not_mem_nil, or_false, hE]
      constructor
      · rintro (rfl | ⟨q1, q2⟩)
        · exact ⟨rfl, Or.inr rfl⟩
        · exact ⟨q1, Or.inl q2⟩
      · rintro ⟨q1, q2 | q2⟩
        · exact Or.inr ⟨q1, q2⟩
        · exact Or.inl (Prod.ext q1 q2)
    · constructor
      · exact e2
      · intro l1 m l2 _ hp; exact absurd hp (hnp m)
      · intro x hx hxr
        rcases (e6 x).1 hx with h1 | h1
        · obtain ⟨r, q1, q2⟩ := hi.reach x h1 hxr
          exact ⟨r, by simp [q1], q2⟩
        · exact ⟨n, by simp, Or.inl h1.symm⟩
      · intro x hx hxr
        rcases (e6 x).1 hx with h1 | h1
        · exact hi.inU x h1 hxr
        · exact h1 ▸ hn
      · intro x hx
        rcases List.mem_append.1 hx with h1 | h1
        · exact (e6 x).2 (Or.inl (hi.incl x h1))
        · simp only [List.mem_singleton] at h1
          exact (e6 x).2 (Or.inr h1)
      · intro x _ hs o ho
        rw [e3] at hs
        have hf : b.st x = .fin := by
          cases hq : b.st x with
          | init => exact absurd hq hs
          | proc => exact absurd hq (h.noproc x)
          | fin => rfl
        rw [ops_parked (h.park x hf)] at ho; cases ho
      · have hf : ∀ l : List Nat, l.filter (fun x => decide (b'.st x = .proc)) = [] := by
          intro l; rw [List.filter_eq_nil_iff]; intro x _; simp [hnp x]
        have hf2 : ∀ l : List Nat, l.filter (fun x => decide (b.st x = .proc)) = [] := by
          intro l; rw [List.filter_eq_nil_iff]; intro x _; simp [h.noproc x]
        have := hi.edges
        rw [hf2, List.append_nil] at this
        rw [e7, hf, e4, List.append_nil]
        exact (List.Perm.cons _ this).trans List.perm_middle.symm

/-- a new file of the transient list goes to node_list -/
theorem pre_park {R : List Nat} {b : B} (h : Pre d root U (R ++ [n]) b) {ps : List Nat} (hpl : b.plist = n :: ps)
    (hp : Parked d n) :
    Pre d root U (R ++ [n])
      { b with plist := b.plist.erase n, nodeList := b.nodeList ++ [n], st := upd b.st n .fin } := by
  obtain ⟨E0, hE, hi⟩ := h.inv
  have her : b.plist.erase n = ps := by rw [hpl]; simp
  rw [her]
  have hnd := hi.base.nodup
  rw [hpl] at hnd
  have hnd2 := hnd
  rw [List.nodup_append] at hnd2
  obtain ⟨tl, htl⟩ := hi.base.hd
  have hcr : n ≠ root := by
    rintro rfl
    exact hnd2.2.2 n (by simp [htl]) n (by simp) rfl
  have hcps : n ∉ ps := (List.nodup_cons.1 hnd2.2.1).1
  have hcnl : n ∉ b.nodeList := fun hc => hnd2.2.2 n hc n (by simp) rfl
  have hcur : n ∈ b.nodes := (hi.base.mem n).2 (Or.inr (by simp [hpl]))
  have hnp : ∀ x, upd b.st n .fin x ≠ .proc := by
    intro x; simp only [upd_apply]; split
    · simp
    · exact h.noproc x
  refine ⟨⟨E0, hE, ?_⟩, hnp, ?_⟩
  · constructor
    · exact { hi.base with
        hd := ⟨tl ++ [n], by simp [htl]⟩
        nodup := by
          have hp : (b.nodeList ++ [n] ++ ps).Perm (b.nodeList ++ n :: ps) := by simp
          exact hp.nodup_iff.2 hnd
        mem := by
          intro x
          rw [hi.base.mem x, hpl]
          simp only [List.mem_append, List.mem_cons, List.not_mem_nil, or_false]
          grind
        finL := by
          intro x hx hr
          simp only [upd_apply]
          split
          · rfl
          · rename_i hxc
            rcases List.mem_append.1 hx with h1 | h1
            · exact hi.base.finL x h1 hr
            · simp at h1; exact absurd h1 hxc
        pl := by
          intro x hx
          have hxc : x ≠ n := fun hc => hcps (hc ▸ hx)
          simp only [upd_apply, if_neg hxc]
          exact hi.base.pl x (by simp [hpl, show x ∈ ps from hx])
        notin := by
          intro x hx
          have hxc : x ≠ n := fun hc => hx (hc ▸ hcur)
          simp only [upd_apply, if_neg hxc]
          exact hi.base.notin x hx
        rootSt := by simp only [upd_apply, if_neg (Ne.symm hcr)]; exact hi.base.rootSt }
    · intro l1 m l2 _ hpr; exact absurd hpr (hnp m)
    · exact hi.reach
    · exact hi.inU
    · exact hi.incl
    · intro x hx hs o ho
      simp only [upd_apply] at hs
      by_cases hxc : x = n
      · rw [hxc, ops_parked hp] at ho; cases ho
      · rw [if_neg hxc] at hs; exact hi.kids x hx hs o ho
    · have hf : ∀ l : List Nat, l.filter (fun x => decide (upd b.st n .fin x = .proc)) = [] := by
        intro l; rw [List.filter_eq_nil_iff]; intro x _; rw [decide_eq_true_eq]; exact hnp x
      have hf2 : ∀ l : List Nat, l.filter (fun x => decide (b.st x = .proc)) = [] := by
        intro l; rw [List.filter_eq_nil_iff]; intro x _; simp [h.noproc x]
      have := hi.edges
      rw [hf2, List.append_nil] at this
      have ht : (b.nodeList ++ [n]).tail = b.nodeList.tail ++ [n] := by simp [htl]
      simp only [hf, ht, List.append_nil, List.flatMap_append, List.flatMap_cons, List.flatMap_nil, ops_parked hp,
        List.map_nil]
      exact this
  · intro x hx
    simp only [upd_apply] at hx
    split at hx
    · rename_i e; rw [e]; exact hp
    · exact h.park x hx

theorem choose_spec (h : DbOk d root U) : ∀ (ns R : List Nat) (b : B) (t : List Nat), Pre d root U R b →
    (∀ n ∈ ns, n ∈ U) → (∀ x, b.st x = .init) → (∀ x, x ∈ b.nodes ↔ x = root ∨ x ∈ R) →
    ∃ b', choose d root ns (b, t) = some (b', t ++ ns.filter (fun n => d.isCmd n && d.temp n)) ∧
      Pre d root U (R ++ ns.filter (fun n => !(d.isCmd n && d.temp n))) b' ∧ (∀ x, b'.st x = .init) ∧
      (∀ x, x ∈ b'.nodes ↔ x = root ∨ x ∈ R ++ ns.filter (fun n => !(d.isCmd n && d.temp n))) := by
  intro ns
  induction ns with
  | nil => intro R b t hp _ hs hm; exact ⟨b, by simp [choose], by simpa using hp, hs, by simpa using hm⟩
  | cons n ns ih =>
    intro R b t hp hU hs hm
    simp only [choose]
    by_cases hc : (d.isCmd n && d.temp n) = true
    · rw [if_pos hc]
      obtain ⟨b', e1, e2, e3, e4⟩ := ih R b (t ++ [n]) hp (fun m hm => hU m (by simp [hm])) hs hm
      refine ⟨b', ?_, ?_, e3, ?_⟩
      · rw [e1, List.filter_cons, if_pos hc]; simp
      · rw [List.filter_cons, if_neg (by simp [hc])]; exact e2
      · rw [List.filter_cons, if_neg (by simp [hc])]; exact e4
    · rw [if_neg hc]
      obtain ⟨b1, f1, f2, f3, f4, f5, f6⟩ := pre_edge hp (hU n (by simp)) h.noRoot
      simp only [f1]
      obtain ⟨b', e1, e2, e3, e4⟩ := ih (R ++ [n]) b1 t f2 (fun m hm => hU m (by simp [hm]))
        (by intro x; rw [f3]; exact hs x) (by intro x; rw [f6, hm]; simp [or_assoc])
      refine ⟨b', ?_, ?_, e3, ?_⟩
      · rw [e1, List.filter_cons, if_neg hc]
      · rw [List.filter_cons, if_pos (by simp [hc])]; simpa using e2
      · rw [List.filter_cons, if_pos (by simp [hc])]; simpa using e4

theorem parkAll_spec (h : DbOk d root U) : ∀ (ns R : List Nat) (b : B), Pre d root U R b →
    (∀ n ∈ ns, n ∈ d.kept) → (∀ x ∈ d.modify, d.isCmd x = false → x ∈ b.nodes) →
    (∀ n ∈ ns, d.isCmd n = false → n ∈ b.nodes → n ∈ R) → ns.Nodup →
    (∀ x ∈ b.nodes, x ≠ root → x ∈ R) → (∀ x ∈ b.nodes, Parked d x → b.st x = .fin) →
    ∃ b' R', parkAll d root ns b = some b' ∧ Pre d root U R' b' ∧ (∀ x, x ∈ R' ↔ x ∈ R ∨ x ∈ ns) ∧
      (∀ x ∈ b'.nodes, Parked d x → b'.st x = .fin) := by
  intro ns
  induction ns with
  | nil =>
    intro R b hp _ _ _ _ _ hf
    exact ⟨b, R, rfl, hp, by simp, hf⟩
  | cons n ns ih =>
    intro R b hp hk hmod hR hnd hbR hf
    have hnU : n ∈ U := h.kept n (hk n (by simp))
    have hnr : n ≠ root := fun e => h.noRoot (e ▸ hnU)
    obtain ⟨hnn, hnd'⟩ := List.nodup_cons.1 hnd
    obtain ⟨b1, f1, f2, f3, f4, f5, f6⟩ := pre_edge hp hnU h.noRoot
    simp only [parkAll, park]
    by_cases hc : d.isCmd n = true
    · rw [if_pos hc, f1]
      obtain ⟨b', R', e1, e2, e3, e4⟩ := ih (R ++ [n]) b1 f2 (fun m hm => hk m (by simp [hm]))
        (fun x hx hxc => (f6 x).2 (Or.inl (hmod x hx hxc)))
        (fun m hm hmc hmb => by
          rcases (f6 m).1 hmb with q | q
          · exact List.mem_append_left _ (hR m (by simp [hm]) hmc q)
          · rw [q, hc] at hmc; cases hmc)
        hnd'
        (fun x hx hxr => by
          rcases (f6 x).1 hx with q | q
          · exact List.mem_append_left _ (hbR x q hxr)
          · simp [q])
        (fun x hx hxp => by
          rw [f3]
          rcases (f6 x).1 hx with q | q
          · exact hf x q hxp
          · rw [q] at hxp; rw [hxp.2.1] at hc; cases hc)
      exact ⟨b', R', e1, e2, by intro x; rw [e3]; simp [or_assoc], e4⟩
    · have hc' : d.isCmd n = false := by simpa using hc
      rw [if_neg hc]
      by_cases hin : n ∈ b.nodes
      · rw [if_pos hin]
        obtain ⟨b', R', e1, e2, e3, e4⟩ := ih R b hp (fun m hm => hk m (by simp [hm])) hmod
          (fun m hm => hR m (by simp [hm])) hnd' hbR hf
        refine ⟨b', R', e1, e2, ?_, e4⟩
        intro x; rw [e3]
        have := hR n (by simp) hc' hin
        simp only [List.mem_cons]
        constructor
        · rintro (q | q)
          · exact Or.inl q
          · exact Or.inr (Or.inr q)
        · rintro (q | q | q)
          · exact Or.inl q
          · exact Or.inl (q ▸ this)
          · exact Or.inr q
      · rw [if_neg hin, f1]
        rw [if_neg hin] at f5
        have hpk : Parked d n := ⟨hk n (by simp), hc', fun hm => hin (hmod n hm hc')⟩
        have hp2 := pre_park f2 f5 hpk
        obtain ⟨b', R', e1, e2, e3, e4⟩ := ih (R ++ [n]) _ hp2 (fun m hm => hk m (by simp [hm]))
          (fun x hx hxc => (f6 x).2 (Or.inl (hmod x hx hxc)))
          (fun m hm hmc hmb => by
            rcases (f6 m).1 hmb with q | q
            · exact List.mem_append_left _ (hR m (by simp [hm]) hmc q)
            · simp [q])
          hnd'
          (fun x hx hxr => by
            rcases (f6 x).1 hx with q | q
            · exact List.mem_append_left _ (hbR x q hxr)
            · simp [q])
          (fun x hx hxp => by
            simp only [upd_apply]
            split
            · rfl
            · rename_i hxn
              rw [f3]
              rcases (f6 x).1 hx with q | q
              · exact hf x q hxp
              · exact absurd q hxn)
        exact ⟨b', R', e1, e2, by intro x; rw [e3]; simp [or_assoc], e4⟩

theorem makeEdge_st {o : Op} {b b' : B} (h : makeEdge o b = some b') : b'.st = b.st := by
  have hf : (findOrCreate o.dst b).st = b.st := by unfold findOrCreate; split <;> rfl
  simp only [makeEdge] at h
  split at h
  · cases h
  · have e := Option.some.inj h
    rw [← e, ← hf]
    simp only
    split <;> rfl

theorem addLinks_st : ∀ {os : List Op} {b b' : B}, addLinks os b = some b' → b'.st = b.st := by
  intro os
  induction os with
  | nil => intro b b' h; injection h with h; subst h; rfl
  | cons o os ih =>
    intro b b' h
    simp only [addLinks] at h
    cases hm : makeEdge o b with
    | none => rw [hm] at h; cases h
    | some b1 =>
      rw [hm] at h
      exact (ih h).trans (makeEdge_st hm)

/-- The loop never looks at a parked file. -/
theorem loop_parked : ∀ (fuel : Nat) (b : B), (∀ x, Parked d x → b.st x = .fin) →
    loop (updateOps d.toLinks) fuel b = loop (ops d) fuel b := by
  intro fuel
  induction fuel with
  | zero => intro b _; rfl
  | succ fuel ih =>
    intro b hp
    simp only [loop]
    cases hpl : b.plist with
    | nil => rfl
    | cons cur rest =>
      simp only
      cases hst : b.st cur with
      | init =>
        simp only
        have hnp : ¬ Parked d cur := fun h => by rw [hp cur h] at hst; cases hst
        have e : ops d cur = updateOps d.toLinks cur := if_neg hnp
        rw [e]
        cases ha : addLinks (updateOps d.toLinks cur) b with
        | none => rfl
        | some b1 =>
          simp only
          refine ih _ ?_
          intro x hx
          have hxc : x ≠ cur := fun e => hnp (e ▸ hx)
          simp only [upd_apply, if_neg hxc, addLinks_st ha]
          exact hp x hx
      | proc =>
        simp only
        refine ih _ ?_
        intro x hx
        simp only [upd_apply]
        split
        · rfl
        · exact hp x hx
      | fin => rfl

theorem stM_le (s : St) : stM s ≤ 2 := by cases s <;> simp [Graph.stM]

theorem bMeasure_le (U : List Nat) (b : B) : bMeasure U b ≤ 2 * U.length := by
  unfold bMeasure
  induction U with
  | nil => simp
  | cons a U ih =>
    have := stM_le (b.st a)
    simp only [List.map_cons, List.sum_cons, List.length_cons]
    omega

/-- The transient commands that are looked at in the end. -/
def waiting (d : Db) : List Nat := d.modify.filter fun n => d.isCmd n && d.temp n

theorem mem_waiting (n : Nat) : n ∈ waiting d ↔ Waiting d n := by
  simp [waiting, Waiting]

/-- The graph before transient commands are attached: everything that is reached, with all its links. -/
structure Reached (d : Db) (root : Nat) (b : B) : Prop where
  hd : ∃ tl, b.nodeList = root :: tl
  nodup : b.nodeList.Nodup
  plist : b.plist = []
  mem : ∀ x, x ∈ b.nodes ↔ x ∈ b.nodeList
  nodes : ∀ x, x ≠ root → (x ∈ b.nodes ↔ Changed d x)
  fin : ∀ x ∈ b.nodes, x ≠ root → b.st x = .fin
  exp : ∀ x ∈ b.nodes, x ≠ root → b.expanded x = true
  notin : ∀ x, x ∉ b.nodes → b.st x = .init ∧ b.expanded x = false
  rootSt : b.st root = .init
  edges : ∀ a x, (a, x) ∈ b.edges ↔ (a = root ∧ Start d x) ∨ (a ≠ root ∧ Changed d a ∧ Follows d a x)

/-- Up to that point the graph is built, or there is a cycle. -/
theorem reached_spec (h : DbOk d root U) :
    (∃ b0 b1 b2, choose d root d.modify (empty root, []) = some (b0, waiting d) ∧
      parkAll d root d.kept b0 = some b1 ∧ loop (updateOps d.toLinks) (2 * U.length) b1 = .ok b2 ∧
      Reached d root b2) ∨
    (build d root U = .circular ∧ ∃ n, Changed d n ∧ Plus (Follows d) n n) := by
  obtain ⟨b0, e1, e2, e3, e4⟩ := choose_spec h d.modify [] (empty root) [] (pre_empty d root U) h.modify
    (by intro x; simp [empty]) (by intro x; simp [empty])
  simp only [List.nil_append] at e1 e2 e4
  have hmod : ∀ x ∈ d.modify, d.isCmd x = false → x ∈ b0.nodes := by
    intro x hx hc
    refine (e4 x).2 (Or.inr ?_)
    simp [hx, hc]
  obtain ⟨b1, R, f1, f2, f3, f4⟩ := parkAll_spec h d.kept _ b0 e2 (fun _ hn => hn) hmod
    (fun n hn _ hb => by
      rcases (e4 n).1 hb with q | q
      · exact absurd (h.kept n hn) (q ▸ h.noRoot)
      · exact q)
    h.keptOnce
    (fun x hx hr => by
      rcases (e4 x).1 hx with q | q
      · exact absurd q hr
      · exact q)
    (fun x hx hp => by
      exfalso
      rcases (e4 x).1 hx with q | q
      · exact h.noRoot (q ▸ h.kept x hp.1)
      · exact hp.2.2 (List.mem_filter.1 q).1)
  have hR : ∀ x, x ∈ R ↔ Start d x := by
    intro x; rw [f3]
    simp only [Start, List.mem_filter, Bool.not_eq_true', Bool.and_eq_false_iff]
    cases d.isCmd x <;> cases d.temp x <;> simp
  obtain ⟨E0, hE, hi⟩ := f2.inv
  have hpk : ∀ x, Parked d x → b1.st x = .fin := by
    intro x hx
    exact f4 x (hi.incl x ((hR x).2 (Or.inr hx.1))) hx
  have hRU : ∀ r ∈ R, r ∈ U := by
    intro r hr
    rcases (hR r).1 hr with q | q
    · exact h.modify r q.1
    · exact h.kept r q
  have hops := ops_ok h
  have hstar : ∀ {a x}, Star (Succ (ops d)) a x → Star (Follows d) a x :=
    fun hs => hs.mono fun a b => (succ_ops a b).1
  have hstar' : ∀ {a x}, Star (Follows d) a x → Star (Succ (ops d)) a x :=
    fun hs => hs.mono fun a b => (succ_ops a b).2
  rcases loop_spec hops (2 * U.length) b1 hi (bMeasure_le U b1) with ⟨b2, g1, g2, g3⟩ | ⟨g1, n, ⟨r, hr, g2⟩, g3⟩
  · left
    refine ⟨b0, b1, b2, e1, f1, by rw [loop_parked _ _ hpk]; exact g1, ?_⟩
    obtain ⟨tl, htl⟩ := g2.base.hd
    have hnd := g2.base.nodup
    rw [g3, List.append_nil] at hnd
    have hm : ∀ x, x ∈ b2.nodes ↔ x ∈ b2.nodeList := by
      intro x; rw [g2.base.mem, g3]; simp
    have hn : ∀ x, x ∈ tl ↔ Changed d x := by
      intro x
      have := final_nodes hops g2 g3 hRU x
      rw [htl, List.tail_cons] at this
      rw [this]
      constructor
      · rintro ⟨r, q1, q2⟩; exact ⟨r, (hR r).1 q1, hstar q2⟩
      · rintro ⟨r, q1, q2⟩; exact ⟨r, (hR r).2 q1, hstar' q2⟩
    have hrt : root ∉ tl := by rw [htl] at hnd; exact (List.nodup_cons.1 hnd).1
    refine ⟨⟨tl, htl⟩, hnd, g3, hm, ?_, ?_, g2.base.exp, g2.base.notin, g2.base.rootSt, ?_⟩
    · intro x hx
      rw [hm, htl, ← hn]
      simp [hx]
    · intro x hx hr
      exact g2.base.finL x ((hm x).1 hx) hr
    · intro a x
      have he := g2.edges
      rw [g3, htl] at he
      simp only [List.tail_cons, List.filter_nil, List.append_nil] at he
      rw [he.mem_iff]
      simp only [List.mem_append, List.mem_flatMap, List.mem_map, hE, hR]
      constructor
      · rintro (⟨n, q1, o, q2, q3⟩ | ⟨q1, q2⟩)
        · right
          have hno : n ∈ U := g2.inU n ((hm n).2 (by simp [htl, q1])) (fun e => hrt (e ▸ q1))
          have hsrc : o.src = n := by
            unfold ops at q2
            split at q2
            · cases q2
            · simp only [updateOps, List.mem_append, List.mem_map] at q2
              rcases q2 with ⟨y, _, rfl⟩ | ⟨y, _, rfl⟩ <;> rfl
          simp only [Op.edge, Prod.mk.injEq] at q3
          rw [← q3.1, ← q3.2, hsrc]
          exact ⟨fun e => hrt (e ▸ q1), (hn n).1 q1, (succ_ops n o.dst).1 ⟨o, q2, rfl⟩⟩
        · exact Or.inl ⟨q1, q2⟩
      · rintro (⟨q1, q2⟩ | ⟨_, q1, q2⟩)
        · exact Or.inr ⟨q1, q2⟩
        · left
          refine ⟨a, (hn a).2 q1, ?_⟩
          obtain ⟨o, p1, p2⟩ := (succ_ops a x).2 q2
          refine ⟨o, p1, ?_⟩
          have hsrc : o.src = a := by
            unfold ops at p1
            split at p1
            · cases p1
            · simp only [updateOps, List.mem_append, List.mem_map] at p1
              rcases p1 with ⟨y, _, rfl⟩ | ⟨y, _, rfl⟩ <;> rfl
          simp only [Op.edge, hsrc, p2]
  · right
    refine ⟨?_, n, ⟨r, (hR r).1 hr, hstar g2⟩, g3.mono fun a b => (succ_ops a b).1⟩
    simp only [build, e1, f1, loop_parked _ _ hpk, g1]

end Tup.Transient
