import Verif.Graph.Lemmas

/-! Lemmas about `trim`, `connLoop` and `mark`. -/

namespace Tup.Graph

open Tup.Exec (upd upd_apply countP_lt)

/-! ### trim -/

/-- every member has a predecessor and a successor in the set -/
def Knot (E : List (Nat × Nat)) (C : Nat → Prop) : Prop :=
  ∀ c, C c → (∃ a, C a ∧ (a, c) ∈ E) ∧ (∃ d, C d ∧ (c, d) ∈ E)

theorem knot_cycle (E : List (Nat × Nat)) : Knot E (fun x => Plus (EdgeRel E) x x) := by
  intro c hc
  constructor
  · cases hc with
    | one h => exact ⟨c, .one h, h⟩
    | tail h1 h2 =>
      rename_i b
      exact ⟨b, Plus.trans (.one h2) h1, h2⟩
  · -- first edge
    have : ∀ x y, Plus (EdgeRel E) x y → ∃ d, (x, d) ∈ E ∧ Star (EdgeRel E) d y := by
      intro x y h
      induction h with
      | one h => exact ⟨_, h, Or.inl rfl⟩
      | tail _ h2 ih =>
        obtain ⟨d, h3, h4⟩ := ih
        exact ⟨d, h3, h4.tail h2⟩
    obtain ⟨d, h1, h2⟩ := this c c hc
    refine ⟨d, ?_, h1⟩
    rcases h2 with rfl | h2
    · exact .one h1
    · exact .tail h2 h1

theorem trimPass_spec : ∀ (ns : List Nat) (N : List Nat) (E : List (Nat × Nat)),
    ns.Nodup → N.Nodup → (∀ x ∈ ns, x ∈ N) → (∀ e ∈ E, e.1 ∈ N ∧ e.2 ∈ N) →
    let r := trimPass ns (N, E)
    r.1.1.Nodup ∧ (∀ e ∈ r.1.2, e.1 ∈ r.1.1 ∧ e.2 ∈ r.1.1) ∧ (∀ e ∈ r.1.2, e ∈ E) ∧
    (∀ x ∈ r.1.1, x ∈ N) ∧
    (∀ C, Knot E C → (∀ c, C c → c ∈ N) → Knot r.1.2 C ∧ (∀ c, C c → c ∈ r.1.1)) ∧
    (r.2 = true → r.1.1.length < N.length) ∧ r.1.1.length ≤ N.length ∧
    (r.2 = false → r.1 = (N, E) ∧ ∀ n ∈ ns, (∃ a, (a, n) ∈ E) ∧ (∃ d, (n, d) ∈ E)) := by
  intro ns
  induction ns with
  | nil =>
    intro N E _ hN _ hE
    simp only [trimPass]
    exact ⟨hN, hE, fun _ h => h, fun _ h => h, fun C hC hc => ⟨hC, hc⟩, by simp, Nat.le_refl _,
      fun _ => by simp⟩
  | cons n ns ih =>
    intro N E hns hN hsub hE
    obtain ⟨hn1, hn2⟩ := List.nodup_cons.1 hns
    have hnN := hsub n (by simp)
    simp only [trimPass]
    by_cases hcond : ((E.all (·.2 ≠ n)) || (E.all (·.1 ≠ n))) = true
    · rw [if_pos hcond]
      have hE' : ∀ e ∈ E.filter (fun e => e.1 ≠ n && e.2 ≠ n), e.1 ∈ N.erase n ∧ e.2 ∈ N.erase n := by
        intro e he
        rw [List.mem_filter] at he
        simp only [Bool.and_eq_true, decide_eq_true_eq] at he
        have := hE e he.1
        exact ⟨(List.mem_erase_of_ne he.2.1).2 this.1, (List.mem_erase_of_ne he.2.2).2 this.2⟩
      obtain ⟨i1, i2, i3, i4, i5, i6, i7, i8⟩ := ih (N.erase n)
        (E.filter fun e => e.1 ≠ n && e.2 ≠ n) hn2 (hN.erase n)
        (by
          intro x hx
          have : x ≠ n := fun hc => hn1 (hc ▸ hx)
          exact (List.mem_erase_of_ne this).2 (hsub x (by simp [hx]))) hE'
      have hlen := List.length_erase_of_mem hnN
      have hpos := List.length_pos_of_mem hnN
      refine ⟨i1, i2, ?_, ?_, ?_, ?_, ?_, by simp⟩
      · intro e he; exact (List.mem_filter.1 (i3 e he)).1
      · intro x hx; exact List.mem_of_mem_erase (i4 x hx)
      · intro C hC hc
        have hnC : ¬ C n := by
          intro h
          obtain ⟨⟨a, _, ha⟩, ⟨d, _, hd⟩⟩ := hC n h
          simp only [Bool.or_eq_true, List.all_eq_true, decide_eq_true_eq] at hcond
          rcases hcond with h1 | h1
          · exact h1 _ ha rfl
          · exact h1 _ hd rfl
        apply i5 C
        · intro c hc'
          obtain ⟨⟨a, ha, hae⟩, ⟨d, hd, hde⟩⟩ := hC c hc'
          have e1 : a ≠ n := fun h => hnC (h ▸ ha)
          have e2 : c ≠ n := fun h => hnC (h ▸ hc')
          have e3 : d ≠ n := fun h => hnC (h ▸ hd)
          refine ⟨⟨a, ha, ?_⟩, ⟨d, hd, ?_⟩⟩
          · rw [List.mem_filter]; exact ⟨hae, by simp [e1, e2]⟩
          · rw [List.mem_filter]; exact ⟨hde, by simp [e2, e3]⟩
        · intro c hc'
          have e2 : c ≠ n := fun h => hnC (h ▸ hc')
          exact (List.mem_erase_of_ne e2).2 (hc c hc')
      · intro _; show List.length _ < _; dsimp only; omega
      · show List.length _ ≤ _; dsimp only; omega
    · rw [if_neg hcond]
      obtain ⟨i1, i2, i3, i4, i5, i6, i7, i8⟩ := ih N E hn2 hN (fun x hx => hsub x (by simp [hx])) hE
      refine ⟨i1, i2, i3, i4, i5, i6, i7, ?_⟩
      intro hf
      obtain ⟨j1, j2⟩ := i8 hf
      refine ⟨j1, ?_⟩
      intro m hm
      rcases List.mem_cons.1 hm with rfl | hm
      · simp only [Bool.or_eq_true, List.all_eq_true, decide_eq_true_eq, not_or, Classical.not_forall,
          Decidable.not_not] at hcond
        obtain ⟨⟨⟨a, b⟩, h1, h2⟩, ⟨⟨c, d⟩, h3, h4⟩⟩ := hcond
        simp only at h2 h4
        exact ⟨⟨a, h2 ▸ h1⟩, ⟨d, h4 ▸ h3⟩⟩
      · exact j2 m hm

open Classical in
theorem acyclic_no_pred {E : List (Nat × Nat)} {N : List Nat} (hac : ∀ n, ¬ Plus (EdgeRel E) n n)
    (hE : ∀ e ∈ E, e.1 ∈ N ∧ e.2 ∈ N) (hp : ∀ n ∈ N, ∃ a, (a, n) ∈ E) : N = [] := by
  have key : ∀ k n, n ∈ N → N.countP (fun x => decide (Plus (EdgeRel E) x n)) < k → False := by
    intro k
    induction k with
    | zero => intro n _ h; omega
    | succ k ih =>
      intro n hn hk
      obtain ⟨a, ha⟩ := hp n hn
      have haN := (hE _ ha).1
      have := countP_lt (fun x => decide (Plus (EdgeRel E) x a)) (fun x => decide (Plus (EdgeRel E) x n)) a
        (by simpa using hac a) (by simpa using Plus.one ha) N haN
        (by intro x hx; simp only [decide_eq_true_eq] at hx ⊢; exact .tail hx ha)
      exact ih a haN (by omega)
  cases hN : N with
  | nil => rfl
  | cons n ns => exact (key _ n (by simp [hN]) (Nat.lt_succ_self _)).elim

theorem trim_spec : ∀ (fuel : Nat) (N : List Nat) (E : List (Nat × Nat)), N.length < fuel →
    N.Nodup → (∀ e ∈ E, e.1 ∈ N ∧ e.2 ∈ N) →
    let r := trim fuel (N, E)
    (∀ C, Knot E C → (∀ c, C c → c ∈ N) → ∀ c, C c → c ∈ r.1) ∧
    (∀ e ∈ r.2, e ∈ E) ∧ (∀ e ∈ r.2, e.1 ∈ r.1 ∧ e.2 ∈ r.1) ∧
    (∀ n ∈ r.1, ∃ a, (a, n) ∈ r.2) := by
  intro fuel
  induction fuel with
  | zero => intro N E h; omega
  | succ fuel ih =>
    intro N E hlen hN hE
    obtain ⟨p1, p2, p3, p4, p5, p6, p7, p8⟩ := trimPass_spec N N E hN hN (fun _ h => h) hE
    have hun : trim (fuel + 1) (N, E) =
        if (trimPass N (N, E)).2 then trim fuel (trimPass N (N, E)).1 else (trimPass N (N, E)).1 := rfl
    simp only
    rw [hun]
    by_cases hr : (trimPass N (N, E)).2 = true
    · rw [if_pos hr]
      have hlt := p6 hr
      obtain ⟨i1, i2, i3, i4⟩ := ih (trimPass N (N, E)).1.1 (trimPass N (N, E)).1.2 (by omega) p1 p2
      refine ⟨?_, ?_, i3, i4⟩
      · intro C hC hc c hcc
        obtain ⟨q1, q2⟩ := p5 C hC hc
        exact i1 C q1 q2 c hcc
      · intro e he; exact p3 e (i2 e he)
    · rw [if_neg hr]
      have hf : (trimPass N (N, E)).2 = false := by simpa using hr
      obtain ⟨q1, q2⟩ := p8 hf
      rw [q1]
      exact ⟨fun C _ hc => hc, fun _ h => h, hE, fun n hn => (q2 n hn).1⟩

/-- `trim` leaves nothing exactly when there is no cycle. -/
theorem trim_empty_iff {N : List Nat} {E : List (Nat × Nat)} (hN : N.Nodup)
    (hE : ∀ e ∈ E, e.1 ∈ N ∧ e.2 ∈ N) :
    (trim (N.length + 1) (N, E)).1 = [] ↔ ∀ n, ¬ Plus (EdgeRel E) n n := by
  obtain ⟨h1, h2, h3, h4⟩ := trim_spec (N.length + 1) N E (by omega) hN hE
  constructor
  · intro he n hn
    have hk := knot_cycle E
    have hin : ∀ c, Plus (EdgeRel E) c c → c ∈ N := by
      intro c hc
      obtain ⟨⟨a, _, ha⟩, _⟩ := hk c hc
      exact (hE _ ha).2
    have := h1 _ hk hin n hn
    rw [he] at this; simp at this
  · intro hac
    refine acyclic_no_pred (E := (trim (N.length + 1) (N, E)).2) ?_ h3 h4
    intro n hn
    exact hac n (hn.mono (fun a b h => h2 _ h))

/-! ### connLoop -/

variable {ops : Nat → List Op} {root : Nat} {U R : List Nat} {E0 : List (Nat × Nat)}

theorem connLoop_spec (hops : OpsOk ops root U) (src : Nat) (valid : Nat → Bool) :
    ∀ (fuel : Nat) (b : B), BInv ops root U R E0 b →
    (∀ x ∈ b.nodeList.tail, ¬ (x ≠ src ∧ valid x = true)) →
    bMeasure U b ≤ fuel →
    (connLoop ops src valid fuel b = some true ∧
      ∃ r ∈ R, ∃ x, Star (Succ ops) r x ∧ x ≠ src ∧ valid x = true) ∨
    (connLoop ops src valid fuel b = some false ∧ ∃ b', BInv ops root U R E0 b' ∧ b'.plist = [] ∧
      ∀ x ∈ b'.nodeList.tail, ¬ (x ≠ src ∧ valid x = true)) ∨
    (connLoop ops src valid fuel b = none ∧
      ∃ n, (∃ r ∈ R, Star (Succ ops) r n) ∧ Plus (Succ ops) n n) := by
  intro fuel
  induction fuel with
  | zero =>
    intro b h hv hm
    cases hpl : b.plist with
    | nil => right; left; exact ⟨by simp [connLoop, hpl], b, h, hpl, hv⟩
    | cons cur ps =>
      exfalso
      have hcur : cur ∈ b.nodes := (h.base.mem cur).2 (Or.inr (by simp [hpl]))
      have hcr : cur ≠ root := by
        rintro rfl
        obtain ⟨tl, htl⟩ := h.base.hd
        have := h.base.nodup
        rw [List.nodup_append] at this
        exact this.2.2 cur (by simp [htl]) cur (by simp [hpl]) rfl
      have hcU := h.inU cur hcur hcr
      have hpos : 0 < stM (b.st cur) := by
        have := h.base.pl cur (by simp [hpl])
        revert this
        cases b.st cur <;> simp [stM]
      have hlt := sum_upd_lt (fun x => stM (b.st x)) cur 0 hpos U hcU
      simp only [bMeasure] at hm
      omega
  | succ fuel ih =>
    intro b h hv hm
    cases hpl : b.plist with
    | nil => right; left; exact ⟨by simp [connLoop, hpl], b, h, hpl, hv⟩
    | cons cur ps =>
      have hcur : cur ∈ b.nodes := (h.base.mem cur).2 (Or.inr (by simp [hpl]))
      have hcr : cur ≠ root := by
        rintro rfl
        obtain ⟨tl, htl⟩ := h.base.hd
        have := h.base.nodup
        rw [List.nodup_append] at this
        exact this.2.2 cur (by simp [htl]) cur (by simp [hpl]) rfl
      have hcU := h.inU cur hcur hcr
      obtain ⟨tl, htl⟩ := h.base.hd
      by_cases hfound : cur ≠ src ∧ valid cur = true
      · left
        obtain ⟨r, hr, hs⟩ := h.reach cur hcur hcr
        exact ⟨by simp [connLoop, hpl, hfound], r, hr, cur, hs, hfound⟩
      · cases hst : b.st cur with
        | fin => exact absurd hst (h.base.pl cur (by simp [hpl]))
        | init =>
          rcases visit_spec hops h hpl hst with ⟨e1, e2⟩ | ⟨b', l, e1, e2, e3, e4⟩
          · right; right
            refine ⟨?_, e2⟩
            simp only [connLoop, hpl, if_neg hfound, hst, e1]
          · have hlt := bMeasure_upd (b := b) hcU (s := .proc) (by simp [hst, stM])
              { b' with st := upd b'.st cur .proc } (by simp [e3])
            have hnl : b'.nodeList = b.nodeList := by
              have hdr : ∀ o ∈ ops cur, o.dst ≠ root := fun o ho hc =>
                hops.root (hc ▸ hops.dst cur hcU o ho)
              rcases addLinks_spec (ops cur) b h.base hdr with ⟨f1, _⟩ | ⟨b2, l2, f1, _, _, f4, _⟩
              · rw [e1] at f1; cases f1
              · rw [e1] at f1; injection f1 with f1; rw [f1]; exact f4
            have := ih _ e4 (by simp only [hnl]; exact hv) (by omega)
            have hl : connLoop ops src valid (fuel + 1) b =
                connLoop ops src valid fuel { b' with st := upd b'.st cur .proc } := by
              simp only [connLoop, hpl, if_neg hfound, hst, e1]
            rw [hl]; exact this
        | proc =>
          have hlt := bMeasure_upd (b := b) hcU (s := .fin) (by simp [hst, stM])
            { b with plist := ps, nodeList := b.nodeList ++ [cur], st := upd b.st cur .fin } rfl
          have := ih _ (leave_spec h hpl hst) (by
            intro x hx
            simp only [htl] at hx hv
            simp only [List.cons_append, List.tail_cons, List.mem_append, List.mem_singleton] at hx hv
            rcases hx with hx | rfl
            · exact hv x hx
            · exact hfound) (by omega)
          have hl : connLoop ops src valid (fuel + 1) b = connLoop ops src valid fuel
              { b with plist := ps, nodeList := b.nodeList ++ [cur], st := upd b.st cur .fin } := by
            simp only [connLoop, hpl, if_neg hfound, hst]
          rw [hl]; exact this

/-! ### starting states -/

theorem sum_stM_init (U : List Nat) (f : Nat → St) (h : ∀ x ∈ U, f x = .init) :
    (U.map fun x => stM (f x)).sum = 2 * U.length := by
  induction U with
  | nil => rfl
  | cons a U ih =>
    have h1 := h a (by simp)
    have h2 := ih (fun x hx => h x (by simp [hx]))
    simp only [List.map_cons, List.sum_cons, List.length_cons, h1]
    rw [h2]; simp only [stM]; omega

theorem start_spec (hops : OpsOk ops root U) {S : List Nat} (hS : ∀ s ∈ S, s ∈ U) :
    ∃ b, addLinks (S.map (⟨root, ·, true⟩)) (empty root) = some b ∧
      BInv ops root U S (S.map (root, ·)) b ∧ bMeasure U b ≤ 2 * U.length ∧ b.nodeList = [root] := by
  have hdr : ∀ o ∈ S.map (fun s => (⟨root, s, true⟩ : Op)), o.dst ≠ root := by
    intro o ho hc
    obtain ⟨s, hs, rfl⟩ := List.mem_map.1 ho
    exact hops.root (hc ▸ hS s hs)
  rcases addLinks_spec _ (empty root) (base_empty root) hdr with ⟨_, o, _, _, h3⟩ |
      ⟨b, l, e1, e2, e3, e4, e5, e6, e7, e8, e9⟩
  · simp [empty] at h3
  · have hst : ∀ x, b.st x = .init := by intro x; rw [e3]; rfl
    have hmem : ∀ x, x ∈ b.nodes ↔ x = root ∨ x ∈ S := by
      intro x
      rw [e8]
      simp only [empty, List.mem_cons, List.not_mem_nil, or_false]
      constructor
      · rintro (h | ⟨o, ho, rfl⟩)
        · exact Or.inl h
        · obtain ⟨s, hs, rfl⟩ := List.mem_map.1 ho
          exact Or.inr hs
      · rintro (h | h)
        · exact Or.inl h
        · exact Or.inr ⟨_, List.mem_map.2 ⟨x, h, rfl⟩, rfl⟩
    refine ⟨b, e1, ?_, ?_, e4⟩
    · constructor
      · exact e2
      · intro l1 n l2 _ hp; rw [hst] at hp; cases hp
      · intro x hx hr
        rcases (hmem x).1 hx with h1 | h1
        · exact absurd h1 hr
        · exact ⟨x, h1, Or.inl rfl⟩
      · intro x hx hr
        rcases (hmem x).1 hx with h1 | h1
        · exact absurd h1 hr
        · exact hS x h1
      · intro x hx; exact (hmem x).2 (Or.inr hx)
      · intro x _ hs; exact absurd (hst x) hs
      · rw [e9, e4]
        have hf : b.plist.filter (fun x => decide (b.st x = .proc)) = [] := by
          rw [List.filter_eq_nil_iff]; intro x _; simp [hst]
        rw [hf]
        simp only [empty, List.tail_cons, List.append_nil, List.flatMap_nil, List.nil_append, List.map_map]
        refine (List.reverse_perm _).trans (List.Perm.of_eq ?_)
        apply List.map_congr_left
        intro s _; rfl
    · simp only [bMeasure]
      rw [sum_stM_init U b.st (fun x _ => hst x)]
      exact Nat.le_refl _

theorem addGroup_spec {b : B} (h : BInv ops root U R E0 b) (hi : ∀ x, b.st x = .init) {n : Nat}
    (hn : n ∈ U) (hr : n ≠ root) :
    BInv ops root U (R ++ [n]) E0 (addGroup n b) ∧ (∀ x, (addGroup n b).st x = .init) ∧
      (addGroup n b).nodeList = b.nodeList := by
  unfold addGroup
  by_cases hc : n ∈ b.nodes
  · rw [if_pos hc]
    refine ⟨?_, hi, rfl⟩
    exact { h with
      reach := fun x hx hxr => by
        obtain ⟨r, h1, h2⟩ := h.reach x hx hxr
        exact ⟨r, by simp [h1], h2⟩
      incl := fun x hx => by
        rcases List.mem_append.1 hx with h1 | h1
        · exact h.incl x h1
        · simp at h1; rw [h1]; exact hc }
  · rw [if_neg hc]
    refine ⟨?_, hi, rfl⟩
    have hnl : n ∉ b.nodeList := fun hh => hc ((h.base.mem n).2 (Or.inl hh))
    have hpl : n ∉ b.plist := fun hh => hc ((h.base.mem n).2 (Or.inr hh))
    constructor
    · exact { h.base with
        nodup := by
          have := h.base.nodup
          rw [List.nodup_append] at this ⊢
          refine ⟨this.1, List.nodup_cons.2 ⟨hpl, this.2.1⟩, ?_⟩
          intro a ha c hcc hac
          rcases List.mem_cons.1 hcc with h1 | h1
          · exact hnl (h1 ▸ hac ▸ ha)
          · exact this.2.2 a ha c h1 hac
        mem := by
          intro x
          have := h.base.mem x
          simp only [List.mem_cons]
          grind
        pl := by intro x _; simp only [hi x]; simp
        exp := by
          intro x hx hxr
          simp only [upd_apply]
          split
          · rfl
          · rename_i hxn
            rcases List.mem_cons.1 hx with h1 | h1
            · exact absurd h1 hxn
            · exact h.base.exp x h1 hxr
        notin := by
          intro x hx
          simp only [List.mem_cons, not_or] at hx
          simp only [upd_apply, if_neg hx.1]
          exact h.base.notin x hx.2 }
    · intro l1 m l2 _ hp; simp only at hp; rw [hi] at hp; cases hp
    · intro x hx hxr
      rcases List.mem_cons.1 hx with h1 | h1
      · exact ⟨n, by simp, Or.inl h1.symm⟩
      · obtain ⟨r, h2, h3⟩ := h.reach x h1 hxr
        exact ⟨r, by simp [h2], h3⟩
    · intro x hx hxr
      rcases List.mem_cons.1 hx with h1 | h1
      · rw [h1]; exact hn
      · exact h.inU x h1 hxr
    · intro x hx
      rcases List.mem_append.1 hx with h1 | h1
      · exact List.mem_cons_of_mem _ (h.incl x h1)
      · simp at h1; rw [h1]; simp
    · intro x _ hs; exact absurd (hi x) hs
    · have := h.edges
      have hf : ∀ l : List Nat, l.filter (fun x => decide (b.st x = .proc)) = [] := by
        intro l; rw [List.filter_eq_nil_iff]; intro x _; simp [hi]
      rw [hf] at this
      simp only [hf]
      exact this

theorem groups_spec (hops : OpsOk ops root U) : ∀ (gs R : List Nat) (b : B),
    BInv ops root U R E0 b → (∀ x, b.st x = .init) → (∀ g ∈ gs, g ∈ U) →
    BInv ops root U (R ++ gs) E0 (gs.foldl (fun b n => addGroup n b) b) ∧
      (∀ x, (gs.foldl (fun b n => addGroup n b) b).st x = .init) := by
  intro gs
  induction gs with
  | nil => intro R b h hi _; simp only [List.append_nil, List.foldl_nil]; exact ⟨h, hi⟩
  | cons g gs ih =>
    intro R b h hi hg
    have hgU := hg g (by simp)
    have hgr : g ≠ root := fun hc => hops.root (hc ▸ hgU)
    obtain ⟨h1, h2, _⟩ := addGroup_spec h hi hgU hgr
    have := ih (R ++ [g]) (addGroup g b) h1 h2 (fun x hx => hg x (by simp [hx]))
    simpa using this

/-! ### mark -/

section mark
variable (i : Info) (edges : List (Nat × Nat))

def Nbr (a b : Nat) : Prop := b ∈ markNbrs i edges a

def markM (nodes marked : List Nat) : Nat :=
  (nodes.map fun n => if n ∈ marked then 0 else (markNbrs i edges n).length).sum

theorem markM_cons (nodes marked : List Nat) (n : Nat) (hn : n ∈ nodes) (hm : n ∉ marked) :
    markM i edges nodes (n :: marked) + (markNbrs i edges n).length ≤ markM i edges nodes marked := by
  have hle : ∀ ns : List Nat, markM i edges ns (n :: marked) ≤ markM i edges ns marked := by
    intro ns
    induction ns with
    | nil => simp [markM]
    | cons a ns ih =>
      simp only [markM, List.map_cons, List.sum_cons] at ih ⊢
      have : (if a ∈ n :: marked then 0 else (markNbrs i edges a).length) ≤
          (if a ∈ marked then 0 else (markNbrs i edges a).length) := by
        by_cases h1 : a ∈ marked
        · rw [if_pos h1, if_pos (by simp [h1])]; exact Nat.le_refl _
        · rw [if_neg h1]; split <;> omega
      omega
  induction nodes with
  | nil => simp at hn
  | cons a ns ih =>
    by_cases ha : a = n
    · subst ha
      have := hle ns
      simp only [markM, List.map_cons, List.sum_cons] at this ⊢
      rw [if_pos (by simp), if_neg hm]
      omega
    · have hn' : n ∈ ns := by
        rcases List.mem_cons.1 hn with h | h
        · exact absurd h.symm ha
        · exact h
      have := ih hn'
      simp only [markM, List.map_cons, List.sum_cons] at this ⊢
      have e : (a ∈ n :: marked) ↔ (a ∈ marked) := by simp [ha]
      simp only [e]
      omega

theorem mark_spec (nodes : List Nat) (hE : ∀ e ∈ edges, e.1 ∈ nodes ∧ e.2 ∈ nodes) (T : List Nat) :
    ∀ (fuel : Nat) (todo marked : List Nat),
      todo.length + markM i edges nodes marked ≤ fuel →
      (∀ x ∈ todo, x ∈ nodes) →
      (∀ x ∈ todo, ∃ t ∈ T, Star (Nbr i edges) t x) →
      (∀ x ∈ marked, ∃ t ∈ T, Star (Nbr i edges) t x) →
      (∀ x ∈ marked, ∀ y, Nbr i edges x y → y ∈ marked ∨ y ∈ todo) →
      (∀ t ∈ T, t ∈ marked ∨ t ∈ todo) →
      ∀ x, x ∈ mark i edges fuel todo marked ↔ ∃ t ∈ T, Star (Nbr i edges) t x := by
  intro fuel
  induction fuel with
  | zero =>
    intro todo marked hf hn htodo hmarked hcl hT x
    have : todo = [] := List.length_eq_zero_iff.1 (by omega)
    subst this
    simp only [mark]
    constructor
    · exact hmarked x
    · rintro ⟨t, ht, hs⟩
      have htm : t ∈ marked := by simpa using hT t ht
      rcases hs with rfl | hs
      · exact htm
      · induction hs with
        | one h => simpa using hcl _ htm _ h
        | tail _ h ih => simpa using hcl _ ih _ h
  | succ fuel ih =>
    intro todo marked hf hn htodo hmarked hcl hT x
    cases todo with
    | nil =>
      simp only [mark]
      constructor
      · exact hmarked x
      · rintro ⟨t, ht, hs⟩
        have htm : t ∈ marked := by simpa using hT t ht
        rcases hs with rfl | hs
        · exact htm
        · induction hs with
          | one h => simpa using hcl _ htm _ h
          | tail _ h ih => simpa using hcl _ ih _ h
    | cons n todo =>
      simp only [mark]
      by_cases hm : n ∈ marked
      · rw [if_pos hm]
        apply ih todo marked
        · simp only [List.length_cons] at hf; omega
        · intro y hy; exact hn y (by simp [hy])
        · intro y hy; exact htodo y (by simp [hy])
        · exact hmarked
        · intro y hy z hz
          rcases hcl y hy z hz with h1 | h1
          · exact Or.inl h1
          · rcases List.mem_cons.1 h1 with rfl | h1
            · exact Or.inl hm
            · exact Or.inr h1
        · intro t ht
          rcases hT t ht with h1 | h1
          · exact Or.inl h1
          · rcases List.mem_cons.1 h1 with rfl | h1
            · exact Or.inl hm
            · exact Or.inr h1
      · rw [if_neg hm]
        have hnn := hn n (by simp)
        have hmm := markM_cons i edges nodes marked n hnn hm
        obtain ⟨t0, ht0, hs0⟩ := htodo n (by simp)
        apply ih (markNbrs i edges n ++ todo) (n :: marked)
        · simp only [List.length_cons] at hf
          simp only [List.length_append]; omega
        · intro y hy
          rcases List.mem_append.1 hy with h1 | h1
          · simp only [markNbrs, List.mem_append, List.mem_map, List.mem_filter] at h1
            rcases h1 with h1 | ⟨e, h1, rfl⟩
            · split at h1
              · simp only [List.mem_filter, List.mem_map] at h1
                obtain ⟨⟨e, h2, rfl⟩, _⟩ := h1
                exact (hE e h2.1).2
              · simp at h1
            · exact (hE e h1.1).1
          · exact hn y (by simp [h1])
        · intro y hy
          rcases List.mem_append.1 hy with h1 | h1
          · exact ⟨t0, ht0, hs0.tail h1⟩
          · exact htodo y (by simp [h1])
        · intro y hy
          rcases List.mem_cons.1 hy with rfl | h1
          · exact ⟨t0, ht0, hs0⟩
          · exact hmarked y h1
        · intro y hy z hz
          rcases List.mem_cons.1 hy with rfl | h1
          · right; exact List.mem_append_left _ hz
          · rcases hcl y h1 z hz with h2 | h2
            · left; simp [h2]
            · rcases List.mem_cons.1 h2 with rfl | h2
              · left; simp
              · right; exact List.mem_append_right _ h2
        · intro t ht
          rcases hT t ht with h1 | h1
          · left; simp [h1]
          · rcases List.mem_cons.1 h1 with rfl | h1
            · left; simp
            · right; exact List.mem_append_right _ h1

end mark

/-! ### rows, build, marked nodes -/

section build
variable {l : Links} {sched : List Nat}

theorem succ_updateOps (l : Links) (a b : Nat) : Succ (updateOps l) a b ↔ Linked l a b := by
  simp only [Succ, updateOps, List.mem_append, List.mem_map, Linked]
  constructor
  · rintro ⟨o, ⟨x, hx, rfl⟩ | ⟨x, hx, rfl⟩, rfl⟩
    · exact Or.inl hx
    · exact Or.inr hx
  · rintro (h | h)
    · exact ⟨_, Or.inl ⟨b, h, rfl⟩, rfl⟩
    · exact ⟨_, Or.inr ⟨b, h, rfl⟩, rfl⟩

theorem Star.mono {r r' : Nat → Nat → Prop} (hr : ∀ a b, r a b → r' a b) {a b : Nat} (h : Star r a b) :
    Star r' a b := by
  rcases h with h | h
  · exact Or.inl h
  · exact Or.inr (h.mono hr)

theorem opsOk_update (h : Closed l root U sched) : OpsOk (updateOps l) root U where
  dst := by
    intro x hx o ho
    exact h.links x hx _ ((succ_updateOps l x o.dst).1 ⟨o, ho, rfl⟩)
  src := by
    intro x _ o ho hc
    simp only [updateOps, List.mem_append, List.mem_map] at ho
    rcases ho with ⟨y, _, rfl⟩ | ⟨y, _, rfl⟩
    · rfl
    · simp at hc
  root := h.root
  nodup := h.nodup

/-- Everything about a finished build in one place. -/
theorem build_spec (h : Closed l root U sched) :
    (∃ b, buildGraph l root U sched = .ok b ∧
      BInv (updateOps l) root U sched (sched.map (root, ·)) b ∧ b.plist = []) ∨
    (buildGraph l root U sched = .circular ∧
      ∃ n, (∃ r ∈ sched, Star (Linked l) r n) ∧ Plus (Linked l) n n) := by
  have hops := opsOk_update h
  obtain ⟨b, e1, e2, e3, _⟩ := start_spec hops h.sched
  simp only [buildGraph, e1]
  rcases loop_spec hops (2 * U.length) b e2 e3 with ⟨b', f1, f2, f3⟩ | ⟨f1, n, ⟨r, hr, f2⟩, f3⟩
  · exact Or.inl ⟨b', f1, f2, f3⟩
  · exact Or.inr ⟨f1, n, ⟨r, hr, f2.mono (fun a b => (succ_updateOps l a b).1)⟩,
      f3.mono (fun a b => (succ_updateOps l a b).1)⟩

end build

theorem succ_groupOps (rows : Nat → List (Nat × Nat)) (a b : Nat) :
    Succ (groupOps rows) a b ↔ (∃ c, (b, c) ∈ rows a) ∨ (∃ t, (t, b) ∈ rows a) := by
  simp only [Succ, groupOps, List.mem_flatMap]
  constructor
  · rintro ⟨o, ⟨⟨t, c⟩, hr, ho⟩, rfl⟩
    simp only [List.mem_cons, List.not_mem_nil, or_false] at ho
    rcases ho with rfl | rfl
    · exact Or.inl ⟨c, hr⟩
    · exact Or.inr ⟨t, hr⟩
  · rintro (⟨c, h⟩ | ⟨t, h⟩)
    · exact ⟨_, ⟨_, h, by simp; exact Or.inl rfl⟩, rfl⟩
    · exact ⟨_, ⟨_, h, by simp; exact Or.inr rfl⟩, rfl⟩

section prune
variable {i : Info} {nodes targets : List Nat} {edges : List (Nat × Nat)}

theorem marked_iff (hE : ∀ e ∈ edges, e.1 ∈ nodes ∧ e.2 ∈ nodes) (hT : ∀ t ∈ targets, t ∈ nodes)
    (x : Nat) : x ∈ mark i edges (markFuel i edges nodes targets) targets [] ↔
      ∃ t ∈ targets, Star (Nbr i edges) t x := by
  refine mark_spec i edges nodes hE targets _ targets [] ?_ hT ?_ ?_ ?_ ?_ x
  · simp only [markM, markFuel]
    refine Nat.add_le_add_left (Nat.le_of_eq ?_) _
    congr 1
  · intro y hy; exact ⟨y, hy, Or.inl rfl⟩
  · simp
  · simp
  · intro t ht; exact Or.inr ht

/-- In the marked part: what reaches a target, and what is produced by a command that does. -/
theorem marked_char (hE : ∀ e ∈ edges, e.1 ∈ nodes ∧ e.2 ∈ nodes) (hT : ∀ t ∈ targets, t ∈ nodes)
    (hp : Produced i root edges) (x : Nat) :
    x ∈ mark i edges (markFuel i edges nodes targets) targets [] ↔
      (∃ t ∈ targets, Star (EdgeRel edges) x t) ∨
      (∃ c, i.kind c = .cmd ∧ (c, x) ∈ edges ∧ i.kind x ≠ .group ∧ i.excl x = false ∧
        ∃ t ∈ targets, Star (EdgeRel edges) c t) ∨
      (x = root ∧ ∃ t ∈ targets, ∃ c, Star (EdgeRel edges) c t ∧ ∃ d, (c, d) ∈ edges ∧ (root, d) ∈ edges ∧
        i.kind c = .cmd ∧ i.kind d ≠ .group ∧ i.excl d = false) := by
  rw [marked_iff hE hT]
  have hn : ∀ a b, Nbr i edges a b ↔ (i.kind a = .cmd ∧ (a, b) ∈ edges ∧ i.kind b ≠ .group ∧
      i.excl b = false) ∨ (b, a) ∈ edges := by
    intro a b
    simp only [Nbr, markNbrs, List.mem_append, List.mem_map, List.mem_filter, decide_eq_true_eq]
    constructor
    · rintro (h | ⟨e, ⟨h1, rfl⟩, rfl⟩)
      · split at h
        · rename_i hk
          simp only [List.mem_filter, List.mem_map, decide_eq_true_eq, Bool.and_eq_true,
            Bool.not_eq_true'] at h
          obtain ⟨⟨e, ⟨h1, rfl⟩, rfl⟩, h2, h3⟩ := h
          exact Or.inl ⟨hk, h1, h2, h3⟩
        · simp at h
      · exact Or.inr h1
    · rintro (⟨h1, h2, h3, h4⟩ | h)
      · left
        rw [if_pos h1]
        simp only [List.mem_filter, List.mem_map, decide_eq_true_eq, Bool.and_eq_true,
            Bool.not_eq_true']
        exact ⟨⟨(a, b), ⟨h2, rfl⟩, rfl⟩, h3, h4⟩
      · exact Or.inr ⟨(b, a), ⟨h, rfl⟩, rfl⟩
  have hup : ∀ t x, Star (EdgeRel edges) x t → Star (Nbr i edges) t x := by
    rintro t x (rfl | h)
    · exact Or.inl rfl
    · induction h with
      | one h => exact Or.inr (.one ((hn _ _).2 (Or.inr h)))
      | tail _ h ih => exact Or.inr (Plus.head ((hn _ _).2 (Or.inr h)) ih)
  constructor
  · rintro ⟨t, ht, hs⟩
    have step : ∀ a b, ((∃ t ∈ targets, Star (EdgeRel edges) a t) ∨
      (∃ c, i.kind c = .cmd ∧ (c, a) ∈ edges ∧ i.kind a ≠ .group ∧ i.excl a = false ∧
        ∃ t ∈ targets, Star (EdgeRel edges) c t) ∨
      (a = root ∧ ∃ t ∈ targets, ∃ c, Star (EdgeRel edges) c t ∧ ∃ d, (c, d) ∈ edges ∧ (root, d) ∈ edges ∧
        i.kind c = .cmd ∧ i.kind d ≠ .group ∧ i.excl d = false)) →
      Nbr i edges a b →
      ((∃ t ∈ targets, Star (EdgeRel edges) b t) ∨
      (∃ c, i.kind c = .cmd ∧ (c, b) ∈ edges ∧ i.kind b ≠ .group ∧ i.excl b = false ∧
        ∃ t ∈ targets, Star (EdgeRel edges) c t) ∨
      (b = root ∧ ∃ t ∈ targets, ∃ c, Star (EdgeRel edges) c t ∧ ∃ d, (c, d) ∈ edges ∧ (root, d) ∈ edges ∧
        i.kind c = .cmd ∧ i.kind d ≠ .group ∧ i.excl d = false)) := by
      intro a b hab hnb
      rcases (hn a b).1 hnb with ⟨q1, q2, q3, q4⟩ | q
      · rcases hab with ⟨t, ht, hs⟩ | ⟨c, c1, c2, c3, c4, _⟩ | ⟨rfl, _⟩
        · exact Or.inr (Or.inl ⟨a, q1, q2, q3, q4, t, ht, hs⟩)
        · exact absurd q1 (hp.unique c a c2 c1 c3 c4).1
        · exact absurd q1 hp.rootKind
      · rcases hab with ⟨t, ht, hs⟩ | ⟨c, c1, c2, c3, c4, t, ht, hs⟩ | ⟨rfl, _⟩
        · refine Or.inl ⟨t, ht, Or.inr (Plus.head q hs)⟩
        · rcases (hp.unique c a c2 c1 c3 c4).2 b q with rfl | rfl
          · exact Or.inl ⟨t, ht, hs⟩
          · exact Or.inr (Or.inr ⟨rfl, t, ht, c, hs, a, c2, q, c1, c3, c4⟩)
        · exact absurd q (hp.rootNoIn _)
    rcases hs with rfl | hs
    · exact Or.inl ⟨t, ht, Or.inl rfl⟩
    · induction hs with
      | one h => exact step _ _ (Or.inl ⟨t, ht, Or.inl rfl⟩) h
      | tail _ h ih => exact step _ _ ih h
  · rintro (⟨t, ht, hs⟩ | ⟨c, c1, c2, c3, c4, t, ht, hs⟩ | ⟨rfl, t, ht, c, hs, d, d1, d2, c1, d3, d4⟩)
    · exact ⟨t, ht, hup t x hs⟩
    · exact ⟨t, ht, (hup t c hs).tail ((hn _ _).2 (Or.inl ⟨c1, c2, c3, c4⟩))⟩
    · exact ⟨t, ht, ((hup t c hs).tail ((hn _ _).2 (Or.inl ⟨c1, d1, d3, d4⟩))).tail
        ((hn _ _).2 (Or.inr d2))⟩

end prune

end Tup.Graph
