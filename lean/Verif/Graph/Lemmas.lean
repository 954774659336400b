import Verif.Graph.Spec
import Verif.Exec.Lemmas

namespace Tup.Graph

open Tup.Exec (upd upd_apply)

/-- targets of the edges added for a node -/
def Succ (ops : Nat → List Op) (a b : Nat) : Prop := ∃ o ∈ ops a, o.dst = b

def Op.edge (o : Op) : Nat × Nat := (o.src, o.dst)

theorem Plus.trans {r : Nat → Nat → Prop} {a b c : Nat} (h1 : Plus r a b) (h2 : Plus r b c) :
    Plus r a c := by
  induction h2 with
  | one h => exact .tail h1 h
  | tail _ h ih => exact .tail ih h

theorem Star.tail {r : Nat → Nat → Prop} {a b c : Nat} (h1 : Star r a b) (h2 : r b c) : Star r a c := by
  rcases h1 with rfl | h1
  · exact Or.inr (.one h2)
  · exact Or.inr (.tail h1 h2)

theorem Plus.head {r : Nat → Nat → Prop} {a b c : Nat} (h1 : r a b) (h2 : Star r b c) : Plus r a c := by
  rcases h2 with rfl | h2
  · exact .one h1
  · exact (Plus.one h1).trans h2

theorem Plus.mono {r r' : Nat → Nat → Prop} (hr : ∀ a b, r a b → r' a b) {a b : Nat} (h : Plus r a b) :
    Plus r' a b := by
  induction h with
  | one h => exact .one (hr _ _ h)
  | tail _ h ih => exact .tail ih (hr _ _ h)

structure Base (root : Nat) (b : B) : Prop where
  hd : ∃ tl, b.nodeList = root :: tl
  nodup : (b.nodeList ++ b.plist).Nodup
  mem : ∀ x, x ∈ b.nodes ↔ x ∈ b.nodeList ∨ x ∈ b.plist
  finL : ∀ x ∈ b.nodeList, x ≠ root → b.st x = .fin
  pl : ∀ x ∈ b.plist, b.st x ≠ .fin
  exp : ∀ x ∈ b.nodes, x ≠ root → b.expanded x = true
  notin : ∀ x, x ∉ b.nodes → b.st x = .init ∧ b.expanded x = false
  rootSt : b.st root = .init

theorem base_empty (root : Nat) : Base root (empty root) := by
  constructor <;> simp [empty]

theorem makeEdge_spec {root : Nat} {b : B} (h : Base root b) {o : Op} (ho : o.dst ≠ root) :
    (makeEdge o b = none ∧ o.check = true ∧ b.st o.dst = .proc) ∨
    (¬ (o.check = true ∧ b.st o.dst = .proc) ∧
      ∃ b', makeEdge o b = some b' ∧ Base root b' ∧ b'.st = b.st ∧ b'.nodeList = b.nodeList ∧
      b'.plist = (if o.dst ∈ b.nodes then b.plist else o.dst :: b.plist) ∧
      (∀ x, x ∈ b'.nodes ↔ x ∈ b.nodes ∨ x = o.dst) ∧
      b'.edges = o.edge :: b.edges) := by
  by_cases hn : o.dst ∈ b.nodes
  · -- already there
    have hfc : findOrCreate o.dst b = b := by rw [findOrCreate, if_pos hn]
    have hx := h.exp o.dst hn ho
    by_cases hc : o.check = true ∧ b.st o.dst = .proc
    · left; refine ⟨?_, hc⟩; simp [makeEdge, hfc, hc]
    · right
      refine ⟨hc, ⟨b.nodes, b.nodeList, b.plist, o.edge :: b.edges, b.st, b.expanded⟩, ?_, ?_, rfl, rfl,
        ?_, ?_, rfl⟩
      · simp only [makeEdge, hfc]
        rw [if_neg hc, if_pos hx]; rfl
      · exact { h with }
      · rw [if_pos hn]
      · intro x; constructor
        · intro h1; exact Or.inl h1
        · rintro (h1 | rfl)
          · exact h1
          · exact hn
  · obtain ⟨hs, he⟩ := h.notin o.dst hn
    have hnl : o.dst ∉ b.nodeList := fun hc => hn ((h.mem _).2 (Or.inl hc))
    have hpl : o.dst ∉ b.plist := fun hc => hn ((h.mem _).2 (Or.inr hc))
    right
    refine ⟨by rw [hs]; simp, ⟨o.dst :: b.nodes, b.nodeList, o.dst :: b.plist, o.edge :: b.edges, b.st,
        upd b.expanded o.dst true⟩, ?_, ?_, rfl, rfl, ?_, ?_, rfl⟩
    · simp only [makeEdge, findOrCreate, if_neg hn, hs, he]
      have : (b.nodeList ++ [o.dst]).erase o.dst = b.nodeList := by
        rw [List.erase_append_right _ hnl]; simp
      simp [this, Op.edge]
    · exact { hd := h.hd
              nodup := by
                have := h.nodup
                rw [List.nodup_append] at this ⊢
                refine ⟨this.1, List.nodup_cons.2 ⟨hpl, this.2.1⟩, ?_⟩
                intro a ha c hc hac
                rcases List.mem_cons.1 hc with h1 | h1
                · exact hnl (h1 ▸ hac ▸ ha)
                · exact this.2.2 a ha c h1 hac
              mem := by
                intro x
                have := h.mem x
                simp only [List.mem_cons]
                grind
              finL := h.finL
              pl := by
                intro x hx
                rcases List.mem_cons.1 hx with rfl | h1
                · simp [hs]
                · exact h.pl x h1
              exp := by
                intro x hx hr
                simp only [upd_apply]
                rcases List.mem_cons.1 hx with rfl | h1
                · simp
                · split
                  · rfl
                  · exact h.exp x h1 hr
              notin := by
                intro x hx
                simp only [List.mem_cons, not_or] at hx
                simp only [upd_apply, if_neg hx.1]
                exact h.notin x hx.2
              rootSt := h.rootSt }
    · rw [if_neg hn]
    · intro x; simp only [List.mem_cons]; grind

theorem addLinks_spec {root : Nat} : ∀ (os : List Op) (b : B), Base root b →
    (∀ o ∈ os, o.dst ≠ root) →
    (addLinks os b = none ∧ ∃ o ∈ os, o.check = true ∧ b.st o.dst = .proc) ∨
    (∃ b' l, addLinks os b = some b' ∧ Base root b' ∧ b'.st = b.st ∧ b'.nodeList = b.nodeList ∧
      b'.plist = l ++ b.plist ∧ (∀ x ∈ l, ∃ o ∈ os, o.dst = x) ∧ (∀ x ∈ l, x ∉ b.nodes) ∧
      (∀ x, x ∈ b'.nodes ↔ x ∈ b.nodes ∨ ∃ o ∈ os, o.dst = x) ∧
      b'.edges = (os.map Op.edge).reverse ++ b.edges) := by
  intro os
  induction os with
  | nil =>
    intro b h _
    right
    exact ⟨b, [], rfl, h, rfl, rfl, rfl, by simp, by simp, by simp, by simp⟩
  | cons o os ih =>
    intro b h ho
    rcases makeEdge_spec h (ho o (by simp)) with ⟨e1, e2⟩ | ⟨_, b1, e1, e2, e3, e4, e5, e6, e7⟩
    · left
      exact ⟨by simp [addLinks, e1], o, by simp, e2⟩
    · rcases ih b1 e2 (fun o' ho' => ho o' (by simp [ho'])) with ⟨f1, o', f2, f3⟩ |
        ⟨b2, l, f1, f2, f3, f4, f5, f6, f7, f8, f9⟩
      · left
        refine ⟨by simp [addLinks, e1, f1], o', by simp [f2], ?_⟩
        rw [← e3]; exact f3
      · right
        refine ⟨b2, if o.dst ∈ b.nodes then l else l ++ [o.dst], by simp [addLinks, e1, f1], f2,
          f3.trans e3, f4.trans e4, ?_, ?_, ?_, ?_, ?_⟩
        · rw [f5, e5]; split <;> simp
        · intro x hx
          have hx' : x ∈ l ∨ x = o.dst := by
            split at hx
            · exact Or.inl hx
            · simpa using hx
          rcases hx' with h1 | rfl
          · obtain ⟨o', h2, h3⟩ := f6 x h1
            exact ⟨o', by simp [h2], h3⟩
          · exact ⟨o, by simp, rfl⟩
        · intro x hx
          split at hx
          · intro hc; exact f7 x hx ((e6 x).2 (Or.inl hc))
          · rename_i hn
            rcases List.mem_append.1 hx with h1 | h1
            · intro hc; exact f7 x h1 ((e6 x).2 (Or.inl hc))
            · simp only [List.mem_singleton] at h1; rw [h1]; exact hn
        · intro x
          rw [f8, e6]
          simp only [List.mem_cons, exists_eq_or_imp]
          grind
        · rw [f9, e7]; simp

/-- Invariant of the building loop.  `R` are the nodes put in first and `E0` the edges added for them. -/
structure BInv (ops : Nat → List Op) (root : Nat) (U R : List Nat) (E0 : List (Nat × Nat)) (b : B) :
    Prop where
  base : Base root b
  stack : ∀ l1 n l2, b.plist = l1 ++ n :: l2 → b.st n = .proc → ∀ x ∈ l1, Plus (Succ ops) n x
  reach : ∀ x ∈ b.nodes, x ≠ root → ∃ r ∈ R, Star (Succ ops) r x
  inU : ∀ x ∈ b.nodes, x ≠ root → x ∈ U
  incl : ∀ x ∈ R, x ∈ b.nodes
  kids : ∀ x ∈ b.nodes, b.st x ≠ .init → ∀ o ∈ ops x, o.dst ∈ b.nodes
  edges : b.edges.Perm
    (((b.nodeList.tail ++ b.plist.filter (b.st · = .proc)).flatMap fun x => (ops x).map Op.edge) ++ E0)

/-- hypotheses on the rows -/
structure OpsOk (ops : Nat → List Op) (root : Nat) (U : List Nat) : Prop where
  dst : ∀ x ∈ U, ∀ o ∈ ops x, o.dst ∈ U
  src : ∀ x ∈ U, ∀ o ∈ ops x, o.check = true → o.src = x
  root : root ∉ U
  nodup : U.Nodup

/-- what remains to be done -/
def stM : St → Nat
  | .init => 2
  | .proc => 1
  | .fin => 0

def bMeasure (U : List Nat) (b : B) : Nat := (U.map fun x => stM (b.st x)).sum

theorem sum_upd_lt (f : Nat → Nat) (n v : Nat) (hv : v < f n) : ∀ U : List Nat, n ∈ U →
    (U.map fun x => if x = n then v else f x).sum < (U.map f).sum := by
  have hle : ∀ U : List Nat, (U.map fun x => if x = n then v else f x).sum ≤ (U.map f).sum := by
    intro U
    induction U with
    | nil => simp
    | cons a U ih =>
      simp only [List.map_cons, List.sum_cons]
      split
      · rename_i h; subst h; omega
      · omega
  intro U
  induction U with
  | nil => intro h; simp at h
  | cons a U ih =>
    intro h
    have := hle U
    simp only [List.map_cons, List.sum_cons]
    by_cases ha : a = n
    · rw [if_pos ha, ha]; omega
    · rw [if_neg ha]
      have hn : n ∈ U := by
        rcases List.mem_cons.1 h with h | h
        · exact absurd h.symm ha
        · exact h
      have := ih hn
      omega

theorem bMeasure_upd {U : List Nat} {b : B} {n : Nat} {s : St} (hn : n ∈ U)
    (hs : stM s < stM (b.st n)) (b' : B) (hb : b'.st = upd b.st n s) :
    bMeasure U b' < bMeasure U b := by
  have := sum_upd_lt (fun x => stM (b.st x)) n (stM s) hs U hn
  have e : (U.map fun x => stM (b'.st x)) = U.map fun x => if x = n then stM s else stM (b.st x) := by
    apply List.map_congr_left
    intro x _
    rw [hb, upd_apply]
    split <;> rfl
  simp only [bMeasure, e]
  exact this

variable {ops : Nat → List Op} {root : Nat} {U R : List Nat} {E0 : List (Nat × Nat)}

/-- looking at a new node: either all its edges are added, or a cycle has been found -/
theorem visit_spec (hops : OpsOk ops root U) {b : B} (h : BInv ops root U R E0 b) {cur : Nat}
    {ps : List Nat} (hpl : b.plist = cur :: ps) (hst : b.st cur = .init) :
    (addLinks (ops cur) b = none ∧ ∃ n, (∃ r ∈ R, Star (Succ ops) r n) ∧ Plus (Succ ops) n n) ∨
    (∃ b' l, addLinks (ops cur) b = some b' ∧ b'.plist = l ++ cur :: ps ∧ b'.st = b.st ∧
      BInv ops root U R E0 { b' with st := upd b'.st cur .proc }) := by
  have hcur : cur ∈ b.nodes := (h.base.mem cur).2 (Or.inr (by simp [hpl]))
  have hnd := h.base.nodup
  rw [hpl] at hnd
  have hcr : cur ≠ root := by
    rintro rfl
    obtain ⟨tl, htl⟩ := h.base.hd
    rw [List.nodup_append] at hnd
    exact hnd.2.2 cur (by simp [htl]) cur (by simp) rfl
  have hcU := h.inU cur hcur hcr
  have hreach := h.reach cur hcur hcr
  have hdr : ∀ o ∈ ops cur, o.dst ≠ root := fun o ho hc => hops.root (hc ▸ hops.dst cur hcU o ho)
  rcases addLinks_spec (ops cur) b h.base hdr with ⟨e1, o, ho, hch, hproc⟩ |
      ⟨b', l, e1, e2, e3, e4, e5, e6, e7, e8, e9⟩
  · left
    refine ⟨e1, o.dst, ?_, ?_⟩
    · obtain ⟨r, hr, hs⟩ := hreach
      exact ⟨r, hr, hs.tail ⟨o, ho, rfl⟩⟩
    · -- o.dst is on the stack below cur
      have hdn : o.dst ∈ b.plist := by
        have h1 : o.dst ∈ b.nodes := by
          by_cases hc : o.dst ∈ b.nodes
          · exact hc
          · have := (h.base.notin _ hc).1; rw [hproc] at this; cases this
        rcases (h.base.mem _).1 h1 with h2 | h2
        · have := h.base.finL _ h2 (hdr o ho); rw [hproc] at this; cases this
        · exact h2
      rw [hpl] at hdn
      have hne : o.dst ≠ cur := by intro hc; rw [hc, hst] at hproc; cases hproc
      have hps : o.dst ∈ ps := by
        rcases List.mem_cons.1 hdn with h1 | h1
        · exact absurd h1 hne
        · exact h1
      obtain ⟨p1, p2, hp⟩ := List.append_of_mem hps
      have := h.stack (cur :: p1) o.dst p2 (by rw [hpl, hp]; rfl) hproc cur (by simp)
      exact .tail this ⟨o, ho, rfl⟩
  · right
    refine ⟨b', l, e1, by rw [e5, hpl], e3, ?_⟩
    have hpl' : b'.plist = l ++ cur :: ps := by rw [e5, hpl]
    have hcurps : cur ∉ l ∧ cur ∉ ps := by
      have := e2.nodup
      rw [hpl', List.nodup_append] at this
      have h2 := this.2.1
      rw [List.nodup_append] at h2
      exact ⟨fun hc => h2.2.2 cur hc cur (by simp) rfl, (List.nodup_cons.1 h2.2.1).1⟩
    have hcurnl : cur ∉ b'.nodeList := by
      intro hc
      have := e2.nodup
      rw [hpl', List.nodup_append] at this
      exact this.2.2 cur hc cur (by simp) rfl
    constructor
    · exact { e2 with
        finL := by
          intro x hx hr
          have hxc : x ≠ cur := fun hc => hcurnl (hc ▸ hx)
          simp only [upd_apply, if_neg hxc]
          exact e2.finL x hx hr
        pl := by
          intro x hx
          simp only [upd_apply]
          split
          · simp
          · exact e2.pl x hx
        notin := by
          intro x hx
          have hxc : x ≠ cur := by
            rintro rfl
            exact hx ((e8 x).2 (Or.inl hcur))
          simp only [upd_apply, if_neg hxc]
          exact e2.notin x hx
        rootSt := by simp only [upd_apply, if_neg (Ne.symm hcr)]; exact e2.rootSt }
    · intro l1 n l2 hsplit hproc x hx
      simp only at hsplit
      rw [hpl'] at hsplit
      simp only [upd_apply] at hproc
      have hlinit : ∀ y ∈ l, b'.st y = .init := by
        intro y hy
        rw [e3]; exact (h.base.notin y (e7 y hy)).1
      have hlsucc : ∀ y ∈ l, Succ ops cur y := fun y hy => e6 y hy
      rcases List.append_eq_append_iff.1 hsplit with ⟨a', h1, h2⟩ | ⟨c', h1, h2⟩
      · -- l1 = l ++ a', cur :: ps = a' ++ n :: l2
        rw [h1] at hx
        by_cases hnc : n = cur
        · -- then a' = []
          have ha' : a' = [] := by
            cases a' with
            | nil => rfl
            | cons a0 as =>
              rw [List.cons_append] at h2
              injection h2 with h3 h4
              exact absurd (by rw [h4, hnc]; simp) hcurps.2
          rw [ha', List.append_nil] at hx
          rw [hnc]
          exact .one (hlsucc x hx)
        · rw [if_neg hnc, e3] at hproc
          have hold := h.stack a' n l2 (by rw [hpl, h2]) hproc
          have hcura : cur ∈ a' := by
            cases a' with
            | nil =>
              rw [List.nil_append] at h2
              injection h2 with h3 h4
              exact absurd h3.symm hnc
            | cons a0 as =>
              rw [List.cons_append] at h2
              injection h2 with h3 h4
              rw [h3]; simp
          rcases List.mem_append.1 hx with hx | hx
          · exact .tail (hold cur hcura) (hlsucc x hx)
          · exact hold x hx
      · -- n is in l
        have hnl : n ∈ l ∨ (c' = [] ∧ n = cur) := by
          cases c' with
          | nil =>
            right
            rw [List.nil_append] at h2
            injection h2 with h3 h4
            exact ⟨rfl, h3⟩
          | cons c0 cs =>
            left
            rw [List.cons_append] at h2
            injection h2 with h3 h4
            rw [h1, h3]; simp
        rcases hnl with hnl | ⟨hc', hnc⟩
        · have hnc : n ≠ cur := fun hc => hcurps.1 (hc ▸ hnl)
          rw [if_neg hnc, hlinit n hnl] at hproc; cases hproc
        · rw [hc', List.append_nil] at h1
          rw [hnc]
          exact .one (hlsucc x (by rw [h1]; exact hx))
    · intro x hx hr
      rcases (e8 x).1 hx with h1 | h1
      · exact h.reach x h1 hr
      · obtain ⟨r, hr', hs⟩ := hreach
        exact ⟨r, hr', hs.tail h1⟩
    · intro x hx hr
      rcases (e8 x).1 hx with h1 | ⟨o, h1, h2⟩
      · exact h.inU x h1 hr
      · rw [← h2]; exact hops.dst cur hcU o h1
    · intro x hx; exact (e8 x).2 (Or.inl (h.incl x hx))
    · intro x hx hs o ho
      simp only [upd_apply] at hs
      by_cases hxc : x = cur
      · rw [hxc] at ho
        exact (e8 _).2 (Or.inr ⟨o, ho, rfl⟩)
      · rw [if_neg hxc, e3] at hs
        have hxb : x ∈ b.nodes := by
          by_cases hc : x ∈ b.nodes
          · exact hc
          · exact absurd (h.base.notin x hc).1 hs
        exact (e8 _).2 (Or.inl (h.kids x hxb hs o ho))
    · -- edges
      simp only
      rw [e9, e4, hpl']
      have hf : (l ++ cur :: ps).filter (fun x => decide (upd b'.st cur .proc x = .proc)) =
          cur :: ps.filter (fun x => decide (b.st x = .proc)) := by
        rw [List.filter_append]
        have hl0 : l.filter (fun x => decide (upd b'.st cur .proc x = .proc)) = [] := by
          rw [List.filter_eq_nil_iff]
          intro y hy
          have hyc : y ≠ cur := fun hc => hcurps.1 (hc ▸ hy)
          simp [hyc, e3, (h.base.notin y (e7 y hy)).1]
        rw [hl0, List.nil_append, List.filter_cons]
        simp only [upd_apply, if_true, decide_true]
        congr 1
        apply List.filter_congr
        intro y hy
        have hyc : y ≠ cur := fun hc => hcurps.2 (hc ▸ hy)
        simp [hyc, e3]
      have hold := h.edges
      rw [hpl, List.filter_cons] at hold
      simp only [hst] at hold
      rw [if_neg (by simp)] at hold
      have key : (b.nodeList.tail ++ cur :: ps.filter (fun x => decide (b.st x = .proc))).Perm
          (cur :: (b.nodeList.tail ++ ps.filter (fun x => decide (b.st x = .proc)))) :=
        List.perm_middle
      rw [hf]
      refine List.Perm.trans ?_ (List.Perm.append_right _ (key.flatMap_right _)).symm
      simp only [List.flatMap_cons, List.append_assoc]
      refine (List.Perm.append (List.reverse_perm _) hold).trans ?_
      simp

/-- taking a node off the stack -/
theorem leave_spec {b : B} (h : BInv ops root U R E0 b) {cur : Nat}
    {ps : List Nat} (hpl : b.plist = cur :: ps) (hst : b.st cur = .proc) :
    BInv ops root U R E0 { b with plist := ps, nodeList := b.nodeList ++ [cur], st := upd b.st cur .fin } := by
  have hnd := h.base.nodup
  rw [hpl] at hnd
  have hnd2 := hnd
  rw [List.nodup_append] at hnd2
  obtain ⟨tl, htl⟩ := h.base.hd
  have hcr : cur ≠ root := by
    rintro rfl
    exact hnd2.2.2 cur (by simp [htl]) cur (by simp) rfl
  have hcps : cur ∉ ps := (List.nodup_cons.1 hnd2.2.1).1
  have hcnl : cur ∉ b.nodeList := fun hc => hnd2.2.2 cur hc cur (by simp) rfl
  have hcur : cur ∈ b.nodes := (h.base.mem cur).2 (Or.inr (by simp [hpl]))
  constructor
  · exact { h.base with
      hd := ⟨tl ++ [cur], by simp [htl]⟩
      nodup := by
        have hp : (b.nodeList ++ [cur] ++ ps).Perm (b.nodeList ++ cur :: ps) := by
          simp
        exact hp.nodup_iff.2 hnd
      mem := by
        intro x
        rw [h.base.mem x, hpl]
        simp only [List.mem_append, List.mem_cons, List.not_mem_nil, or_false]
        grind
      finL := by
        intro x hx hr
        simp only [upd_apply]
        split
        · rfl
        · rename_i hxc
          rcases List.mem_append.1 hx with h1 | h1
          · exact h.base.finL x h1 hr
          · simp at h1; exact absurd h1 hxc
      pl := by
        intro x hx
        have hxc : x ≠ cur := fun hc => hcps (hc ▸ hx)
        simp only [upd_apply, if_neg hxc]
        exact h.base.pl x (by simp [hpl, show x ∈ ps from hx])
      notin := by
        intro x hx
        have hxc : x ≠ cur := fun hc => hx (hc ▸ hcur)
        simp only [upd_apply, if_neg hxc]
        exact h.base.notin x hx
      rootSt := by simp only [upd_apply, if_neg (Ne.symm hcr)]; exact h.base.rootSt }
  · intro l1 n l2 hs hproc x hx
    simp only at hs
    have hnps : n ∈ ps := by rw [hs]; simp
    have hnc : n ≠ cur := fun hc => hcps (hc ▸ hnps)
    simp only [upd_apply, if_neg hnc] at hproc
    exact h.stack (cur :: l1) n l2 (by rw [hpl, hs]; rfl) hproc x (by simp [hx])
  · exact h.reach
  · exact h.inU
  · exact h.incl
  · intro x hx hs
    simp only [upd_apply] at hs
    apply h.kids x hx
    by_cases hxc : x = cur
    · rw [hxc, hst]; simp
    · rw [if_neg hxc] at hs; exact hs
  · simp only
    have hold := h.edges
    rw [hpl, List.filter_cons] at hold
    simp only [hst, decide_true, if_true] at hold
    have hf : ps.filter (fun x => decide (upd b.st cur .fin x = .proc)) =
        ps.filter (fun x => decide (b.st x = .proc)) := by
      apply List.filter_congr
      intro y hy
      have hyc : y ≠ cur := fun hc => hcps (hc ▸ hy)
      simp [hyc]
    rw [hf]
    have ht : (b.nodeList ++ [cur]).tail = b.nodeList.tail ++ [cur] := by simp [htl]
    rw [ht]
    simpa using hold

/-- The loop ends within the budget, with a complete graph, or with a cycle. -/
theorem loop_spec (hops : OpsOk ops root U) : ∀ (fuel : Nat) (b : B), BInv ops root U R E0 b →
    bMeasure U b ≤ fuel →
    (∃ b', loop ops fuel b = .ok b' ∧ BInv ops root U R E0 b' ∧ b'.plist = []) ∨
    (loop ops fuel b = .circular ∧ ∃ n, (∃ r ∈ R, Star (Succ ops) r n) ∧ Plus (Succ ops) n n) := by
  intro fuel
  induction fuel with
  | zero =>
    intro b h hm
    cases hpl : b.plist with
    | nil => left; exact ⟨b, by simp [loop, hpl], h, hpl⟩
    | cons cur ps =>
      exfalso
      have hcur : cur ∈ b.nodes := (h.base.mem cur).2 (Or.inr (by simp [hpl]))
      have hcr : cur ≠ root := by
        rintro rfl
        obtain ⟨tl, htl⟩ := h.base.hd
        have := h.base.nodup
        rw [List.nodup_append] at this
        exact this.2.2 cur (by simp [htl]) cur (by simp [hpl]) rfl
      have hcU := h.inU cur hcur hcr
      have hpos : 0 < stM (b.st cur) := by
        have := h.base.pl cur (by simp [hpl])
        revert this
        cases b.st cur <;> simp [stM]
      have hlt := sum_upd_lt (fun x => stM (b.st x)) cur 0 hpos U hcU
      simp only [bMeasure] at hm
      omega
  | succ fuel ih =>
    intro b h hm
    cases hpl : b.plist with
    | nil => left; exact ⟨b, by simp [loop, hpl], h, hpl⟩
    | cons cur ps =>
      have hcur : cur ∈ b.nodes := (h.base.mem cur).2 (Or.inr (by simp [hpl]))
      have hcr : cur ≠ root := by
        rintro rfl
        obtain ⟨tl, htl⟩ := h.base.hd
        have := h.base.nodup
        rw [List.nodup_append] at this
        exact this.2.2 cur (by simp [htl]) cur (by simp [hpl]) rfl
      have hcU := h.inU cur hcur hcr
      cases hst : b.st cur with
      | fin => exact absurd hst (h.base.pl cur (by simp [hpl]))
      | init =>
        rcases visit_spec hops h hpl hst with ⟨e1, e2⟩ | ⟨b', l, e1, e2, e3, e4⟩
        · right
          exact ⟨by simp [loop, hpl, hst, e1], e2⟩
        · have hlt := bMeasure_upd (b := b) hcU (s := .proc) (by simp [hst, stM])
            { b' with st := upd b'.st cur .proc } (by simp [e3])
          have := ih _ e4 (by omega)
          have hl : loop ops (fuel + 1) b = loop ops fuel { b' with st := upd b'.st cur .proc } := by
            simp [loop, hpl, hst, e1]
          rw [hl]; exact this
      | proc =>
        have hlt := bMeasure_upd (b := b) hcU (s := .fin) (by simp [hst, stM])
          { b with plist := ps, nodeList := b.nodeList ++ [cur], st := upd b.st cur .fin } rfl
        have := ih _ (leave_spec h hpl hst) (by omega)
        have hl : loop ops (fuel + 1) b = loop ops fuel
            { b with plist := ps, nodeList := b.nodeList ++ [cur], st := upd b.st cur .fin } := by
          simp [loop, hpl, hst]
        rw [hl]; exact this

/-- everything reachable is there when the loop has ended -/
theorem final_nodes (hops : OpsOk ops root U) {b : B} (h : BInv ops root U R E0 b) (hp : b.plist = [])
    (hR : ∀ r ∈ R, r ∈ U) (x : Nat) :
    (x ∈ b.nodeList.tail ↔ ∃ r ∈ R, Star (Succ ops) r x) := by
  obtain ⟨tl, htl⟩ := h.base.hd
  have hnd := h.base.nodup
  rw [hp, List.append_nil, htl] at hnd
  have hmem : ∀ x, x ∈ b.nodes ↔ x = root ∨ x ∈ tl := by
    intro x; rw [h.base.mem, hp, htl]; simp
  rw [htl, List.tail_cons]
  constructor
  · intro hx
    have hxr : x ≠ root := fun hc => (List.nodup_cons.1 hnd).1 (hc ▸ hx)
    exact h.reach x ((hmem x).2 (Or.inr hx)) hxr
  · rintro ⟨r, hr, hs⟩
    have hclosed : ∀ a c, a ∈ tl → Succ ops a c → c ∈ tl := by
      rintro a c ha ⟨o, ho, rfl⟩
      have har : a ≠ root := fun hc => (List.nodup_cons.1 hnd).1 (hc ▸ ha)
      have haU := h.inU a ((hmem a).2 (Or.inr ha)) har
      have hst := h.base.finL a (by rw [htl]; simp [ha]) har
      have := h.kids a ((hmem a).2 (Or.inr ha)) (by rw [hst]; simp) o ho
      rcases (hmem _).1 this with h1 | h1
      · exact absurd (h1 ▸ hops.dst a haU o ho) hops.root
      · exact h1
    have hr' : r ∈ tl := by
      rcases (hmem r).1 (h.incl r hr) with h1 | h1
      · exact absurd (h1 ▸ hR r hr) hops.root
      · exact h1
    rcases hs with rfl | hs
    · exact hr'
    · induction hs with
      | one h1 => exact hclosed _ _ hr' h1
      | tail _ h1 ih => exact hclosed _ _ ih h1

end Tup.Graph
