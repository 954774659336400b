import Verif.Transient.Attach

/-! The invariant while transient commands are attached. -/

namespace Tup.Transient

open Tup.Graph
open Tup.Exec (upd upd_apply)

structure Att (d : Db) (root : Nat) (b : B) : Prop where
  hd : ∃ tl, b.nodeList = root :: tl
  nodup : b.nodeList.Nodup
  plist : b.plist = []
  mem : ∀ x, x ∈ b.nodes ↔ x ∈ b.nodeList
  noproc : ∀ x, b.st x ≠ .proc
  exp : ∀ x ∈ b.nodes, x ≠ root → b.expanded x = true
  notin : ∀ x, x ∉ b.nodes → b.st x = .init ∧ b.expanded x = false
  ends : ∀ a x, (a, x) ∈ b.edges → a ∈ b.nodes ∧ x ∈ b.nodes ∧ x ≠ root
  sound : ∀ a x, (a, x) ∈ b.edges → (a = root ∧ (Start d x ∨ Wanted d x)) ∨
    (a ≠ root ∧ (Linked d.toLinks a x ∨ x ∈ d.sticky a))
  into : ∀ x ∈ b.nodes, x ≠ root → ∃ a, (a, x) ∈ b.edges
  cmds : ∀ x ∈ b.nodes, d.isCmd x = true → Changed d x ∨ Wanted d x
  rest : ∀ x ∈ b.nodes, x ≠ root → d.isCmd x = false → Changed d x ∨ ∃ c ∈ b.nodes, Wanted d c ∧ x ∈ d.links c
  base : ∀ x, Changed d x → ¬ Lost d x → x ∈ b.nodes
  edge : ∀ a x, Changed d a → Follows d a x → ¬ Lost d a → ¬ Lost d x → (a, x) ∈ b.edges
  start : ∀ x, Start d x → ¬ Lost d x → (root, x) ∈ b.edges
  outs : ∀ c ∈ b.nodes, Wanted d c → ∀ o ∈ d.links c, Sole d c o → (c, o) ∈ b.edges

variable {d : Db} {root : Nat} {U : List Nat}

theorem Wanted.waiting {c : Nat} (h : Wanted d c) : Waiting d c ∧ ¬ Changed d c := by
  cases h with
  | reached h1 h2 => exact ⟨h1, h2⟩
  | wanted h1 h2 => exact ⟨h1, h2⟩

theorem cmd_not_lost (h : DbOk d root U) {x : Nat} (hx : d.isCmd x = true) : ¬ Lost d x := by
  rintro ⟨c, h1, _, h3, _⟩
  rw [h.outputs c x h1.2.1 h3] at hx; cases hx

theorem kept_changed {x : Nat} (hx : x ∈ d.kept) : Changed d x ∧ ¬ Lost d x :=
  ⟨⟨x, Or.inr hx, Or.inl rfl⟩, fun ⟨_, _, _, _, h⟩ => h hx⟩

theorem att_reached (h : DbOk d root U) {b : B} (hr : Reached d root b) : Att d root b where
  hd := hr.hd
  nodup := hr.nodup
  plist := hr.plist
  mem := hr.mem
  noproc := by
    intro x
    by_cases hx : x ∈ b.nodes
    · by_cases hxr : x = root
      · rw [hxr, hr.rootSt]; simp
      · rw [hr.fin x hx hxr]; simp
    · rw [(hr.notin x hx).1]; simp
  exp := hr.exp
  notin := hr.notin
  ends := by
    intro a x he
    have hroot : root ∈ b.nodes := by
      obtain ⟨tl, htl⟩ := hr.hd
      exact (hr.mem root).2 (by simp [htl])
    rcases (hr.edges a x).1 he with ⟨rfl, hs⟩ | ⟨h1, h2, h3⟩
    · have hxU : x ∈ U := by
        rcases hs with q | q
        · exact h.modify x q.1
        · exact h.kept x q
      have hxr : x ≠ a := fun e => h.noRoot (e ▸ hxU)
      exact ⟨hroot, (hr.nodes x hxr).2 ⟨x, hs, Or.inl rfl⟩, hxr⟩
    · obtain ⟨s, hs, hst⟩ := h2
      have hU : ∀ y, Star (Follows d) s y → y ∈ U := by
        have hsU : s ∈ U := by
          rcases hs with q | q
          · exact h.modify s q.1
          · exact h.kept s q
        rintro y (rfl | hy)
        · exact hsU
        · induction hy with
          | one q => exact h.links _ hsU _ q.1
          | tail _ q ih => exact h.links _ ih _ q.1
      have hx := hst.tail h3
      have hxr : x ≠ root := fun e => h.noRoot (e ▸ hU x hx)
      exact ⟨(hr.nodes a h1).2 ⟨s, hs, hst⟩, (hr.nodes x hxr).2 ⟨s, hs, hx⟩, hxr⟩
  sound := by
    intro a x he
    rcases (hr.edges a x).1 he with ⟨h1, hs⟩ | ⟨h1, h2, h3⟩
    · exact Or.inl ⟨h1, Or.inl hs⟩
    · exact Or.inr ⟨h1, Or.inl h3.1⟩
  into := by
    intro x hx hxr
    obtain ⟨s, hs, hst⟩ := (hr.nodes x hxr).1 hx
    have hsr : ∀ y, Star (Follows d) s y → y ∈ U := by
      have hsU : s ∈ U := by
        rcases hs with q | q
        · exact h.modify s q.1
        · exact h.kept s q
      rintro y (rfl | hy)
      · exact hsU
      · induction hy with
        | one q => exact h.links _ hsU _ q.1
        | tail _ q ih => exact h.links _ ih _ q.1
    rcases hst with rfl | hst
    · exact ⟨root, (hr.edges _ _).2 (Or.inl ⟨rfl, hs⟩)⟩
    · cases hst with
      | one q => exact ⟨s, (hr.edges _ _).2 (Or.inr ⟨fun e => h.noRoot (e ▸ hsr s (Or.inl rfl)),
          ⟨s, hs, Or.inl rfl⟩, q⟩)⟩
      | @tail y _ q1 q2 => exact ⟨y, (hr.edges _ _).2 (Or.inr ⟨fun e => h.noRoot (e ▸ hsr y (Or.inr q1)),
          ⟨s, hs, Or.inr q1⟩, q2⟩)⟩
  cmds := by
    intro x hx hc
    have hxr : x ≠ root := by rintro rfl; rw [h.rootCmd] at hc; cases hc
    exact Or.inl ((hr.nodes x hxr).1 hx)
  rest := fun x hx hxr _ => Or.inl ((hr.nodes x hxr).1 hx)
  base := by
    intro x hx _
    have hxr : x ≠ root := by
      rintro rfl
      obtain ⟨s, hs, hst⟩ := hx
      have hsU : s ∈ U := by
        rcases hs with q | q
        · exact h.modify s q.1
        · exact h.kept s q
      rcases hst with rfl | hst
      · exact h.noRoot hsU
      · have : ∀ y, Plus (Follows d) s y → y ∈ U := by
          intro y hy
          induction hy with
          | one q => exact h.links _ hsU _ q.1
          | tail _ q ih => exact h.links _ ih _ q.1
        exact h.noRoot (this _ hst)
    exact (hr.nodes x hxr).2 hx
  edge := by
    intro a x h1 h2 _ _
    refine (hr.edges a x).2 (Or.inr ⟨?_, h1, h2⟩)
    rintro rfl
    obtain ⟨s, hs, hst⟩ := h1
    have hsU : s ∈ U := by
      rcases hs with q | q
      · exact h.modify s q.1
      · exact h.kept s q
    rcases hst with rfl | hst
    · exact h.noRoot hsU
    · have : ∀ y, Plus (Follows d) s y → y ∈ U := by
        intro y hy
        induction hy with
        | one q => exact h.links _ hsU _ q.1
        | tail _ q ih => exact h.links _ ih _ q.1
      exact h.noRoot (this _ hst)
  start := fun x hx _ => (hr.edges root x).2 (Or.inl ⟨rfl, hx⟩)
  outs := by
    intro c hc hw
    have hcc := hw.waiting
    have hxr : c ≠ root := by rintro rfl; have := hcc.1.2.1; rw [h.rootCmd] at this; cases this
    exact absurd ((hr.nodes c hxr).1 hc) hcc.2

/-- The state of the graph after the command and its outputs have been put in, whatever follows. -/
theorem attach_middle (h : DbOk d root U) {b : B} (ha : Att d root b) {c : Nat} (hw : Waiting d c)
    (hc : c ∉ b.nodes) :
    ∃ (b2 b3 : B) (k : Bool) (E : List (Nat × Nat)), addLinks ((d.links c).map (⟨c, ·, true⟩)) (findOrCreate c b) = some b2 ∧
      attachOuts d (d.links c).reverse b2 = some (b3, k) ∧ Sane [root, c] b3 ∧ b3.st = b.st ∧
      b3.nodeList = b.nodeList ++ [c] ∧ (∀ x, x ∈ b3.plist ↔ x ∈ d.links c ∧ x ∉ b.nodes) ∧
      (∀ x, x ∈ b3.nodes ↔ x ∈ b.nodes ∨ x = c ∨ x ∈ d.links c) ∧ b3.expanded c = false ∧
      (∀ e, e ∈ b3.edges ↔ e ∈ E ∨ (e.1 = c ∧ e.2 ∈ d.links c) ∨ e ∈ b.edges) ∧
      (∀ e ∈ E, e.1 ∈ d.links c ∧ e.2 ∈ d.sticky e.1 ∧ e.2 ∈ b.nodes) ∧
      (k = true → ∃ o ∈ d.links c, o ∉ d.kept ∧ ∃ x, (o, x) ∈ b3.edges) ∧
      (k = false → ∀ o ∈ d.links c, o ∉ d.kept → (∀ r ∈ d.sticky o, r ∉ b.nodes) ∧ ∀ x, (o, x) ∉ b3.edges) := by
  have hcU : c ∈ U := h.modify c hw.1
  have hroot : root ∈ b.nodes := by
    obtain ⟨tl, htl⟩ := ha.hd
    exact (ha.mem root).2 (by simp [htl])
  have hcr : c ≠ root := fun e => hc (e ▸ hroot)
  have hoU : ∀ o ∈ d.links c, o ∈ U := fun o ho => h.links c hcU o (Or.inl ho)
  have hor : ∀ o ∈ d.links c, o ≠ root := fun o ho e => h.noRoot (e ▸ hoU o ho)
  have hoc : ∀ o ∈ d.links c, o ≠ c := by
    intro o ho e
    have := h.outputs c o hw.2.1 ho
    rw [e, hw.2.1] at this; cases this
  have hf : findOrCreate c b = { b with nodes := c :: b.nodes, nodeList := b.nodeList ++ [c] } := by
    rw [findOrCreate, if_neg hc]
  have hcnl : c ∉ b.nodeList := fun e => hc ((ha.mem c).2 e)
  have hs1 : Sane [root, c] { b with nodes := c :: b.nodes, nodeList := b.nodeList ++ [c] } := by
    refine ⟨?_, ?_, ha.noproc, ?_, ?_⟩
    · simp only [ha.plist, List.append_nil]
      rw [List.nodup_append]
      exact ⟨ha.nodup, by simp, by intro x hx y hy; simp only [List.mem_singleton] at hy; rw [hy]; exact fun e => hcnl (e ▸ hx)⟩
    · intro x; simp only [ha.plist, List.mem_cons, List.mem_append, List.not_mem_nil, or_false, ha.mem]; grind
    · intro x hx hX
      simp only [List.mem_cons, List.not_mem_nil, or_false, not_or] at hX hx
      rcases hx with q | q
      · exact absurd q hX.2
      · exact ha.exp x q hX.1
    · intro x hx
      simp only [List.mem_cons, not_or] at hx
      exact ha.notin x hx.2
  have hdst : ∀ p ∈ (d.links c).map (fun o => (⟨c, o, true⟩ : Op)), p.src = c ∧ p.dst ∈ d.links c := by
    intro p hp
    obtain ⟨o, ho, rfl⟩ := List.mem_map.1 hp
    exact ⟨rfl, ho⟩
  obtain ⟨b2, l, e1, e2, e3, e4, e5, e6, e7, e8, e9⟩ := sane_links
    ((d.links c).map (fun o => (⟨c, o, true⟩ : Op))) _ hs1 (by
      intro p hp
      have := (hdst p hp).2
      simp only [List.mem_cons, List.not_mem_nil, or_false, not_or]
      exact ⟨hor _ this, hoc _ this⟩)
  have hdx : ∀ x, (∃ p ∈ (d.links c).map (fun o => (⟨c, o, true⟩ : Op)), p.dst = x) ↔ x ∈ d.links c := by
    intro x
    constructor
    · rintro ⟨p, hp, rfl⟩; exact (hdst p hp).2
    · intro hx; exact ⟨_, List.mem_map.2 ⟨x, hx, rfl⟩, rfl⟩
  have hn2 : ∀ x, x ∈ b2.nodes ↔ x ∈ b.nodes ∨ x = c ∨ x ∈ d.links c := by
    intro x; rw [e7, hdx]; simp only [List.mem_cons]; grind
  -- users are commands
  have hus : ∀ o ∈ d.links c, ∀ r ∈ d.sticky o, r ≠ root ∧ r ≠ c ∧ r ∉ d.links c := by
    intro o ho r hr
    have hrc := h.users o r hr
    refine ⟨?_, ?_, ?_⟩
    · rintro rfl; rw [h.rootCmd] at hrc; cases hrc
    · rintro rfl; exact h.own r o ho hr
    · intro hl
      have := h.outputs c r hw.2.1 hl
      rw [hrc] at this; cases this
  obtain ⟨b3, k, E, f1, f2, f3, f4, f5, f6, f7, f8, f9, f10, f11⟩ := attachOuts_spec (d := d) (d.links c).reverse b2 e2
    (by
      intro o ho r hr
      have := hus o (List.mem_reverse.1 ho) r hr
      simp only [List.mem_cons, List.not_mem_nil, or_false, not_or]
      exact ⟨this.1, this.2.1⟩)
  have hrb : ∀ o ∈ d.links c, ∀ r ∈ d.sticky o, (r ∈ b2.nodes ↔ r ∈ b.nodes) := by
    intro o ho r hr
    obtain ⟨_, q2, q3⟩ := hus o ho r hr
    rw [hn2]; simp [q2, q3]
  refine ⟨b2, b3, k, E, by rw [hf]; exact e1, f1, f2, f3.trans e3, f4.trans e4, ?_, ?_, ?_, ?_, ?_, ?_, ?_⟩
  · intro x
    rw [f5, e5, ha.plist, List.append_nil, e6, hdx]
    simp only [List.mem_cons, not_or]
    constructor
    · rintro ⟨q1, _, q2⟩; exact ⟨q1, q2⟩
    · rintro ⟨q1, q2⟩; exact ⟨q1, hoc x q1, q2⟩
  · intro x; rw [f6, hn2]
  · rw [f7 c ((hn2 c).2 (Or.inr (Or.inl rfl))), e8 c (by simp)]
    exact (ha.notin c hc).2
  · intro e
    rw [f8, List.mem_append, e9, List.mem_append, List.mem_reverse]
    have : e ∈ ((d.links c).map (fun o => (⟨c, o, true⟩ : Op))).map Op.edge ↔ e.1 = c ∧ e.2 ∈ d.links c := by
      rw [List.map_map, List.mem_map]
      constructor
      · rintro ⟨o, ho, rfl⟩; exact ⟨rfl, ho⟩
      · rintro ⟨q1, q2⟩; exact ⟨e.2, q2, Prod.ext q1.symm rfl⟩
    rw [this]
  · intro e he
    obtain ⟨q1, q2, q3⟩ := f9 e he
    have q1' := List.mem_reverse.1 q1
    exact ⟨q1', q2, (hrb _ q1' _ q2).1 q3⟩
  · intro hk
    obtain ⟨o, q1, q2⟩ := f10 hk
    exact ⟨o, List.mem_reverse.1 q1, q2⟩
  · intro hk o ho hno
    obtain ⟨q1, q2⟩ := f11 hk o (List.mem_reverse.2 ho) hno
    exact ⟨fun r hr hrn => q1 r hr ((hrb o ho r hr).2 hrn), q2⟩

/-- One command. -/
theorem attachOne_spec (h : DbOk d root U) {b : B} (ha : Att d root b) {c : Nat} (hw : Waiting d c)
    (hc : c ∉ b.nodes) :
    (attachOne d root c b = .internal ∧ (∃ o ∈ d.links c, o ∉ d.kept) ∧
      ((d.links c).Nodup → ∃ o ∈ d.links c, o ∈ b.nodes)) ∨
    (∃ b', attachOne d root c b = .kept b' ∧ Att d root b' ∧
      (∀ x, x ∈ b'.nodes ↔ x ∈ b.nodes ∨ x = c ∨ x ∈ d.links c)) ∨
    (∃ b', attachOne d root c b = .dropped b' ∧ Att d root b' ∧
      (∀ x, x ∈ b'.nodes ↔ x ∈ b.nodes ∧ ¬ (x ∈ d.links c ∧ x ∉ d.kept)) ∧
      (∀ o ∈ d.links c, o ∉ d.kept → ∀ r ∈ d.sticky o, r ∉ b.nodes)) := by
  obtain ⟨b2, b3, k, E, e1, e2, hs, hst, hnl, hpl, hn, hexp, hE, hE1, hkt, hkf⟩ := attach_middle h ha hw hc
  have hcU : c ∈ U := h.modify c hw.1
  obtain ⟨tl, htl⟩ := ha.hd
  have hroot : root ∈ b.nodes := (ha.mem root).2 (by simp [htl])
  have hcr : c ≠ root := fun e => hc (e ▸ hroot)
  have hoU : ∀ o ∈ d.links c, o ∈ U := fun o ho => h.links c hcU o (Or.inl ho)
  have hor : ∀ o ∈ d.links c, o ≠ root := fun o ho e => h.noRoot (e ▸ hoU o ho)
  have hocmd : ∀ o ∈ d.links c, d.isCmd o = false := fun o ho => h.outputs c o hw.2.1 ho
  have hoc : ∀ o ∈ d.links c, o ≠ c := by
    intro o ho e
    have := hocmd o ho
    rw [e, hw.2.1] at this; cases this
  have hnch : ¬ Changed d c := fun hch => hc (ha.base c hch (cmd_not_lost h hw.2.1))
  have hcnl : c ∉ b.nodeList := fun e => hc ((ha.mem c).2 e)
  have hpnd : b3.plist.Nodup := (List.nodup_append.1 hs.nodup).2.1
  simp only [attachOne, e1]
  cases k with
  | true =>
    cases hset : settle (d.links c).reverse b3 with
    | none =>
      left
      obtain ⟨o, q1, q2, _⟩ := hkt rfl
      refine ⟨by simp only [e2, hset], ⟨o, q1, q2⟩, ?_⟩
      intro hnd
      by_cases hex : ∃ o ∈ d.links c, o ∈ b.nodes
      · exact hex
      · exfalso
        obtain ⟨b', e⟩ := settle_ok (d.links c).reverse b3 hpnd (by rw [List.Nodup, List.pairwise_reverse]; exact hnd.imp (fun h e => h e.symm)) (by
          intro o ho
          have ho' := List.mem_reverse.1 ho
          exact (hpl o).2 ⟨ho', fun hb => hex ⟨o, ho', hb⟩⟩)
        rw [e] at hset; cases hset
    | some b4 =>
      obtain ⟨g1, g2, g3, g4, g5, g6, g7, g8, g9⟩ := settle_spec _ b3 b4 hpnd hset
      have hfresh : ∀ o ∈ d.links c, o ∉ b.nodes := fun o ho => ((hpl o).1 (g2 o (List.mem_reverse.2 ho))).2
      have hpl4 : b4.plist = [] := by
        rw [List.eq_nil_iff_forall_not_mem]
        intro x hx
        obtain ⟨q1, q2⟩ := (g5 x).1 hx
        exact q2 (List.mem_reverse.2 ((hpl x).1 q1).1)
      have hc4 : c ∈ b4.nodes := by rw [g3]; exact (hn c).2 (Or.inr (Or.inl rfl))
      have hst4 : b4.st c ≠ .proc := by
        rw [g9, hst]
        split
        · simp
        · exact ha.noproc c
      have hnl4 : b4.nodeList.erase c = b.nodeList ++ (d.links c).reverse := by
        rw [g4, hnl, List.append_assoc, List.erase_append_right _ hcnl]
        simp
      -- the command is wanted
      have hwant : Wanted d c := by
        obtain ⟨o, q1, q2, x, q3⟩ := hkt rfl
        rcases (hE (o, x)).1 q3 with q | q | q
        · obtain ⟨p1, p2, p3⟩ := hE1 _ q
          rcases ha.cmds x p3 (h.users o x p2) with r | r
          · exact .reached hw hnch q1 q2 p2 r
          · exact .wanted hw hnch q1 q2 p2 r
        · exact absurd q.1 (hoc o q1)
        · exact absurd (ha.ends o x q).1 (hfresh o q1)
      have hent : enter root c b4 = some ⟨b4.nodes, b.nodeList ++ (d.links c).reverse ++ [c], [],
          (root, c) :: b4.edges, b4.st, upd b4.expanded c true⟩ := by
        simp only [enter, makeEdge]
        have hfc : findOrCreate c b4 = b4 := by rw [findOrCreate, if_pos hc4]
        rw [hfc, if_neg (by rintro ⟨_, q⟩; exact hst4 q)]
        have hx : b4.expanded c = false := by rw [g8]; exact hexp
        simp only [hx, Bool.false_eq_true, if_false, hpl4, hnl4, List.erase_cons_head]
      right; left
      refine ⟨_, by simp only [e2, hset, hent]; rfl, ?_, ?_⟩
      · constructor
        · exact ⟨tl ++ (d.links c).reverse ++ [c], by simp [htl]⟩
        · simp only
          have hnd : (b.nodeList ++ (d.links c).reverse).Nodup := by
            rw [List.nodup_append]
            refine ⟨ha.nodup, g1, ?_⟩
            intro x hx y hy e
            exact hfresh y (List.mem_reverse.1 hy) ((ha.mem y).2 (e ▸ hx))
          rw [List.nodup_append]
          refine ⟨hnd, by simp, ?_⟩
          intro x hx y hy e
          simp only [List.mem_singleton] at hy
          rcases List.mem_append.1 hx with q | q
          · exact hcnl (hy ▸ e ▸ q)
          · exact hoc x (List.mem_reverse.1 q) (e.trans hy)
        · rfl
        · intro x
          simp only [g3, hn, ha.mem, List.mem_append, List.mem_reverse, List.mem_singleton]
          grind
        · intro x
          simp only [g9, hst]
          split
          · simp
          · exact ha.noproc x
        · intro x hx hxr
          simp only [g3] at hx
          simp only [upd_apply]
          split
          · rfl
          · rename_i hxc
            rw [g8]
            exact hs.exp x hx (by simp [hxr, hxc])
        · intro x hx
          simp only [g3] at hx
          have hxc : x ≠ c := fun e => hx ((hn x).2 (Or.inr (Or.inl e)))
          have hxl : x ∉ d.links c := fun e => hx ((hn x).2 (Or.inr (Or.inr e)))
          have := hs.notin x hx
          simp only [upd_apply, if_neg hxc, g8, g9, List.mem_reverse, if_neg hxl]
          exact this
        · intro a x he
          simp only [List.mem_cons, Prod.mk.injEq, g7] at he
          simp only [g3, hn]
          rcases he with ⟨rfl, rfl⟩ | he
          · exact ⟨Or.inl hroot, Or.inr (Or.inl rfl), hcr⟩
          · rcases (hE (a, x)).1 he with q | q | q
            · obtain ⟨p1, p2, p3⟩ := hE1 _ q
              refine ⟨Or.inr (Or.inr p1), Or.inl p3, ?_⟩
              rintro rfl
              have := h.users _ _ p2
              simp only [h.rootCmd] at this; cases this
            · exact ⟨Or.inr (Or.inl q.1), Or.inr (Or.inr q.2), hor _ q.2⟩
            · have := ha.ends a x q
              exact ⟨Or.inl this.1, Or.inl this.2.1, this.2.2⟩
        · intro a x he
          simp only [List.mem_cons, Prod.mk.injEq, g7] at he
          rcases he with ⟨rfl, rfl⟩ | he
          · exact Or.inl ⟨rfl, Or.inr hwant⟩
          · rcases (hE (a, x)).1 he with q | q | q
            · obtain ⟨p1, p2, p3⟩ := hE1 _ q
              exact Or.inr ⟨hor a p1, Or.inr p2⟩
            · have q1 : a = c := q.1
              exact Or.inr ⟨q1 ▸ hcr, Or.inl (Or.inl (q1 ▸ q.2))⟩
            · exact ha.sound a x q
        · intro x hx hxr
          simp only [g3, hn] at hx
          simp only [g7]
          rcases hx with q | q | q
          · obtain ⟨a, p⟩ := ha.into x q hxr
            exact ⟨a, List.mem_cons_of_mem _ ((hE _).2 (Or.inr (Or.inr p)))⟩
          · exact ⟨root, by simp [q]⟩
          · exact ⟨c, List.mem_cons_of_mem _ ((hE _).2 (Or.inr (Or.inl ⟨rfl, q⟩)))⟩
        · intro x hx hxc
          simp only [g3, hn] at hx
          rcases hx with q | q | q
          · exact ha.cmds x q hxc
          · exact Or.inr (q ▸ hwant)
          · rw [hocmd x q] at hxc; cases hxc
        · intro x hx hxr hxc
          simp only [g3, hn] at hx ⊢
          rcases hx with q | q | q
          · rcases ha.rest x q hxr hxc with p | ⟨c', p1, p2⟩
            · exact Or.inl p
            · exact Or.inr ⟨c', Or.inl p1, p2⟩
          · rw [q, hw.2.1] at hxc; cases hxc
          · exact Or.inr ⟨c, Or.inr (Or.inl rfl), hwant, q⟩
        · intro x h1 h2
          simp only [g3, hn]
          exact Or.inl (ha.base x h1 h2)
        · intro a x h1 h2 h3 h4
          simp only [g7]
          exact List.mem_cons_of_mem _ ((hE _).2 (Or.inr (Or.inr (ha.edge a x h1 h2 h3 h4))))
        · intro x h1 h2
          simp only [g7]
          exact List.mem_cons_of_mem _ ((hE _).2 (Or.inr (Or.inr (ha.start x h1 h2))))
        · intro c' hc' hw' o ho hal
          simp only [g3, hn] at hc'
          simp only [g7]
          refine List.mem_cons_of_mem _ ((hE _).2 ?_)
          rcases hc' with q | q | q
          · exact Or.inr (Or.inr (ha.outs c' q hw' o ho hal))
          · exact Or.inr (Or.inl ⟨q, q ▸ ho⟩)
          · have := hocmd c' q
            rw [hw'.waiting.1.2.1] at this; cases this
      · intro x; simp only [g3, hn]
  | false =>
    right; right
    have hkf' := hkf rfl
    refine ⟨_, by simp only [e2]; rfl, ?_⟩
    have hdrop : drop d c (d.links c).reverse b3 =
        ((d.links c).reverse.filter (· ∉ d.kept) ++ [c]).foldl (fun b o => removeNode o b) b3 := by
      simp [drop]
    generalize hL : (d.links c).reverse.filter (· ∉ d.kept) ++ [c] = L at hdrop
    have hmL : ∀ x, x ∈ L ↔ (x ∈ d.links c ∧ x ∉ d.kept) ∨ x = c := by
      intro x; rw [← hL]; simp
    rw [hdrop]
    obtain ⟨r1, r2, r3, r4, r5, r6⟩ := removeAll_spec L b3
    generalize L.foldl (fun b o => removeNode o b) b3 = b' at r1 r2 r3 r4 r5 r6
    have hn' : ∀ x, x ∈ b'.nodes ↔ x ∈ b.nodes ∧ ¬ (x ∈ d.links c ∧ x ∉ d.kept) := by
      intro x
      rw [r1, hn, hmL, not_or]
      constructor
      · rintro ⟨q1 | q1 | q1, q2, q3⟩
        · exact ⟨q1, q2⟩
        · exact absurd q1 q3
        · have hk : x ∈ d.kept := by
            by_cases hk : x ∈ d.kept
            · exact hk
            · exact absurd ⟨q1, hk⟩ q2
          obtain ⟨p1, p2⟩ := kept_changed hk
          exact ⟨ha.base x p1 p2, q2⟩
      · rintro ⟨q1, q2⟩
        exact ⟨Or.inl q1, q2, fun e => hc (e ▸ q1)⟩
    have hrL : root ∉ L := by
      intro hr
      rcases (hmL root).1 hr with q | q
      · exact hor root q.1 rfl
      · exact hcr q.symm
    have hcL : c ∈ L := (hmL c).2 (Or.inr rfl)
    -- an old edge from something that stays or goes
    have hsrc : ∀ a x, (a, x) ∈ b.edges → a ∉ L := by
      intro a x he haL
      rcases (hmL a).1 haL with q | q
      · exact (hkf' a q.1 q.2).2 x ((hE _).2 (Or.inr (Or.inr he)))
      · exact hc (q ▸ (ha.ends a x he).1)
    have hed : ∀ a x, (a, x) ∈ b'.edges → (a, x) ∈ b.edges ∨ (a ∈ d.links c ∧ a ∈ d.kept ∧ x ∈ d.sticky a ∧ x ∈ b.nodes) := by
      intro a x he
      obtain ⟨q1, q2, q3⟩ := (r4 a x).1 he
      rcases (hE (a, x)).1 q1 with q | q | q
      · obtain ⟨p1, p2, p3⟩ := hE1 _ q
        refine Or.inr ⟨p1, ?_, p2, p3⟩
        by_cases hk : a ∈ d.kept
        · exact hk
        · exact absurd ((hmL a).2 (Or.inl ⟨p1, hk⟩)) q2
      · exact absurd hcL (q.1 ▸ q2)
      · exact Or.inl q
    have hedold : ∀ a x, (a, x) ∈ b.edges → x ∉ L → (a, x) ∈ b'.edges := fun a x he hx =>
      (r4 a x).2 ⟨(hE _).2 (Or.inr (Or.inr he)), hsrc a x he, hx⟩
    have hlost : ∀ x, x ≠ c → ¬ Lost d x → x ∉ L := by
      intro x hxc hx hxL
      rcases (hmL x).1 hxL with q | q
      · exact hx ⟨c, hw, hnch, q.1, q.2⟩
      · exact hxc q
    refine ⟨?_, hn', fun o ho hk => (hkf' o ho hk).1⟩
    constructor
    · refine ⟨(tl ++ [c]).filter (· ∉ L), ?_⟩
      rw [r2, hnl, htl, List.cons_append, List.filter_cons, if_pos (by simp [hrL])]
    · rw [r2]
      exact ((List.nodup_append.1 hs.nodup).1).filter _
    · rw [r3, List.filter_eq_nil_iff]
      intro x hx
      obtain ⟨q1, q2⟩ := (hpl x).1 hx
      have hk : x ∉ d.kept := by
        intro hk
        obtain ⟨p1, p2⟩ := kept_changed hk
        exact q2 (ha.base x p1 p2)
      have : x ∈ L := (hmL x).2 (Or.inl ⟨q1, hk⟩)
      simp [this]
    · intro x
      rw [r2, List.mem_filter, hnl, hn', List.mem_append, ← ha.mem, List.mem_singleton]
      simp only [decide_eq_true_eq, hmL, not_or]
      constructor
      · rintro ⟨q1, q2⟩; exact ⟨Or.inl q1, q2, fun e => hc (e ▸ q1)⟩
      · rintro ⟨q1 | q1, q2, q3⟩
        · exact ⟨q1, q2⟩
        · exact absurd q1 q3
    · intro x
      rw [r5, hst]
      split
      · simp
      · exact ha.noproc x
    · intro x hx hxr
      have hx' := (r1 x).1 hx
      rw [r6, if_neg hx'.2]
      refine hs.exp x hx'.1 ?_
      have hxc : x ≠ c := fun e => hx'.2 (e ▸ hcL)
      simp [hxr, hxc]
    · intro x hx
      rw [r5, r6]
      by_cases hxL : x ∈ L
      · simp [hxL]
      · rw [if_neg hxL, if_neg hxL]
        refine hs.notin x ?_
        intro h3
        exact hx ((r1 x).2 ⟨h3, hxL⟩)
    · intro a x he
      obtain ⟨q1, q2, q3⟩ := (r4 a x).1 he
      rw [r1, r1]
      rcases hed a x he with q | ⟨p1, p2, p3, p4⟩
      · obtain ⟨s1, s2, s3⟩ := ha.ends a x q
        exact ⟨⟨(hn a).2 (Or.inl s1), q2⟩, ⟨(hn x).2 (Or.inl s2), q3⟩, s3⟩
      · refine ⟨⟨(hn a).2 (Or.inr (Or.inr p1)), q2⟩, ⟨(hn x).2 (Or.inl p4), q3⟩, ?_⟩
        rintro rfl
        have := h.users _ _ p3
        rw [h.rootCmd] at this; cases this
    · intro a x he
      rcases hed a x he with q | ⟨p1, p2, p3, p4⟩
      · exact ha.sound a x q
      · exact Or.inr ⟨hor a p1, Or.inr p3⟩
    · intro x hx hxr
      obtain ⟨q1, q2⟩ := (hn' x).1 hx
      obtain ⟨a, p⟩ := ha.into x q1 hxr
      refine ⟨a, hedold a x p ?_⟩
      rw [hmL, not_or]
      exact ⟨q2, fun e => hc (e ▸ q1)⟩
    · intro x hx hxc
      exact ha.cmds x ((hn' x).1 hx).1 hxc
    · intro x hx hxr hxc
      obtain ⟨q1, q2⟩ := (hn' x).1 hx
      rcases ha.rest x q1 hxr hxc with p | ⟨c', p1, p2, p3⟩
      · exact Or.inl p
      · refine Or.inr ⟨c', (hn' c').2 ⟨p1, ?_⟩, p2, p3⟩
        rintro ⟨s1, _⟩
        have := hocmd c' s1
        rw [p2.waiting.1.2.1] at this; cases this
    · intro x h1 h2
      have hb := ha.base x h1 h2
      exact (hn' x).2 ⟨hb, fun ⟨s1, s2⟩ => h2 ⟨c, hw, hnch, s1, s2⟩⟩
    · intro a x h1 h2 h3 h4
      have he := ha.edge a x h1 h2 h3 h4
      refine hedold a x he (hlost x ?_ h4)
      rintro rfl
      exact hc (ha.ends _ _ he).2.1
    · intro x h1 h2
      have he := ha.start x h1 h2
      refine hedold root x he (hlost x ?_ h2)
      rintro rfl
      exact hc (ha.ends _ _ he).2.1
    · intro c' hc' hw' o ho hal
      have hcb := ((hn' c').1 hc').1
      have he := ha.outs c' hcb hw' o ho hal
      refine hedold c' o he ?_
      rw [hmL, not_or]
      refine ⟨?_, fun e => hc (e ▸ (ha.ends _ _ he).2.1)⟩
      rintro ⟨s1, _⟩
      have : c = c' := hal c hw hnch s1
      exact hc (this ▸ hcb)

end Tup.Transient
