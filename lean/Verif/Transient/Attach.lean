import Verif.Transient.Base

/-! What attaching one transient command does to the graph. -/

namespace Tup.Transient

open Tup.Graph
open Tup.Exec (upd upd_apply)

/-- The bookkeeping of the graph is in order, except that the nodes `X` may not have been expanded. -/
structure Sane (X : List Nat) (b : B) : Prop where
  nodup : (b.nodeList ++ b.plist).Nodup
  mem : ∀ x, x ∈ b.nodes ↔ x ∈ b.nodeList ∨ x ∈ b.plist
  noproc : ∀ x, b.st x ≠ .proc
  exp : ∀ x ∈ b.nodes, x ∉ X → b.expanded x = true
  notin : ∀ x, x ∉ b.nodes → b.st x = .init ∧ b.expanded x = false

theorem sane_edge {X : List Nat} {b : B} (h : Sane X b) {o : Op} (ho : o.dst ∉ X) :
    ∃ b', makeEdge o b = some b' ∧ Sane X b' ∧ b'.st = b.st ∧ b'.nodeList = b.nodeList ∧
      b'.plist = (if o.dst ∈ b.nodes then b.plist else o.dst :: b.plist) ∧
      (∀ x, x ∈ b'.nodes ↔ x ∈ b.nodes ∨ x = o.dst) ∧
      (∀ x, x ∈ b.nodes → b'.expanded x = b.expanded x) ∧ b'.edges = o.edge :: b.edges := by
  have hc : ∀ b' : B, b'.st = b.st → ¬ (o.check = true ∧ b'.st o.dst = .proc) := by
    rintro b' e ⟨_, h2⟩; rw [e] at h2; exact h.noproc _ h2
  by_cases hn : o.dst ∈ b.nodes
  · have hfc : findOrCreate o.dst b = b := by rw [findOrCreate, if_pos hn]
    have hx := h.exp o.dst hn ho
    refine ⟨⟨b.nodes, b.nodeList, b.plist, o.edge :: b.edges, b.st, b.expanded⟩, ?_, { h with }, rfl, rfl,
        ?_, ?_, fun _ _ => rfl, rfl⟩
    · simp only [makeEdge, hfc]
      rw [if_neg (hc b rfl), if_pos hx]; rfl
    · rw [if_pos hn]
    · intro x; constructor
      · intro h1; exact Or.inl h1
      · rintro (h1 | rfl)
        · exact h1
        · exact hn
  · obtain ⟨hs, he⟩ := h.notin o.dst hn
    have hnl : o.dst ∉ b.nodeList := fun hc => hn ((h.mem _).2 (Or.inl hc))
    have hpl : o.dst ∉ b.plist := fun hc => hn ((h.mem _).2 (Or.inr hc))
    refine ⟨⟨o.dst :: b.nodes, b.nodeList, o.dst :: b.plist, o.edge :: b.edges, b.st,
        upd b.expanded o.dst true⟩, ?_, ?_, rfl, rfl, ?_, ?_, ?_, rfl⟩
    · simp only [makeEdge, findOrCreate, if_neg hn, hs, he]
      have : (b.nodeList ++ [o.dst]).erase o.dst = b.nodeList := by
        rw [List.erase_append_right _ hnl]; simp
      simp [this, Op.edge]
    · exact { nodup := by
                have := h.nodup
                rw [List.nodup_append] at this ⊢
                refine ⟨this.1, List.nodup_cons.2 ⟨hpl, this.2.1⟩, ?_⟩
                intro a ha c hc hac
                rcases List.mem_cons.1 hc with h1 | h1
                · exact hnl (h1 ▸ hac ▸ ha)
                · exact this.2.2 a ha c h1 hac
              mem := by
                intro x
                have := h.mem x
                simp only [List.mem_cons]
                grind
              noproc := h.noproc
              exp := by
                intro x hx hr
                simp only [upd_apply]
                rcases List.mem_cons.1 hx with rfl | h1
                · simp
                · split
                  · rfl
                  · exact h.exp x h1 hr
              notin := by
                intro x hx
                simp only [List.mem_cons, not_or] at hx
                simp only [upd_apply, if_neg hx.1]
                exact h.notin x hx.2 }
    · rw [if_neg hn]
    · intro x; simp only [List.mem_cons]; grind
    · intro x hx
      have : x ≠ o.dst := fun e => hn (e ▸ hx)
      simp only [upd_apply, if_neg this]

theorem sane_links {X : List Nat} : ∀ (os : List Op) (b : B), Sane X b → (∀ o ∈ os, o.dst ∉ X) →
    ∃ b' l, addLinks os b = some b' ∧ Sane X b' ∧ b'.st = b.st ∧ b'.nodeList = b.nodeList ∧
      b'.plist = l ++ b.plist ∧ (∀ x, x ∈ l ↔ (∃ o ∈ os, o.dst = x) ∧ x ∉ b.nodes) ∧
      (∀ x, x ∈ b'.nodes ↔ x ∈ b.nodes ∨ ∃ o ∈ os, o.dst = x) ∧
      (∀ x, x ∈ b.nodes → b'.expanded x = b.expanded x) ∧
      b'.edges = (os.map Op.edge).reverse ++ b.edges := by
  intro os
  induction os with
  | nil =>
    intro b h _
    exact ⟨b, [], rfl, h, rfl, rfl, rfl, by simp, by simp, fun _ _ => rfl, by simp⟩
  | cons o os ih =>
    intro b h ho
    obtain ⟨b1, e1, e2, e3, e4, e5, e6, e8, e7⟩ := sane_edge h (ho o (by simp))
    obtain ⟨b2, l, f1, f2, f3, f4, f5, f6, f8, f10, f9⟩ := ih b1 e2 (fun o' ho' => ho o' (by simp [ho']))
    refine ⟨b2, if o.dst ∈ b.nodes then l else l ++ [o.dst], by simp [addLinks, e1, f1], f2,
      f3.trans e3, f4.trans e4, ?_, ?_, ?_, ?_, ?_⟩
    · rw [f5, e5]; split <;> simp
    · intro x
      have h1 : x ∈ (if o.dst ∈ b.nodes then l else l ++ [o.dst]) ↔ x ∈ l ∨ (x = o.dst ∧ o.dst ∉ b.nodes) := by
        split <;> rename_i hq <;> simp [hq]
      rw [h1, f6, e6]
      simp only [List.mem_cons, exists_eq_or_imp]
      grind
    · intro x
      rw [f8, e6]
      simp only [List.mem_cons, exists_eq_or_imp]
      grind
    · intro x hx
      rw [f10 x ((e6 x).2 (Or.inl hx)), e8 x hx]
    · rw [f9, e7]; simp

variable {d : Db}

/-- The users of the outputs of a command that are in the graph. -/
theorem attachOuts_spec {X : List Nat} : ∀ (os : List Nat) (b : B), Sane X b →
    (∀ o ∈ os, ∀ r ∈ d.sticky o, r ∉ X) →
    ∃ b' k E, attachOuts d os b = some (b', k) ∧ Sane X b' ∧ b'.st = b.st ∧ b'.nodeList = b.nodeList ∧
      b'.plist = b.plist ∧ (∀ x, x ∈ b'.nodes ↔ x ∈ b.nodes) ∧ (∀ x ∈ b.nodes, b'.expanded x = b.expanded x) ∧
      b'.edges = E ++ b.edges ∧ (∀ e ∈ E, e.1 ∈ os ∧ e.2 ∈ d.sticky e.1 ∧ e.2 ∈ b.nodes) ∧
      (k = true → ∃ o ∈ os, o ∉ d.kept ∧ ∃ x, (o, x) ∈ b'.edges) ∧
      (k = false → ∀ o ∈ os, o ∉ d.kept → (∀ r ∈ d.sticky o, r ∉ b.nodes) ∧ ∀ x, (o, x) ∉ b'.edges) := by
  intro os
  induction os with
  | nil =>
    intro b h _
    exact ⟨b, false, [], rfl, h, rfl, rfl, rfl, fun _ => Iff.rfl, fun _ _ => rfl, rfl, by simp, by simp, by simp⟩
  | cons o os ih =>
    intro b h hX
    have hdst : ∀ p ∈ ((d.sticky o).filter (· ∈ b.nodes)).map (fun r => (⟨o, r, true⟩ : Op)),
        p.src = o ∧ p.dst ∈ d.sticky o ∧ p.dst ∈ b.nodes := by
      intro p hp
      obtain ⟨r, hr, rfl⟩ := List.mem_map.1 hp
      simpa using List.mem_filter.1 hr
    obtain ⟨b1, l, e1, e2, e3, e4, e5, e6, e7, e8, e9⟩ := sane_links
      (((d.sticky o).filter (· ∈ b.nodes)).map (fun r => (⟨o, r, true⟩ : Op))) b h
      (fun p hp => hX o (by simp) _ (hdst p hp).2.1)
    have hl : l = [] := by
      rw [List.eq_nil_iff_forall_not_mem]
      intro x hx
      obtain ⟨⟨p, hp, rfl⟩, hx2⟩ := (e6 x).1 hx
      exact hx2 (hdst p hp).2.2
    have hn1 : ∀ x, x ∈ b1.nodes ↔ x ∈ b.nodes := by
      intro x; rw [e7]
      constructor
      · rintro (q | ⟨p, hp, rfl⟩)
        · exact q
        · exact (hdst p hp).2.2
      · exact Or.inl
    have hE1 : ∀ e ∈ ((((d.sticky o).filter (· ∈ b.nodes)).map (fun r => (⟨o, r, true⟩ : Op))).map Op.edge).reverse,
        e.1 = o ∧ e.2 ∈ d.sticky o ∧ e.2 ∈ b.nodes := by
      intro e he
      rw [List.mem_reverse] at he
      obtain ⟨p, hp, rfl⟩ := List.mem_map.1 he
      exact hdst p hp
    rw [hl, List.nil_append] at e5
    simp only [attachOuts, e1]
    by_cases hk : o ∉ d.kept ∧ b1.edges.any (fun e => decide (e.1 = o)) = true
    · rw [if_pos hk]
      refine ⟨b1, true, _, rfl, e2, e3, e4, e5, hn1, e8, e9, ?_, ?_, by simp⟩
      · intro e he
        obtain ⟨q1, q2, q3⟩ := hE1 e he
        exact ⟨by simp [q1], by rw [q1]; exact q2, q3⟩
      · intro _
        obtain ⟨e, he1, he2⟩ := List.any_eq_true.1 hk.2
        have he3 : e.1 = o := by simpa using he2
        exact ⟨o, by simp, hk.1, e.2, by rw [← he3]; exact he1⟩
    · rw [if_neg hk]
      obtain ⟨b2, k, E, f1, f2, f3, f4, f5, f6, f7, f8, f9, f10, f11⟩ := ih b1 e2
        (fun o' ho' => hX o' (by simp [ho']))
      refine ⟨b2, k, E ++ ((((d.sticky o).filter (· ∈ b.nodes)).map (fun r => (⟨o, r, true⟩ : Op))).map
        Op.edge).reverse, f1, f2, f3.trans e3, f4.trans e4, f5.trans e5, ?_, ?_, ?_, ?_, ?_, ?_⟩
      · intro x; rw [f6, hn1]
      · intro x hx; rw [f7 x ((hn1 x).2 hx), e8 x hx]
      · rw [f8, e9, List.append_assoc]
      · intro e he
        rcases List.mem_append.1 he with q | q
        · obtain ⟨p1, p2, p3⟩ := f9 e q
          exact ⟨by simp [p1], p2, (hn1 _).1 p3⟩
        · obtain ⟨q1, q2, q3⟩ := hE1 e q
          exact ⟨by simp [q1], by rw [q1]; exact q2, q3⟩
      · intro hkt
        obtain ⟨o', p1, p2⟩ := f10 hkt
        exact ⟨o', by simp [p1], p2⟩
      · intro hkf o' ho' hno
        have hold := f11 hkf
        rcases List.mem_cons.1 ho' with rfl | ho'
        · have hany : ∀ x, (o', x) ∉ b1.edges := by
            intro x hx
            refine hk ⟨hno, List.any_eq_true.2 ⟨(o', x), hx, by simp⟩⟩
          have hus : ∀ r ∈ d.sticky o', r ∉ b.nodes := by
            intro r hr hrn
            refine hany r ?_
            rw [e9]
            refine List.mem_append_left _ ?_
            rw [List.mem_reverse]
            exact List.mem_map.2 ⟨⟨o', r, true⟩, List.mem_map.2 ⟨r, by simp [hr, hrn], rfl⟩, rfl⟩
          refine ⟨hus, ?_⟩
          intro x hx
          rw [f8] at hx
          rcases List.mem_append.1 hx with q | q
          · obtain ⟨_, p2, p3⟩ := f9 _ q
            exact hus x p2 ((hn1 x).1 p3)
          · exact hany x q
        · obtain ⟨p1, p2⟩ := hold o' ho' hno
          exact ⟨fun r hr hrn => p1 r hr ((hn1 r).2 hrn), p2⟩

theorem settle_spec : ∀ (os : List Nat) (b b' : B), b.plist.Nodup → settle os b = some b' →
    os.Nodup ∧ (∀ o ∈ os, o ∈ b.plist) ∧ b'.nodes = b.nodes ∧ b'.nodeList = b.nodeList ++ os ∧
      (∀ x, x ∈ b'.plist ↔ x ∈ b.plist ∧ x ∉ os) ∧ b'.plist.Nodup ∧ b'.edges = b.edges ∧
      b'.expanded = b.expanded ∧ (∀ x, b'.st x = if x ∈ os then .fin else b.st x) := by
  intro os
  induction os with
  | nil =>
    intro b b' hnd h
    injection h with h; subst h
    exact ⟨List.nodup_nil, by simp, rfl, by simp, by simp, hnd, rfl, rfl, by simp⟩
  | cons o os ih =>
    intro b b' hnd h
    simp only [settle] at h
    split at h
    · rename_i ho
      obtain ⟨f1, f2, f3, f4, f5, f6, f7, f8, f9⟩ := ih _ b' (hnd.erase o) h
      have hin : ∀ x, x ∈ b.plist.erase o ↔ x ≠ o ∧ x ∈ b.plist := fun x => hnd.mem_erase_iff
      refine ⟨List.nodup_cons.2 ⟨fun hc => ((hin o).1 (f2 o hc)).1 rfl, f1⟩, ?_, f3, ?_, ?_, f6, f7, f8, ?_⟩
      · intro x hx
        rcases List.mem_cons.1 hx with rfl | hx
        · exact ho
        · exact ((hin x).1 (f2 x hx)).2
      · rw [f4]; simp
      · intro x; rw [f5, hin]; simp only [List.mem_cons, not_or]; grind
      · intro x; rw [f9]
        simp only [List.mem_cons, upd_apply]
        by_cases h1 : x ∈ os <;> by_cases h2 : x = o <;> simp [h1, h2]
    · cases h

theorem settle_ok : ∀ (os : List Nat) (b : B), b.plist.Nodup → os.Nodup → (∀ o ∈ os, o ∈ b.plist) →
    ∃ b', settle os b = some b' := by
  intro os
  induction os with
  | nil => intro b _ _ _; exact ⟨b, rfl⟩
  | cons o os ih =>
    intro b hnd ho hin
    simp only [settle]
    rw [if_pos (hin o (by simp))]
    obtain ⟨h1, h2⟩ := List.nodup_cons.1 ho
    refine ih _ (hnd.erase o) h2 ?_
    intro x hx
    exact hnd.mem_erase_iff.2 ⟨fun e => h1 (e ▸ hx), hin x (by simp [hx])⟩

/-- Removing several nodes. -/
theorem removeAll_spec : ∀ (L : List Nat) (b : B),
    let b' := L.foldl (fun b o => removeNode o b) b
    (∀ x, x ∈ b'.nodes ↔ x ∈ b.nodes ∧ x ∉ L) ∧ b'.nodeList = b.nodeList.filter (· ∉ L) ∧
      b'.plist = b.plist.filter (· ∉ L) ∧ (∀ a x, (a, x) ∈ b'.edges ↔ (a, x) ∈ b.edges ∧ a ∉ L ∧ x ∉ L) ∧
      (∀ x, b'.st x = if x ∈ L then .init else b.st x) ∧
      (∀ x, b'.expanded x = if x ∈ L then false else b.expanded x) := by
  intro L
  induction L with
  | nil => intro b; simp [List.filter_eq_self.2]
  | cons o L ih =>
    intro b
    obtain ⟨f1, f2, f3, f4, f5, f6⟩ := ih (removeNode o b)
    simp only [List.foldl_cons]
    refine ⟨?_, ?_, ?_, ?_, ?_, ?_⟩
    · intro x; rw [f1]; simp only [removeNode, List.mem_filter, decide_eq_true_eq, List.mem_cons, not_or]; grind
    · rw [f2]; simp only [removeNode, List.filter_filter]
      apply List.filter_congr; intro x _; by_cases h1 : x ∈ L <;> by_cases h2 : x = o <;> simp [h1, h2]
    · rw [f3]; simp only [removeNode, List.filter_filter]
      apply List.filter_congr; intro x _; by_cases h1 : x ∈ L <;> by_cases h2 : x = o <;> simp [h1, h2]
    · intro a x; rw [f4]
      simp only [removeNode, List.mem_filter, Bool.and_eq_true, decide_eq_true_eq, List.mem_cons, not_or]
      grind
    · intro x; rw [f5]
      simp only [removeNode, List.mem_cons, upd_apply]
      by_cases h1 : x ∈ L <;> by_cases h2 : x = o <;> simp [h1, h2]
    · intro x; rw [f6]
      simp only [removeNode, List.mem_cons, upd_apply]
      by_cases h1 : x ∈ L <;> by_cases h2 : x = o <;> simp [h1, h2]

end Tup.Transient
