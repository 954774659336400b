import Verif.Transient.One

/-! The passes over the waiting commands. -/

namespace Tup.Transient

open Tup.Graph

variable {d : Db} {root : Nat} {U : List Nat}

/-- A waiting command for which the internal error may come. -/
def Clash (d : Db) (c : Nat) : Prop :=
  Waiting d c ∧ ¬ Changed d c ∧ (∃ o ∈ d.links c, o ∉ d.kept) ∧
    ((d.links c).Nodup → ∃ o ∈ d.links c, Changed d o ∨ ∃ c', c' ≠ c ∧ Wanted d c' ∧ o ∈ d.links c')

theorem pass_spec (h : DbOk d root U) : ∀ (t : List Nat) (b : B), Att d root b → (∀ c ∈ t, Waiting d c) →
    (pass d root t b = .internal ∧ ∃ c, Clash d c) ∨
    ∃ b' t' any, pass d root t b = .ok b' t' any ∧ Att d root b' ∧ t'.Sublist t ∧
      (∀ c ∈ t, c ∈ b'.nodes ∨ c ∈ t') ∧ (∀ x ∈ b.nodes, d.isCmd x = true → x ∈ b'.nodes) ∧
      (any = true → t'.length < t.length) ∧
      (any = false → (∀ x ∈ b'.nodes, x ∈ b.nodes) ∧ ∀ c ∈ t, c ∉ b.nodes → ∀ o ∈ d.links c, o ∉ d.kept →
        o ∉ b'.nodes ∧ ∀ r ∈ d.sticky o, r ∉ b.nodes) := by
  intro t
  induction t with
  | nil =>
    intro b ha _
    right
    exact ⟨b, [], false, rfl, ha, .slnil, by simp, fun x hx _ => hx, by simp, fun _ => ⟨fun x hx => hx, by simp⟩⟩
  | cons c cs ih =>
    intro b ha hw
    have hwc := hw c (by simp)
    have hws : ∀ c' ∈ cs, Waiting d c' := fun c' hc' => hw c' (by simp [hc'])
    rw [pass]
    by_cases hc : c ∈ b.nodes
    · rw [if_pos hc]
      rcases ih b ha hws with ⟨e, hcl⟩ | ⟨b', t', any, e, h1, h2, h3, h4, h5, h6⟩
      · left; rw [e]; exact ⟨rfl, hcl⟩
      · right
        rw [e]
        refine ⟨b', c :: t', any, rfl, h1, h2.cons_cons c, ?_, h4, ?_, ?_⟩
        · intro c' hc'
          rcases List.mem_cons.1 hc' with rfl | q
          · exact Or.inr (by simp)
          · rcases h3 c' q with p | p
            · exact Or.inl p
            · exact Or.inr (by simp [p])
        · intro ha; have := h5 ha; simp only [List.length_cons]; omega
        · intro ha
          obtain ⟨q1, q2⟩ := h6 ha
          refine ⟨q1, ?_⟩
          intro c' hc' hcb
          rcases List.mem_cons.1 hc' with rfl | q
          · exact absurd hc hcb
          · exact q2 c' q hcb
    · rw [if_neg hc]
      rcases attachOne_spec h ha hwc hc with ⟨e, q1, q2⟩ | ⟨b1, e, a1, n1⟩ | ⟨b1, e, a1, n1, u1⟩
      · left
        rw [e]
        refine ⟨rfl, c, hwc, fun hch => hc (ha.base c hch (cmd_not_lost h hwc.2.1)), q1, ?_⟩
        intro hnd
        obtain ⟨o, p1, p2⟩ := q2 hnd
        refine ⟨o, p1, ?_⟩
        have hoU : o ∈ U := h.links c (h.modify c hwc.1) o (Or.inl p1)
        have hor : o ≠ root := fun e => h.noRoot (e ▸ hoU)
        rcases ha.rest o p2 hor (h.outputs c o hwc.2.1 p1) with r | ⟨c', r1, r2, r3⟩
        · exact Or.inl r
        · exact Or.inr ⟨c', fun e => hc (e ▸ r1), r2, r3⟩
      · rw [e]
        rcases ih b1 a1 hws with ⟨e, hcl⟩ | ⟨b', t', any, e, h1, h2, h3, h4, h5, h6⟩
        · left; simp only [e]; exact ⟨trivial, hcl⟩
        · right
          simp only [e]
          refine ⟨b', t', true, rfl, h1, h2.cons c, ?_, ?_, ?_, by simp⟩
          · intro c' hc'
            rcases List.mem_cons.1 hc' with rfl | q
            · exact Or.inl (h4 _ ((n1 _).2 (Or.inr (Or.inl rfl))) hwc.2.1)
            · exact h3 c' q
          · intro x hx hxc
            exact h4 x ((n1 x).2 (Or.inl hx)) hxc
          · intro _
            have := h2.length_le
            simp only [List.length_cons]; omega
      · rw [e]
        have hcm : ∀ x ∈ b.nodes, d.isCmd x = true → x ∈ b1.nodes := by
          intro x hx hxc
          refine (n1 x).2 ⟨hx, fun q => ?_⟩
          have := h.outputs c x hwc.2.1 q.1
          rw [hxc] at this; cases this
        rcases ih b1 a1 hws with ⟨e, hcl⟩ | ⟨b', t', any, e, h1, h2, h3, h4, h5, h6⟩
        · left; simp only [e]; exact ⟨trivial, hcl⟩
        · right
          simp only [e]
          refine ⟨b', c :: t', any, rfl, h1, h2.cons_cons c, ?_, ?_, ?_, ?_⟩
          · intro c' hc'
            rcases List.mem_cons.1 hc' with rfl | q
            · exact Or.inr (by simp)
            · rcases h3 c' q with p | p
              · exact Or.inl p
              · exact Or.inr (by simp [p])
          · intro x hx hxc
            exact h4 x (hcm x hx hxc) hxc
          · intro ha; have := h5 ha; simp only [List.length_cons]; omega
          · intro ha
            obtain ⟨q1, q2⟩ := h6 ha
            refine ⟨fun x hx => ((n1 x).1 (q1 x hx)).1, ?_⟩
            intro c' hc' hcb o ho hk
            rcases List.mem_cons.1 hc' with rfl | q
            · exact ⟨fun hob => ((n1 o).1 (q1 o hob)).2 ⟨ho, hk⟩, u1 o ho hk⟩
            · obtain ⟨r1, r2⟩ := q2 c' q (fun q => hcb ((n1 c').1 q).1) o ho hk
              exact ⟨r1, fun r hr hrb => r2 r hr (hcm r hrb (h.users o r hr))⟩

/-- The graph at the end. -/
structure Final (d : Db) (root : Nat) (b : B) : Prop extends Att d root b where
  rejected : ∀ c, Waiting d c → c ∉ b.nodes → ∀ o ∈ d.links c, o ∉ d.kept → o ∉ b.nodes ∧ ∀ r ∈ d.sticky o, r ∉ b.nodes

theorem attachAll_spec (h : DbOk d root U) : ∀ (fuel : Nat) (t : List Nat) (b : B), t.length < fuel → Att d root b →
    (∀ c ∈ t, Waiting d c) → (∀ c, Waiting d c → c ∈ b.nodes ∨ c ∈ t) →
    (attachAll d root fuel t b = .internal ∧ ∃ c, Clash d c) ∨
    ∃ b', attachAll d root fuel t b = .ok b' ∧ Final d root b' := by
  intro fuel
  induction fuel with
  | zero => intro t b hl; omega
  | succ fuel ih =>
    intro t b hl ha hw hall
    rw [attachAll]
    rcases pass_spec h t b ha hw with ⟨e, hcl⟩ | ⟨b', t', any, e, h1, h2, h3, h4, h5, h6⟩
    · left; rw [e]; exact ⟨rfl, hcl⟩
    · have hall' : ∀ c, Waiting d c → c ∈ b'.nodes ∨ c ∈ t' := by
        intro c hc
        rcases hall c hc with q | q
        · exact Or.inl (h4 c q hc.2.1)
        · exact h3 c q
      rw [e]
      cases any with
      | true =>
        have := h5 rfl
        exact ih t' b' (by omega) h1 (fun c hc => hw c (h2.subset hc)) hall'
      | false =>
        right
        refine ⟨b', rfl, ⟨h1, ?_⟩⟩
        intro c hc hcb o ho hk
        obtain ⟨q1, q2⟩ := h6 rfl
        have hcn : c ∉ b.nodes := fun hb => hcb (h4 c hb hc.2.1)
        have hct : c ∈ t := (hall c hc).resolve_left hcn
        obtain ⟨r1, r2⟩ := q2 c hct hcn o ho hk
        exact ⟨r1, fun r hr hrb => r2 r hr (q1 r hrb)⟩

theorem build_spec (h : DbOk d root U) :
    (∃ b, build d root U = .ok b ∧ Final d root b) ∨
    (build d root U = .internal ∧ ∃ c, Clash d c) ∨
    (build d root U = .circular ∧ ∃ n, Changed d n ∧ Plus (Follows d) n n) := by
  rcases reached_spec h with ⟨b0, b1, b2, e1, e2, e3, hr⟩ | hc
  · rcases attachAll_spec h ((waiting d).length + 1) (waiting d) b2 (Nat.lt_succ_self _) (att_reached h hr)
      (fun c hc => (mem_waiting c).1 hc) (fun c hc => Or.inr ((mem_waiting c).2 hc)) with ⟨e, q⟩ | ⟨b, e, q⟩
    · right; left
      refine ⟨?_, q⟩
      simp only [build, e1, e2, e3, e]
    · left
      refine ⟨b, ?_, q⟩
      simp only [build, e1, e2, e3, e]
  · exact Or.inr (Or.inr hc)

theorem Final.wanted_mem (h : DbOk d root U) {b : B} (hf : Final d root b) {c : Nat} (hw : Wanted d c) :
    c ∈ b.nodes := by
  induction hw with
  | @reached c o r h1 h2 h3 h4 h5 h6 =>
    by_cases hc : c ∈ b.nodes
    · exact hc
    · exact absurd (hf.base r h6 (cmd_not_lost h (h.users o r h5))) ((hf.rejected c h1 hc o h3 h4).2 r h5)
  | @wanted c o r h1 h2 h3 h4 h5 _ ih =>
    by_cases hc : c ∈ b.nodes
    · exact hc
    · exact absurd ih ((hf.rejected c h1 hc o h3 h4).2 r h5)

end Tup.Transient
