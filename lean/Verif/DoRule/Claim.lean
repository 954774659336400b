import Verif.DoRule.History
import Verif.DoRule.Avail

/-! Commands that rules have claimed keep what they write until the update is over. -/

namespace Tup.DoRule

open Tup.Db Tup.Links

variable {db db' : Db} {excl : Nat}

/-- The commands of a Tupfile that is being parsed are to be deleted or have a rule. -/
def Claimed (p : Parse) : Prop :=
  ∀ c n, p.db.node c = some n → n.kind = .cmd → p.parsing n.dir = some true → p.doomed c = true ∨ p.seen n.dir c = true

theorem claimed_sub {p : Parse} (h : Claimed p) (hn : ∀ c n, db'.node c = some n → n.kind = .cmd → p.db.node c = some n) :
    Claimed { p with db := db' } := fun c n h1 h2 h3 => h c n (hn c n h1 h2) h2 h3

theorem claimed_parse {p p' : Parse} (h : Claimed p) {d : Nat} (hp : beginParse d p = some p') : Claimed p' := by
  unfold beginParse at hp
  split at hp
  · cases hp
    intro c n h1 h2 h3
    by_cases hd : n.dir = d
    · left
      show (p.doomed c || (p.db.isKind .cmd c && inDir p.db d c)) = true
      rw [isKind_some h1, inDir_some h1, h2, hd]
      simp
    · have h3 : (if n.dir = d then some true else p.parsing n.dir) = some true := h3
      rw [if_neg hd] at h3
      rcases h c n h1 h2 h3 with hx | hx
      · left
        show (p.doomed c || _) = true
        rw [hx]; rfl
      · right
        show (p.seen n.dir c && !decide (n.dir = d)) = true
        rw [hx]; simp [hd]
  · cases hp

theorem claimed_rule {p p' : Parse} {r : Spec} (hg : Good p.db excl) (h : Claimed p) (hr : SpecOk p.db excl r) (hd : doRule excl r p = some p') : Claimed p' := by
  obtain ⟨m, s, c, _, _, d⟩ := doRule_done hg.sound hg.tidy hr hd
  intro c' n h1 h2 h3
  rw [d.parsing] at h3
  by_cases hc : c' = c
  · subst hc
    right
    obtain ⟨n', e1, _, e3⟩ := d.cmd
    rw [h1] at e1
    cases e1
    rw [d.seen, e3]
    simp
  · rcases h c' n (d.cmds c' n h1 h2 hc) h2 h3 with hx | hx
    · left; rw [d.doomed, hx]; simp [hc]
    · right; rw [d.seen, hx]; rfl

theorem claimed_step {p p' : Parse} (hg : Good p.db excl) (h : Claimed p) (hs : Step excl p p') : Claimed p' := by
  cases hs with
  | update dirs =>
    intro c n _ _ h3
    have h3 : (if dirs n.dir then some false else none) = some true := h3
    split at h3 <;> cases h3
  | parse d hp => exact claimed_parse h hp
  | rule r _ hr hd => exact claimed_rule hg h hr hd
  | delete i hi =>
    refine claimed_sub h fun c n h1 h2 => ?_
    obtain ⟨_, _, _, d4, _⟩ := deleteLinks_spec (p.db.unflagAll i) i
    obtain ⟨_, _, _, _, e5, e6⟩ := deleteNode_spec ((p.db.unflagAll i).deleteLinks i) i
    have h1 : (((p.db.unflagAll i).deleteLinks i).deleteNode i).node c = some n := h1
    by_cases hc : c = i
    · subst hc
      obtain ⟨_, _, _, _, hk⟩ := e6 n h1
      exact absurd h2 hk
    · rw [e5 c hc, d4] at h1
      exact h1
  | save i hi =>
    refine claimed_sub h fun c n h1 h2 => ?_
    have h1 : (((p.db.modifyByInput i).deleteLinks i).setKind i .file).node c = some n := h1
    rw [setKind_node, (deleteLinks_spec (p.db.modifyByInput i) i).2.2.2.1] at h1
    split at h1
    · obtain ⟨n', _, rfl⟩ := Option.map_eq_some_iff.1 h1
      cases h2
    · exact h1
  | found n' hsel hk =>
    refine claimed_sub h fun c n h1 h2 => ?_
    rw [insert_node] at h1
    split at h1
    · cases h1; exact absurd h2 hk
    · exact h1
  | appear i kind src hi hd hk =>
    refine claimed_sub h fun c n h1 h2 => ?_
    obtain ⟨m, hm, hgh⟩ := isKind_iff.1 hi
    rw [inDir_some hm] at hd
    have mk := made_upgrade (excl := excl) (src := src) (.inr hk) hg.sound hg.tidy hm hgh (of_decide_eq_false hd)
    by_cases hc : c = i
    · subst hc
      obtain ⟨n', e1, e2, _⟩ := mk.node
      rw [h1] at e1
      cases e1
      rw [h2] at e2
      rcases hk with rfl | rfl <;> cases e2
    · rw [mk.other c hc] at h1
      exact h1
  | @ran db' env cmd variant outputs read ok important hcmd hread hnc hc =>
    obtain ⟨m, _, _, _, _, h5, _⟩ := check_inputs_spec hg.sound hread hc
    refine claimed_sub h fun c n h1 h2 => ?_
    rw [h5] at h1
    exact h1
  | flags create modify config variant transient => exact claimed_sub h fun c n h1 _ => h1

theorem claimed_steps {p p' : Parse} (hg : Good p.db excl) (h : Claimed p) (hs : Steps excl p p') : Claimed p' := by
  induction hs with
  | refl => exact h
  | step h0 h1 ih => exact claimed_step (good_steps hg h0) ih h1

theorem claimed_initial {p : Parse} (h : Initial p) : Claimed p := fun c n h1 h2 => absurd h2 (h.cmd c n h1)

theorem produces_iff (ht : Tidy db excl) (hh : Homes db excl) {c b : Nat} : Produces db excl c b ↔ Writes db excl c b := by
  constructor
  · rintro ⟨n, m, h1, h2, h3, h4, h5, h6⟩
    refine ⟨isKind_iff.2 ⟨n, h1, h2⟩, h6, ?_, ?_⟩
    · rw [isKind_some h3, h4]; rfl
    · rw [inDir_some h3]; exact decide_eq_false h5
  · intro h
    obtain ⟨n, m, e1, e2, e3, _⟩ := hh c b h
    obtain ⟨n', e4, e5⟩ := isKind_iff.1 h.1
    rw [e1] at e4
    cases e4
    have := h.2.2.2
    rw [inDir_some e2] at this
    exact ⟨n, m, e1, e5, e2, e3, of_decide_eq_false this, h.2.1⟩

/-- What a command that stays writes is not available. -/
theorem stays_avail {p : Parse} (hg : Good p.db excl) {c b : Nat} (hw : Writes p.db excl c b) (hst : Stays p c) {m : Node} (hm : p.db.node b = some m) :
    available p m.src c = false := by
  obtain ⟨n, m', e1, e2, _, e4⟩ := hg.homes c b hw
  rw [hm] at e2
  cases e2
  obtain ⟨h1, n', h2, h3⟩ := hst
  rw [e1] at h2
  cases h2
  unfold available
  rw [h1, e4]
  simp [h3]

/-- An accepted rule has none of the files of a command that stays. -/
theorem stays_outputs {p p' : Parse} {r : Spec} (hg : Good p.db excl) (hr : SpecOk p.db excl r) {c b : Nat} (hw : Writes p.db excl c b)
    (hst : Stays p c) {m s : Outs} (hm : addOuts excl p r r.outputs { db := p.db } = some m) (hs : addOuts excl p r r.extra m = some s) :
    b ∉ s.outputs := by
  intro hb
  have im := addOuts_inv (fun o ho => hr.outs o (List.mem_append_left _ ho)) (outs_start hg.sound hg.tidy r) hm
  obtain ⟨n, q, e1, e2, e3, _⟩ := hg.homes c b hw
  have hna := stays_avail hg hw hst e2
  by_cases hbm : b ∈ m.outputs
  · have := addOuts_avail (fun o ho => hr.outs o (List.mem_append_left _ ho)) (outs_start hg.sound hg.tidy r) hm b q c hbm (by simp) e2 e3 hw.1 hw.2.1
    rw [hna] at this; cases this
  · have := addOuts_avail (fun o ho => hr.outs o (List.mem_append_right _ ho)) im hs b q c hb hbm e2 e3 hw.1 hw.2.1
    rw [hna] at this; cases this

theorem listed_output {p p' : Parse} {r : Spec} {m s : Outs} {c : Nat} (hg : Good p.db excl) (hr : SpecOk p.db excl r)
    (hm : addOuts excl p r r.outputs { db := p.db } = some m) (hs : addOuts excl p r r.extra m = some s) {d : Nat} {path : Str} {src : Option Nat}
    (hl : Out.file d path src ∈ r.outputs ++ r.extra) : ∃ b ∈ s.outputs, ∃ n, s.db.node b = some n ∧ n.dir = d ∧ n.name = base path := by
  have ho1 := fun o ho => hr.outs o (List.mem_append_left _ ho)
  have ho2 := fun o ho => hr.outs o (List.mem_append_right _ ho)
  have im := addOuts_inv ho1 (outs_start hg.sound hg.tidy r) hm
  rcases List.mem_append.1 hl with hl | hl
  · obtain ⟨b, hb, n, e1, e2, e3⟩ := addOuts_listed ho1 (outs_start hg.sound hg.tidy r) hm d path src hl
    obtain ⟨n', f1, f2, f3, _⟩ := (addOuts_inv ho2 im.restart hs).keep b n e1
    exact ⟨b, addOuts_sub hs b hb, n', f1, f2.trans e2, f3.trans e3⟩
  · exact addOuts_listed ho2 im hs d path src hl

/-- A rule with such a file is not accepted. -/
theorem stays_rejected {p : Parse} {r : Spec} (hg : Good p.db excl) (hr : SpecOk p.db excl r) {c b : Nat} (hw : Writes p.db excl c b)
    (hst : Stays p c) {n : Node} (hn : p.db.node b = some n) (hl : Lists r n) : doRule excl r p = none := by
  cases hd : doRule excl r p with
  | none => rfl
  | some p' =>
    obtain ⟨m, s, c', h1, h2, d⟩ := doRule_done hg.sound hg.tidy hr hd
    obtain ⟨path, src, h3, h4⟩ := hl
    obtain ⟨b', hb', n', e1, e2, e3⟩ := listed_output (p' := p') (c := c) hg hr h1 h2 h3
    have im := addOuts_inv (fun o ho => hr.outs o (List.mem_append_left _ ho)) (outs_start hg.sound hg.tidy r) h1
    have is := addOuts_inv (fun o ho => hr.outs o (List.mem_append_right _ ho)) im h2
    obtain ⟨n'', f1, f2, f3, _⟩ := is.keep b n hn
    have := is.unique hg.unique b' b n' n'' e1 f1 (by rw [e2, f2]) (by rw [e3, f3, h4])
    subst this
    exact absurd hb' (stays_outputs (p' := p') hg hr hw hst h1 h2)

/-- A rule leaves a command that stays alone. -/
theorem stays_rule {p p' : Parse} {r : Spec} (hg : Good p.db excl) (hcl : Claimed p) (hp : p.parsing r.dir = some true) (hr : SpecOk p.db excl r)
    (hd : doRule excl r p = some p') {c : Nat} (hst : Stays p c) (hc : p.db.isKind .cmd c = true) :
    Stays p' c ∧ p'.db.node c = p.db.node c ∧ ∀ b, Writes p.db excl c b → Writes p'.db excl c b ∧
      ∀ n, p.db.node b = some n → ∃ n', p'.db.node b = some n' ∧ n'.dir = n.dir ∧ n'.name = n.name := by
  obtain ⟨m, s, c', h1, h2, d⟩ := doRule_done hg.sound hg.tidy hr hd
  obtain ⟨k1, n, k2, k3⟩ := hst
  have hk : n.kind = .cmd := by rw [isKind_some k2] at hc; exact of_decide_eq_true hc
  have hne : c ≠ c' := by
    rintro rfl
    rcases d.origin with h | ⟨n', e1, e2⟩ | ⟨b, e1, e2⟩
    · rw [k2] at h; cases h
    · rw [k2] at e1
      cases e1
      rcases hcl c n k2 hk (by rw [e2]; exact hp) with h | h
      · rw [k1] at h; cases h
      · rw [e2, d.fresh] at h; cases h
    · -- its own output would have been refused
      have im := addOuts_inv (fun o ho => hr.outs o (List.mem_append_left _ ho)) (outs_start hg.sound hg.tidy r) h1
      have is := addOuts_inv (fun o ho => hr.outs o (List.mem_append_right _ ho)) im h2
      obtain ⟨q, f1, f2, f3, _⟩ := is.output b e1
      obtain ⟨nb, hnb⟩ := Option.isSome_iff_exists.1 (hg.sound.normal c b e2).2
      obtain ⟨q', g1, g2, _, g4, _⟩ := is.keep b nb hnb
      rw [f1] at g1
      cases g1
      refine stays_outputs (p' := p') hg hr (c := c) (b := b) ⟨hc, e2, ?_, ?_⟩ ⟨k1, n, k2, k3⟩ h1 h2 e1
      · rw [Bool.eq_false_iff, isKind_some hnb]
        intro h
        have h := of_decide_eq_true h
        have := g4 (by rw [h]; decide)
        rw [f2, h] at this; cases this
      · rw [inDir_some hnb, ← g2]
        exact decide_eq_false f3
  obtain ⟨n', e1, _, e2, _⟩ := d.node c n k2
  have hsame : p'.db.node c = some n := by rw [e1, (e2 hk).2 hne]
  refine ⟨⟨by rw [d.doomed, k1]; rfl, n, hsame, by rw [d.parsing]; exact k3⟩, hsame.trans k2.symm, fun b hw => ⟨?_, fun nb hnb => ?_⟩⟩
  · obtain ⟨_, mb, _, e2, e3, _⟩ := hg.homes c b hw
    exact d.kept c b hne hw (isKind_iff.2 ⟨mb, e2, e3⟩) (stays_outputs (p' := p') hg hr hw ⟨k1, n, k2, k3⟩ h1 h2)
  · obtain ⟨n', e1, _, _, e2⟩ := d.node b nb hnb
    refine ⟨n', e1, e2 ?_⟩
    rintro rfl
    obtain ⟨_, mb, _, e2, e3, _⟩ := hg.homes c b hw
    rcases d.old with h | h
    · rw [hnb] at h; cases h
    · rw [isKind_some e2, e3] at h; cases h

theorem stays_parse {p p' : Parse} {d : Nat} (hp : beginParse d p = some p') {c : Nat} (hst : Stays p c) : Stays p' c ∧ p'.db = p.db := by
  unfold beginParse at hp
  split at hp
  · rename_i hf
    cases hp
    obtain ⟨k1, n, k2, k3⟩ := hst
    have hne : n.dir ≠ d := fun h => k3 (h ▸ hf)
    refine ⟨⟨?_, n, k2, ?_⟩, rfl⟩
    · show (p.doomed c || (p.db.isKind .cmd c && inDir p.db d c)) = false
      rw [k1, inDir_some k2]
      simp [hne]
    · show (if n.dir = d then some true else p.parsing n.dir) ≠ some false
      rw [if_neg hne]
      exact k3
  · cases hp

theorem parsing_steps {p p' : Parse} (h : Parsing excl p p') : Steps excl p p' := by
  induction h with
  | refl => exact .refl _
  | parse d _ h ih => exact .step ih (.parse d h)
  | rule r _ h1 h2 h3 ih => exact .step ih (.rule r h1 h2 h3)

theorem stays_parsing {p p' : Parse} (hg : Good p.db excl) (hcl : Claimed p) (h : Parsing excl p p') {c b : Nat} {n : Node}
    (hst : Stays p c) (hw : Writes p.db excl c b) (hn : p.db.node b = some n) :
    Stays p' c ∧ Writes p'.db excl c b ∧ ∃ n', p'.db.node b = some n' ∧ n'.dir = n.dir ∧ n'.name = n.name := by
  induction h with
  | refl => exact ⟨hst, hw, n, hn, rfl, rfl⟩
  | parse d h0 h ih =>
    obtain ⟨k1, k2, k3⟩ := ih
    obtain ⟨l1, l2⟩ := stays_parse h k1
    rw [l2]
    exact ⟨l1, k2, k3⟩
  | rule r h0 h1 h2 h3 ih =>
    obtain ⟨k1, k2, n', k3, k4, k5⟩ := ih
    have hs := parsing_steps h0
    obtain ⟨l1, _, l3⟩ := stays_rule (good_steps hg hs) (claimed_steps hg hcl hs) h1 h2 h3 k1 k2.1
    obtain ⟨l3, l4⟩ := l3 b k2
    obtain ⟨n'', m1, m2, m3⟩ := l4 n' k3
    exact ⟨l1, l3, n'', m1, m2.trans k4, m3.trans k5⟩

end Tup.DoRule
