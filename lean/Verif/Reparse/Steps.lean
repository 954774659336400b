import Verif.Reparse.Lemmas

/-! Lemmas for C74: what holds while the Tupfiles are parsed. -/

namespace Tup.Reparse

/-- The commands of the directory do not change any more: it is not in the graph, or its parsing is finished.  `stk`: the directories whose parsing has begun and is not finished. -/
def Settled (G : List Dir) (t : Run) (stk : List Dir) (b : Dir) : Prop := b ∉ G ∨ (b ∈ t.parsing ∧ b ∉ stk)

structure J (s : St) (G : List Dir) (t : Run) (stk : List Dir) : Prop where
  out : ∀ x, x ∉ G → t.rules x = s.rules x ∧ ∀ b, (b, x) ∈ t.links ↔ (b, x) ∈ s.links
  fin : ∀ x ∈ t.parsing, x ∉ stk → ∃ lk, trace s.src t.rules x (s.prog x) [] = some (t.rules x, lk) ∧ (∀ b, (b, x) ∈ t.links ↔ b ∈ lk) ∧ ∀ b ∈ lk, Settled G t stk b
  sub : ∀ x ∈ t.parsing, x ∈ G
  stkP : ∀ x ∈ stk, x ∈ t.parsing
  gone : ∀ x ∈ t.gone, x ∈ t.parsing ∧ x ∉ stk

/-- The links of the finished directories. -/
def EdgesLt (Lt : Dir → Dir → Prop) (t : Run) (stk : List Dir) : Prop := ∀ x y, (x, y) ∈ t.links → y ∈ t.parsing → y ∉ stk → Lt x y

/-- What a part of the parsing leaves as it is. -/
structure Frame (G : List Dir) (t t' : Run) (stk : List Dir) : Prop where
  par : ∀ x ∈ t.parsing, x ∈ t'.parsing
  use : ∀ x ∈ t'.used, x ∈ t.used ∨ x ∈ t'.parsing
  keep : ∀ x, x ∈ stk ∨ Settled G t stk x → t'.rules x = t.rules x ∧ ∀ b, (b, x) ∈ t'.links ↔ (b, x) ∈ t.links

theorem Settled.step {G : List Dir} {t t' : Run} {stk : List Dir} (h : ∀ x ∈ t.parsing, x ∈ t'.parsing) {x : Dir} (hs : Settled G t stk x) : Settled G t' stk x := by
  rcases hs with h1 | ⟨h1, h2⟩
  · exact .inl h1
  · exact .inr ⟨h x h1, h2⟩

theorem Frame.refl {G : List Dir} {t : Run} {stk : List Dir} : Frame G t t stk := ⟨fun _ h => h, fun _ h => .inl h, fun _ _ => ⟨rfl, fun _ => Iff.rfl⟩⟩

theorem Frame.trans {G : List Dir} {t t' t'' : Run} {stk : List Dir} (h : Frame G t t' stk) (h' : Frame G t' t'' stk) : Frame G t t'' stk := by
  refine ⟨fun x hx => h'.par x (h.par x hx), ?_, ?_⟩
  · intro x hx
    rcases h'.use x hx with h1 | h1
    · rcases h.use x h1 with h2 | h2
      · exact .inl h2
      · exact .inr (h'.par x h2)
    · exact .inr h1
  · intro x hx
    have h1 := h.keep x hx
    have h2 := h'.keep x (hx.imp id (fun hs => hs.step h.par))
    exact ⟨h2.1.trans h1.1, fun b => (h2.2 b).trans (h1.2 b)⟩

theorem EdgesLt.back {Lt : Dir → Dir → Prop} {G : List Dir} {t t' : Run} {stk : List Dir} (hf : Frame G t t' stk) (h : EdgesLt Lt t' stk) : EdgesLt Lt t stk := by
  intro x y hxy hy hs
  have := hf.keep y (.inr (.inr ⟨hy, hs⟩))
  exact h x y ((this.2 x).2 hxy) (hf.par y hy) hs

/-- What is to be shown of a call of `parse`. -/
def P1 (s : St) (G : List Dir) (Lt : Dir → Dir → Prop) (f : Run → Dir → Res Run) : Prop :=
  ∀ t d stk t', J s G t stk → d ∈ G → (∀ x ∈ t.used, x ∈ t.parsing ∨ x = d) → (∀ x ∈ stk, Lt d x) → f t d = .ok t' → EdgesLt Lt t' stk →
    J s G t' stk ∧ d ∈ t'.parsing ∧ d ∉ stk ∧ Frame G t t' stk

/-- And the same without what depends on the links: -/
def P0 (G : List Dir) (f : Run → Dir → Res Run) : Prop :=
  ∀ t d stk t', d ∈ G → (∀ x ∈ stk, x ∈ t.parsing) → f t d = .ok t' → d ∈ t'.parsing ∧ d ∉ stk ∧ Frame G t t' stk

theorem exec0 {s : St} {G : List Dir} {f : Run → Dir → Res Run} (hf : P0 G f) {d : Dir} {stk : List Dir} (hdG : d ∈ G) :
    ∀ (p : Prog) (t : Run) (ins : List Dir) (t' : Run) (ins' : List Dir), (∀ x ∈ d :: stk, x ∈ t.parsing) → d ∉ stk → exec s.src G f d p t ins = .ok (t', ins') →
      (∀ c ∈ ins, c ∈ ins') ∧ (∀ x ∈ t.parsing, x ∈ t'.parsing) ∧ (∀ x ∈ t'.used, x ∈ t.used ∨ x ∈ t'.parsing) ∧
        (∀ x, x ∈ stk ∨ Settled G t (d :: stk) x → t'.rules x = t.rules x ∧ ∀ b, (b, x) ∈ t'.links ↔ (b, x) ∈ t.links) := by
  intro p
  induction p with
  | done =>
    intro t ins t' ins' _ _ h
    simp only [exec, Res.ok.injEq, Prod.mk.injEq] at h
    obtain ⟨rfl, rfl⟩ := h
    exact ⟨fun _ h => h, fun _ h => h, fun _ h => .inl h, fun _ _ => ⟨rfl, fun _ => Iff.rfl⟩⟩
  | fail => intro t ins t' ins' _ _ h; cases h
  | rule r k ih =>
    intro t ins t' ins' hs hd h
    obtain ⟨h1, h2, h3, h4⟩ := ih _ _ _ _ (by exact hs) hd h
    refine ⟨h1, h2, h3, ?_⟩
    intro x hx
    obtain ⟨e1, e2⟩ := h4 x (hx.imp id (fun h => h))
    refine ⟨?_, e2⟩
    rw [e1]
    refine set_other _ _ ?_
    rintro rfl
    rcases hx with hx | hx | hx
    · exact hd hx
    · exact hx hdG
    · exact hx.2 (by simp)
  | look b k ih =>
    intro t ins t' ins' hs hd h
    unfold exec at h
    split at h
    · exact ih _ _ _ _ _ hs hd h
    · split at h
      · next hb =>
        split at h
        · next t1 e1 =>
          obtain ⟨g1, g2, g3⟩ := hf _ b (d :: stk) t1 hb.1 (by exact hs) e1
          obtain ⟨h1, h2, h3, h4⟩ := ih _ t1 _ _ _ (fun x hx => g3.par x (hs x hx)) hd h
          refine ⟨fun c hc => h1 c (by simp [hc]), fun x hx => h2 x (g3.par x hx), ?_, ?_⟩
          · intro x hx
            rcases h3 x hx with h5 | h5
            · rcases g3.use x h5 with h6 | h6
              · rcases List.mem_cons.1 h6 with rfl | h6
                · exact .inr (h2 _ g1)
                · exact .inl h6
              · exact .inr (h2 x h6)
            · exact .inr h5
          · intro x hx
            have h5 := g3.keep x (by
              rcases hx with hx | hx
              · exact .inl (by simp [hx])
              · exact .inr hx)
            have h6 := h4 x (hx.imp id (fun hx => hx.step g3.par))
            exact ⟨h6.1.trans h5.1, fun c => (h6.2 c).trans (h5.2 c)⟩
        · cases h
      · obtain ⟨h1, h2, h3, h4⟩ := ih _ _ _ _ _ hs hd h
        exact ⟨fun c hc => h1 c (by simp [hc]), h2, h3, h4⟩

theorem parse0 (s : St) (G : List Dir) : ∀ fuel, P0 G (parse s G fuel) := by
  intro fuel
  induction fuel with
  | zero => intro t d stk t' _ _ h; cases h
  | succ fuel ih =>
    intro t d stk t' hd hs h
    unfold parse at h
    split at h
    · cases h
    · next hp =>
      split at h
      · next t1 ins e1 =>
        simp only [Res.ok.injEq] at h
        have hds : d ∉ stk := fun h => hp (hs d h)
        obtain ⟨h1, h2, h3, h4⟩ := exec0 (stk := stk) ih hd _ _ _ _ _ (by
          intro x hx
          rcases List.mem_cons.1 hx with rfl | hx
          · exact List.mem_cons_self
          · exact List.mem_cons_of_mem _ (hs x hx)) hds e1
        subst h
        refine ⟨h2 d (by simp), hds, fun x hx => h2 x (by simp [hx]), h3, ?_⟩
        intro x hx
        have hne : x ≠ d := by
          rintro rfl
          rcases hx with hx | hx | hx
          · exact hds hx
          · exact hx hd
          · exact hp hx.1
        obtain ⟨e2, e3⟩ := h4 x (by
          rcases hx with hx | hx | hx
          · exact .inl hx
          · exact .inr (.inl hx)
          · exact .inr (.inr ⟨by simp [hx.1], by simp [hne, hx.2]⟩))
        refine ⟨e2.trans (set_other _ _ hne), ?_⟩
        intro b
        refine Iff.trans ?_ (e3 b)
        simp only [List.mem_append, List.mem_map, List.mem_filter, Prod.mk.injEq, decide_eq_true_eq]
        constructor
        · rintro (⟨_, _, _, e⟩ | h)
          · exact absurd e.symm hne
          · exact h.1
        · intro h; exact .inr ⟨h, hne⟩
      · cases h

theorem exec1 {s : St} {G : List Dir} {Lt : Dir → Dir → Prop} (tr : ∀ a b c, Lt a b → Lt b c → Lt a c) (irr : ∀ a, ¬ Lt a a) {f : Run → Dir → Res Run} (h0 : P0 G f) (hf : P1 s G Lt f)
    {d : Dir} {stk : List Dir} (hdG : d ∈ G) (hds : d ∉ stk) (hstk : ∀ x ∈ stk, Lt d x) :
    ∀ (p : Prog) (t : Run) (ins : List Dir) (t' : Run) (ins' : List Dir), J s G t (d :: stk) → (∀ x ∈ t.used, x ∈ t.parsing) → exec s.src G f d p t ins = .ok (t', ins') →
      EdgesLt Lt t' (d :: stk) → (∀ c ∈ ins', Lt c d) →
      J s G t' (d :: stk) ∧ ∃ lk, trace s.src t'.rules d p (t.rules d) = some (t'.rules d, lk) ∧ (∀ b, b ∈ ins' ↔ b ∈ ins ∨ b ∈ lk) ∧ ∀ b ∈ lk, Settled G t' (d :: stk) b := by
  intro p
  induction p with
  | done =>
    intro t ins t' ins' hj hu h _ _
    simp only [exec, Res.ok.injEq, Prod.mk.injEq] at h
    obtain ⟨rfl, rfl⟩ := h
    exact ⟨hj, [], rfl, by simp, by simp⟩
  | fail => intro t ins t' ins' _ _ h; cases h
  | rule r k ih =>
    intro t ins t' ins' hj hu h he hi
    have hj1 : J s G { t with rules := set t.rules d (t.rules d ++ [r]) } (d :: stk) := by
      have hne : ∀ x, Settled G t (d :: stk) x → x ≠ d := by
        rintro x hx rfl
        rcases hx with hx | hx
        · exact hx hdG
        · exact hx.2 (by simp)
      refine ⟨?_, ?_, hj.sub, hj.stkP, hj.gone⟩
      · intro x hx
        obtain ⟨e1, e2⟩ := hj.out x hx
        exact ⟨(set_other _ _ (by rintro rfl; exact hx hdG)).trans e1, e2⟩
      · intro x hx hxs
        obtain ⟨lk, e1, e2, e3⟩ := hj.fin x hx hxs
        refine ⟨lk, ?_, e2, e3⟩
        show trace s.src (set t.rules d (t.rules d ++ [r])) x (s.prog x) [] = some (set t.rules d (t.rules d ++ [r]) x, lk)
        rw [set_other _ _ (hne x (.inr ⟨hx, hxs⟩))]
        exact trace_congr rfl _ _ e1 (fun b hb => ⟨set_other _ _ (hne b (e3 b hb)), rfl⟩)
    obtain ⟨h1, lk, h2, h3⟩ := ih _ _ _ _ hj1 hu h he hi
    refine ⟨h1, lk, ?_, h3⟩
    rw [show ({ t with rules := set t.rules d (t.rules d ++ [r]) } : Run).rules d = t.rules d ++ [r] from set_same _ _ _] at h2
    exact h2
  | look b k ih =>
    intro t ins t' ins' hj hu h he hi
    unfold exec at h
    split at h
    · next e =>
      rw [view_eq] at h
      obtain ⟨h1, lk, h2, h3⟩ := ih _ _ _ _ _ hj hu h he hi
      refine ⟨h1, lk, ?_, h3⟩
      unfold trace
      rw [if_pos e]
      subst e
      exact h2
    · next e =>
      -- the common end: `t1` is the state in which the directory is looked at
      have fin : ∀ t1, J s G t1 (d :: stk) → (∀ x ∈ t1.used, x ∈ t1.parsing) → t1.rules d = t.rules d → Settled G t1 (d :: stk) b →
          exec s.src G f d (k (view s.src t1 d b)) t1 (b :: ins) = .ok (t', ins') →
          J s G t' (d :: stk) ∧ ∃ lk, trace s.src t'.rules d (.look b k) (t.rules d) = some (t'.rules d, lk) ∧ (∀ b, b ∈ ins' ↔ b ∈ ins ∨ b ∈ lk) ∧ ∀ b ∈ lk, Settled G t' (d :: stk) b := by
        intro t1 hj1 hu1 hr hs1 h
        obtain ⟨g1, lk, g2, g3, g4⟩ := ih _ _ _ _ _ hj1 hu1 h he hi
        obtain ⟨_, q1, _, q2⟩ := exec0 (stk := stk) h0 hdG _ _ _ _ _ hj1.stkP hds h
        refine ⟨g1, b :: lk, ?_, ?_, ?_⟩
        · unfold trace
          rw [if_neg e, (q2 b (.inr hs1)).1, ← hr, ← view_eq, g2]
          rfl
        · intro x
          rw [g3 x]
          simp only [List.mem_cons]
          constructor
          · rintro ((h | h) | h)
            · exact .inr (.inl h)
            · exact .inl h
            · exact .inr (.inr h)
          · rintro (h | h | h)
            · exact .inl (.inr h)
            · exact .inl (.inl h)
            · exact .inr h
        · intro x hx
          rcases List.mem_cons.1 hx with rfl | hx
          · exact hs1.step q1
          · exact g4 x hx
      split at h
      · next hb =>
        split at h
        · next t1 e1 =>
          obtain ⟨a1, a2, a3⟩ := h0 _ b (d :: stk) t1 hb.1 (by exact hj.stkP) e1
          obtain ⟨b1, b2, b3, b4⟩ := exec0 (stk := stk) h0 hdG _ _ _ _ _ (fun x hx => a3.par x (hj.stkP x hx)) hds h
          have hbd : Lt b d := hi b (b1 b (by simp))
          have het : EdgesLt Lt t1 (d :: stk) := by
            intro x y hxy hy hys
            have := b4 y (.inr (.inr ⟨hy, hys⟩))
            exact he x y ((this.2 x).2 hxy) (b2 y hy) hys
          obtain ⟨c1, c2, c3, c4⟩ := hf { t with used := b :: t.used } b (d :: stk) t1 ⟨hj.out, hj.fin, hj.sub, hj.stkP, hj.gone⟩ hb.1 (by
              intro x hx
              rcases List.mem_cons.1 hx with rfl | hx
              · exact .inr rfl
              · exact .inl (hu x hx)) (by
              intro x hx
              rcases List.mem_cons.1 hx with rfl | hx
              · exact hbd
              · exact tr _ _ _ hbd (hstk x hx)) e1 het
          refine fin t1 c1 ?_ (c4.keep d (.inl (by simp))).1 (.inr ⟨c2, c3⟩) h
          intro x hx
          rcases c4.use x hx with h5 | h5
          · rcases List.mem_cons.1 h5 with rfl | h5
            · exact c2
            · exact c4.par x (hu x h5)
          · exact h5
        · cases h
      · next hb =>
        obtain ⟨b1, b2, b3, b4⟩ := exec0 (stk := stk) h0 hdG _ _ _ _ _ hj.stkP hds h
        have hbd : Lt b d := hi b (b1 b (by simp))
        refine fin t hj hu rfl ?_ h
        by_cases hbG : b ∈ G
        · refine .inr ⟨?_, ?_⟩
          · by_cases hg : b ∈ t.gone
            · exact (hj.gone b hg).1
            · by_cases hbu : b ∈ t.used
              · exact hu b hbu
              · exact absurd ⟨hbG, hg, hbu⟩ hb
          · intro hbs
            rcases List.mem_cons.1 hbs with rfl | hbs
            · exact e rfl
            · exact irr b (tr _ _ _ hbd (hstk b hbs))
        · exact .inl hbG

theorem parse1 {s : St} {G : List Dir} {Lt : Dir → Dir → Prop} (tr : ∀ a b c, Lt a b → Lt b c → Lt a c) (irr : ∀ a, ¬ Lt a a) : ∀ fuel, P1 s G Lt (parse s G fuel) := by
  intro fuel
  induction fuel with
  | zero => intro t d stk t' _ _ _ _ h; cases h
  | succ fuel ih =>
    intro t d stk t' hj hd hu hstk h he
    obtain ⟨p1, p2, p3⟩ := parse0 s G (fuel + 1) t d stk t' hd hj.stkP h
    refine ⟨?_, p1, p2, p3⟩
    unfold parse at h
    split at h
    · cases h
    · next hp =>
      split at h
      · next t1 ins e1 =>
        simp only [Res.ok.injEq] at h
        have hds : d ∉ stk := fun h => hp (hj.stkP d h)
        have hne : ∀ x, Settled G t stk x → x ≠ d := by
          rintro x hx rfl
          rcases hx with hx | hx
          · exact hx hd
          · exact hp hx.1
        have hset : ∀ x, Settled G t stk x → Settled G { t with parsing := d :: t.parsing, rules := set t.rules d [] } (d :: stk) x := by
          intro x hx
          have := hne x hx
          rcases hx with hx | hx
          · exact .inl hx
          · exact .inr ⟨by simp [hx.1], by simp [this, hx.2]⟩
        have hj0 : J s G { t with parsing := d :: t.parsing, rules := set t.rules d [] } (d :: stk) := by
          refine ⟨?_, ?_, ?_, ?_, ?_⟩
          · intro x hx
            obtain ⟨e1, e2⟩ := hj.out x hx
            exact ⟨(set_other _ _ (by rintro rfl; exact hx hd)).trans e1, e2⟩
          · intro x hx hxs
            have hxd : x ≠ d := fun e => hxs (by simp [e])
            have hxp : x ∈ t.parsing := (List.mem_cons.1 hx).resolve_left hxd
            have hxs' : x ∉ stk := fun h => hxs (by simp [h])
            obtain ⟨lk, e1, e2, e3⟩ := hj.fin x hxp hxs'
            refine ⟨lk, ?_, e2, fun b hb => hset b (e3 b hb)⟩
            show trace s.src (set t.rules d []) x (s.prog x) [] = some (set t.rules d [] x, lk)
            rw [set_other _ _ hxd]
            exact trace_congr rfl _ _ e1 (fun b hb => ⟨set_other _ _ (hne b (e3 b hb)), rfl⟩)
          · intro x hx
            rcases List.mem_cons.1 hx with rfl | hx
            · exact hd
            · exact hj.sub x hx
          · intro x hx
            rcases List.mem_cons.1 hx with rfl | hx
            · exact List.mem_cons_self
            · exact List.mem_cons_of_mem _ (hj.stkP x hx)
          · intro x hx
            obtain ⟨g1, g2⟩ := hj.gone x hx
            exact ⟨List.mem_cons_of_mem _ g1, by simp [g2, hne x (.inr ⟨g1, g2⟩)]⟩
        have hu0 : ∀ x ∈ t.used, x ∈ d :: t.parsing := by
          intro x hx
          rcases hu x hx with h | h
          · simp [h]
          · simp [h]
        obtain ⟨x1, x2, x3, x4⟩ := exec0 (stk := stk) (parse0 s G fuel) hd _ _ _ _ _ hj0.stkP hds e1
        have hlk : ∀ x y, y ≠ d → ((x, y) ∈ t'.links ↔ (x, y) ∈ t1.links) := by
          intro x y hy
          rw [← h]
          simp only [List.mem_append, List.mem_map, List.mem_filter, Prod.mk.injEq, decide_eq_true_eq]
          constructor
          · rintro (⟨_, _, _, e⟩ | h)
            · exact absurd e.symm hy
            · exact h.1
          · intro h; exact .inr ⟨h, hy⟩
        have hld : ∀ x, (x, d) ∈ t'.links ↔ x ∈ ins := by
          intro x
          rw [← h]
          simp only [List.mem_append, List.mem_map, List.mem_filter, Prod.mk.injEq, decide_eq_true_eq]
          constructor
          · rintro (⟨_, h, e, _⟩ | h)
            · exact e ▸ h
            · exact absurd rfl h.2
          · intro h; exact .inl ⟨x, h, rfl, trivial⟩
        have hpar : t'.parsing = t1.parsing := by rw [← h]
        have hrul : t'.rules = t1.rules := by rw [← h]
        have hgon : t'.gone = t1.gone := by rw [← h]
        obtain ⟨y1, lk, y2, y3, y4⟩ := exec1 (Lt := Lt) tr irr (parse0 s G fuel) ih hd hds hstk _ _ _ _ _ hj0 hu0 e1 (by
            intro x y hxy hy hys
            have hyd : y ≠ d := fun e => hys (by simp [e])
            exact he x y ((hlk x y hyd).2 hxy) (hpar ▸ hy) (fun h => hys (by simp [h]))) (by
            intro c hc
            exact he c d ((hld c).2 hc) p1 hds)
        have hset' : ∀ x, Settled G t1 (d :: stk) x → Settled G t' stk x := by
          intro x hx
          rcases hx with hx | hx
          · exact .inl hx
          · exact .inr ⟨hpar ▸ hx.1, fun h => hx.2 (by simp [h])⟩
        refine ⟨?_, ?_, ?_, ?_, ?_⟩
        · intro x hx
          obtain ⟨e2, e3⟩ := y1.out x hx
          exact ⟨by rw [hrul]; exact e2, fun b => (hlk b x (by rintro rfl; exact hx hd)).trans (e3 b)⟩
        · intro x hx hxs
          rw [hpar] at hx
          rw [hrul]
          by_cases hxd : x = d
          · subst hxd
            refine ⟨lk, ?_, ?_, fun b hb => hset' b (y4 b hb)⟩
            · rw [show ({ t with parsing := x :: t.parsing, rules := set t.rules x [] } : Run).rules x = [] from set_same _ _ _] at y2
              exact y2
            · intro b
              rw [hld b, y3 b]
              simp
          · obtain ⟨lk', e2, e3, e4⟩ := y1.fin x hx (by simp [hxd, hxs])
            exact ⟨lk', e2, fun b => (hlk b x hxd).trans (e3 b), fun b hb => hset' b (e4 b hb)⟩
        · rw [hpar]; exact y1.sub
        · rw [hpar]; exact fun x hx => y1.stkP x (by simp [hx])
        · rw [hpar, hgon]
          exact fun x hx => ⟨(y1.gone x hx).1, fun h => (y1.gone x hx).2 (by simp [h])⟩
      · cases h

end Tup.Reparse
