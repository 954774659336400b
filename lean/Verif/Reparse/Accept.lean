import Verif.Reparse.Steps

/-! Lemmas for C74: the whole update; Tupfiles without circles are accepted. -/

namespace Tup.Reparse

/-! ### What is used and what is gone -/

def PK (f : Run → Dir → Res Run) : Prop :=
  ∀ t d t', f t d = .ok t' → (∀ x ∈ t'.parsing, x ∈ t.parsing ∨ x ∈ t'.used ∨ x = d) ∧ (∀ x ∈ t.used, x ∈ t'.used) ∧ t'.gone = t.gone

theorem execK {src : Dir → Str → Bool} {G : List Dir} {f : Run → Dir → Res Run} (hf : PK f) {d : Dir} : ∀ (p : Prog) (t : Run) (ins : List Dir) (t' : Run) (ins' : List Dir),
    exec src G f d p t ins = .ok (t', ins') → (∀ x ∈ t'.parsing, x ∈ t.parsing ∨ x ∈ t'.used) ∧ (∀ x ∈ t.used, x ∈ t'.used) ∧ t'.gone = t.gone := by
  intro p
  induction p with
  | done =>
    intro t ins t' ins' h
    simp only [exec, Res.ok.injEq, Prod.mk.injEq] at h
    obtain ⟨rfl, rfl⟩ := h
    exact ⟨fun _ h => .inl h, fun _ h => h, rfl⟩
  | fail => intro t ins t' ins' h; cases h
  | rule r k ih => intro t ins t' ins' h; exact ih { t with rules := set t.rules d (t.rules d ++ [r]) } _ _ _ h
  | look b k ih =>
    intro t ins t' ins' h
    unfold exec at h
    split at h
    · exact ih _ _ _ _ _ h
    · split at h
      · split at h
        · next t1 e1 =>
          obtain ⟨g1, g2, g3⟩ := hf _ _ _ e1
          obtain ⟨h1, h2, h3⟩ := ih _ _ _ _ _ h
          refine ⟨?_, fun x hx => h2 x (g2 x (by simp [hx])), h3.trans g3⟩
          intro x hx
          rcases h1 x hx with h4 | h4
          · rcases g1 x h4 with h5 | h5 | h5
            · exact .inl h5
            · exact .inr (h2 x h5)
            · exact .inr (h2 x (g2 x (by simp [h5])))
          · exact .inr h4
        · cases h
      · exact ih _ _ _ _ _ h

theorem parseK (s : St) (G : List Dir) : ∀ fuel, PK (parse s G fuel) := by
  intro fuel
  induction fuel with
  | zero => intro t d t' h; cases h
  | succ fuel ih =>
    intro t d t' h
    unfold parse at h
    split at h
    · cases h
    · split at h
      · next t1 ins e1 =>
        simp only [Res.ok.injEq] at h
        obtain ⟨h1, h2, h3⟩ := execK ih _ _ _ _ _ e1
        subst h
        refine ⟨?_, h2, h3⟩
        intro x hx
        rcases h1 x hx with h | h
        · rcases List.mem_cons.1 h with h | h
          · exact .inr (.inr h)
          · exact .inl h
        · exact .inr (.inl h)
      · cases h

/-! ### The loop -/

theorem work0 {s : St} {G : List Dir} {t t' : Run} {d : Dir} (hd : d ∈ G) (hu : ∀ x ∈ t.used, x ∈ t.parsing) (h : work s G t d = .ok t') :
    d ∈ t'.parsing ∧ t'.gone = d :: t.gone ∧ (∀ x ∈ t'.used, x ∈ t'.parsing) ∧ Frame G t t' [] := by
  unfold work at h
  split at h
  · next hdu =>
    simp only [Res.ok.injEq] at h
    subst h
    exact ⟨hu d hdu, rfl, hu, ⟨fun _ h => h, fun _ h => .inl h, fun _ _ => ⟨rfl, fun _ => Iff.rfl⟩⟩⟩
  · split at h
    · next t1 e1 =>
      simp only [Res.ok.injEq] at h
      obtain ⟨h1, _, h2⟩ := parse0 s G _ t d [] t1 hd (by simp) e1
      obtain ⟨_, _, h3⟩ := parseK s G _ t d t1 e1
      subst h
      refine ⟨h1, by rw [h3], ?_, ⟨h2.par, h2.use, h2.keep⟩⟩
      intro x hx
      rcases h2.use x hx with h | h
      · exact h2.par x (hu x h)
      · exact h
    · cases h

theorem loop0 {s : St} {G : List Dir} : ∀ (l : List Dir) (t t' : Run), (∀ x ∈ l, x ∈ G) → (∀ x ∈ t.used, x ∈ t.parsing) → loop s G l t = .ok t' →
    (∀ x ∈ l, x ∈ t'.parsing ∧ x ∈ t'.gone) ∧ (∀ x ∈ t.gone, x ∈ t'.gone) ∧ Frame G t t' [] := by
  intro l
  induction l with
  | nil =>
    intro t t' _ _ h
    simp only [loop, Res.ok.injEq] at h
    subst h
    exact ⟨by simp, fun _ h => h, Frame.refl⟩
  | cons d l ih =>
    intro t t' hl hu h
    unfold loop at h
    split at h
    · next t1 e1 =>
      obtain ⟨h1, h2, h3, h4⟩ := work0 (hl d (by simp)) hu e1
      obtain ⟨g1, g2, g3⟩ := ih t1 t' (fun x hx => hl x (by simp [hx])) h3 h
      refine ⟨?_, fun x hx => g2 x (by simp [h2, hx]), h4.trans g3⟩
      intro x hx
      rcases List.mem_cons.1 hx with rfl | hx
      · exact ⟨g3.par x h1, g2 x (by simp [h2])⟩
      · exact g1 x hx
    · cases h

theorem work1 {s : St} {G : List Dir} {Lt : Dir → Dir → Prop} (tr : ∀ a b c, Lt a b → Lt b c → Lt a c) (irr : ∀ a, ¬ Lt a a) {t t' : Run} {d : Dir} (hd : d ∈ G) (hj : J s G t [])
    (hu : ∀ x ∈ t.used, x ∈ t.parsing) (h : work s G t d = .ok t') (he : EdgesLt Lt t' []) : J s G t' [] := by
  unfold work at h
  split at h
  · next hdu =>
    simp only [Res.ok.injEq] at h
    subst h
    refine ⟨hj.out, hj.fin, hj.sub, hj.stkP, ?_⟩
    intro x hx
    rcases List.mem_cons.1 hx with rfl | hx
    · exact ⟨hu x hdu, by simp⟩
    · exact hj.gone x hx
  · split at h
    · next t1 e1 =>
      simp only [Res.ok.injEq] at h
      obtain ⟨h1, h2, _, _⟩ := parse1 tr irr _ t d [] t1 hj hd (fun x hx => .inl (hu x hx)) (by simp) e1 (by subst h; exact he)
      subst h
      refine ⟨h1.out, h1.fin, h1.sub, h1.stkP, ?_⟩
      intro x hx
      rcases List.mem_cons.1 hx with rfl | hx
      · exact ⟨h2, by simp⟩
      · exact h1.gone x hx
    · cases h

theorem loop1 {s : St} {G : List Dir} {Lt : Dir → Dir → Prop} (tr : ∀ a b c, Lt a b → Lt b c → Lt a c) (irr : ∀ a, ¬ Lt a a) : ∀ (l : List Dir) (t t' : Run), (∀ x ∈ l, x ∈ G) → J s G t [] →
    (∀ x ∈ t.used, x ∈ t.parsing) → loop s G l t = .ok t' → EdgesLt Lt t' [] → J s G t' [] := by
  intro l
  induction l with
  | nil =>
    intro t t' _ hj _ h _
    simp only [loop, Res.ok.injEq] at h
    exact h ▸ hj
  | cons d l ih =>
    intro t t' hl hj hu h he
    unfold loop at h
    split at h
    · next t1 e1 =>
      obtain ⟨_, _, h3, _⟩ := work0 (hl d (by simp)) hu e1
      obtain ⟨_, _, g3⟩ := loop0 l t1 t' (fun x hx => hl x (by simp [hx])) h3 h
      exact ih t1 t' (fun x hx => hl x (by simp [hx])) (work1 tr irr (hl d (by simp)) hj hu e1 (he.back g3)) h3 h he
    · cases h

/-- What holds between updates: the directories that are not to be parsed are as they should be. -/
def Inv (s : St) : Prop := Acyclic s.links ∧ ∀ x, ¬ Reach s x → Local s x

theorem j_start {s : St} {G : List Dir} : J s G ⟨s.rules, s.links, [], [], []⟩ [] :=
  ⟨fun _ _ => ⟨rfl, fun _ => Iff.rfl⟩, by simp, by simp, by simp, by simp⟩

theorem update_local {s s' : St} {order : List Dir} (hi : Inv s) (hv : Valid s order) (h : update s order = .ok s') (ha : Acyclic s'.links) : (∀ x, Local s' x) ∧ s'.flags = [] := by
  unfold update at h
  split at h
  · next t e =>
    simp only [Res.ok.injEq] at h
    obtain ⟨h1, _, _⟩ := loop0 order _ t (fun _ h => h) (by simp) e
    have hlk : s'.links = t.links := by rw [← h]
    have hj := loop1 (Lt := Path s'.links) (fun _ _ _ => Path.trans) ha order _ t (fun _ h => h) j_start (by simp) e (fun x y hxy _ _ => .one (hlk ▸ hxy))
    have hsrc : s'.src = s.src := by rw [← h]
    have hprog : s'.prog = s.prog := by rw [← h]
    have hrul : s'.rules = t.rules := by rw [← h]
    constructor
    · intro x
      unfold Local
      rw [hsrc, hprog, hrul, hlk]
      by_cases hx : x ∈ order
      · obtain ⟨lk, e1, e2, _⟩ := hj.fin x (h1 x hx).1 (by simp)
        exact ⟨lk, e1, e2⟩
      · obtain ⟨lk, e1, e2⟩ := hi.2 x (fun hr => hx ((hv.mem x).2 hr))
        obtain ⟨e3, e4⟩ := hj.out x hx
        refine ⟨lk, ?_, fun b => (e4 b).trans (e2 b)⟩
        rw [e3]
        refine trace_congr rfl _ _ e1 (fun b hb => ⟨(hj.out b ?_).1, rfl⟩)
        intro hbo
        exact hx ((hv.mem x).2 (.link ((hv.mem b).1 hbo) ((e2 b).2 hb)))
    · rw [← h]
      simp only [List.filter_eq_nil_iff, decide_eq_true_eq, Decidable.not_not]
      intro x hx
      exact (h1 x ((hv.mem x).2 (.flag hx))).2
  · cases h

/-! ### Acceptance -/

/-- One directory has a meaning in fewer levels than the other. -/
def Before (s : St) (b d : Dir) : Prop := ∃ n, (meaning s n b).isSome ∧ meaning s n d = none

theorem before_irr {s : St} (a : Dir) : ¬ Before s a a := by
  rintro ⟨n, h1, h2⟩
  rw [h2] at h1
  cases h1

theorem before_trans {s : St} (a b c : Dir) (h : Before s a b) (h' : Before s b c) : Before s a c := by
  obtain ⟨n, h1, h2⟩ := h
  obtain ⟨m, h3, h4⟩ := h'
  refine ⟨m, ?_, h4⟩
  obtain ⟨l, hl⟩ := Option.isSome_iff_exists.1 h1
  obtain ⟨l', hl'⟩ := Option.isSome_iff_exists.1 h3
  by_cases hnm : n ≤ m
  · rw [meaning_le hnm hl]; rfl
  · rw [meaning_le (by omega) hl'] at h2; cases h2

theorem first_level {s : St} {d : Dir} {l : List Rule} : ∀ {n : Nat}, meaning s n d = some l → ∃ m, meaning s m d = none ∧ meaning s (m + 1) d = some l := by
  intro n
  induction n with
  | zero => intro h; cases h
  | succ n ih =>
    intro h
    cases hn : meaning s n d with
    | none => exact ⟨n, hn, h⟩
    | some l' =>
      have := meaning_succ hn
      rw [h] at this
      obtain rfl := Option.some.inj this
      exact ih hn

/-- The directories that are still to be parsed. -/
def left (G : List Dir) (t : Run) : Nat := G.countP (fun x => decide (x ∉ t.parsing))

theorem left_le {G : List Dir} {t t' : Run} (h : ∀ x ∈ t.parsing, x ∈ t'.parsing) : left G t' ≤ left G t := by
  refine List.countP_mono_left (fun x _ hx => ?_)
  simp only [decide_eq_true_eq] at hx ⊢
  exact fun hx' => hx (h x hx')

def P2 (s : St) (G : List Dir) (fuel : Nat) (f : Run → Dir → Res Run) : Prop :=
  ∀ t d stk, J s G t stk → d ∈ G → d ∉ t.parsing → (∀ x ∈ t.used, x ∈ t.parsing ∨ x = d) → (∀ x ∈ t.parsing, x ∈ t.used ∨ x ∈ t.gone ∨ x ∈ stk) → (∀ x ∈ stk, Before s d x) → EdgesLt (Before s) t stk →
    left G t < fuel → ∃ t', f t d = .ok t' ∧ EdgesLt (Before s) t' stk

/-- The directories outside of the graph are as they should be, and look at no directory of the graph. -/
def Rest (s : St) (G : List Dir) : Prop := ∀ x, x ∉ G → ∃ lk, trace s.src s.rules x (s.prog x) [] = some (s.rules x, lk) ∧ ∀ b ∈ lk, b ∉ G

theorem settled_meaning {s : St} {G : List Dir} (hr : Rest s G) {t : Run} {stk : List Dir} (hj : J s G t stk) {b : Dir} (hb : Settled G t stk b) {n : Nat} {l : List Rule} (h : meaning s n b = some l) :
    t.rules b = l := by
  refine (closed_meaning (S := Settled G t stk) ?_ n b l hb h).symm
  intro x hx
  by_cases hxG : x ∈ G
  · rcases hx with hx | hx
    · exact absurd hxG hx
    · obtain ⟨lk, e1, _, e3⟩ := hj.fin x hx.1 hx.2
      exact ⟨lk, e1, e3⟩
  · obtain ⟨lk, e1, e2⟩ := hr x hxG
    refine ⟨lk, ?_, fun b hb => .inl (e2 b hb)⟩
    rw [(hj.out x hxG).1]
    exact trace_congr rfl _ _ e1 (fun b hb => ⟨(hj.out b (e2 b hb)).1, rfl⟩)

theorem exec2 {s : St} {G : List Dir} (hr : Rest s G) {fuel : Nat} {f : Run → Dir → Res Run} (h0 : P0 G f) (hK : PK f) (h1 : P1 s G (Before s) f) (h2 : P2 s G fuel f) {d : Dir} {stk : List Dir} (hdG : d ∈ G)
    (hds : d ∉ stk) (hstk : ∀ x ∈ stk, Before s d x) {n : Nat} (hn : meaning s n d = none) :
    ∀ (p : Prog) (t : Run) (ins : List Dir) (r : List Rule), eval s.src (meaning s n) d p (t.rules d) = some r → J s G t (d :: stk) → (∀ x ∈ t.used, x ∈ t.parsing) →
      (∀ x ∈ t.parsing, x ∈ t.used ∨ x ∈ t.gone ∨ x ∈ d :: stk) → EdgesLt (Before s) t (d :: stk) → (∀ c ∈ ins, Before s c d) → left G t < fuel →
      ∃ t' ins', exec s.src G f d p t ins = .ok (t', ins') ∧ EdgesLt (Before s) t' (d :: stk) ∧ ∀ c ∈ ins', Before s c d := by
  intro p
  induction p with
  | done => intro t ins r _ _ _ _ he hi _; exact ⟨t, ins, rfl, he, hi⟩
  | fail => intro t ins r h; cases h
  | rule r k ih =>
    intro t ins r' hm hj hu hk he hi hl
    have hj1 : J s G { t with rules := set t.rules d (t.rules d ++ [r]) } (d :: stk) :=
      (exec1 (Lt := Before s) before_trans before_irr h0 h1 hdG hds hstk (.rule r .done) t [] _ _ hj hu rfl (by exact he) (by simp)).1
    refine ih { t with rules := set t.rules d (t.rules d ++ [r]) } ins r' ?_ hj1 hu hk he hi hl
    rw [show ({ t with rules := set t.rules d (t.rules d ++ [r]) } : Run).rules d = t.rules d ++ [r] from set_same _ _ _]
    exact hm
  | look b k ih =>
    intro t ins r hm hj hu hk he hi hl
    unfold eval at hm
    unfold exec
    by_cases e : b = d
    · rw [if_pos e] at hm ⊢
      refine ih _ t ins r ?_ hj hu hk he hi hl
      rw [view_eq, e]
      rw [e] at hm
      exact hm
    · rw [if_neg e] at hm ⊢
      cases hb : meaning s n b with
      | none => rw [hb] at hm; cases hm
      | some rb =>
        rw [hb] at hm
        have hbd : Before s b d := ⟨n, by rw [hb]; rfl, hn⟩
        have hi' : ∀ c ∈ b :: ins, Before s c d := by
          intro c hc
          rcases List.mem_cons.1 hc with rfl | hc
          · exact hbd
          · exact hi c hc
        have hbs : b ∉ d :: stk := by
          intro h
          rcases List.mem_cons.1 h with h | h
          · exact e h
          · exact before_irr b (before_trans _ _ _ hbd (hstk b h))
        split
        · next hc =>
          have hbp : b ∉ t.parsing := by
            intro h
            rcases hk b h with h | h | h
            · exact hc.2.2 h
            · exact hc.2.1 h
            · exact hbs h
          have hstk' : ∀ x ∈ d :: stk, Before s b x := by
            intro x hx
            rcases List.mem_cons.1 hx with rfl | hx
            · exact hbd
            · exact before_trans _ _ _ hbd (hstk x hx)
          have hj1 : J s G { t with used := b :: t.used } (d :: stk) := ⟨hj.out, hj.fin, hj.sub, hj.stkP, hj.gone⟩
          have hu1 : ∀ x ∈ b :: t.used, x ∈ t.parsing ∨ x = b := by
            intro x hx
            rcases List.mem_cons.1 hx with rfl | hx
            · exact .inr rfl
            · exact .inl (hu x hx)
          obtain ⟨t1, e1, e2⟩ := h2 { t with used := b :: t.used } b (d :: stk) hj1 hc.1 hbp hu1 (by
              intro x hx
              rcases hk x hx with h | h
              · exact .inl (List.mem_cons_of_mem _ h)
              · exact .inr h) hstk' he hl
          obtain ⟨c1, c2, c3, c4⟩ := h1 _ b (d :: stk) t1 hj1 hc.1 hu1 hstk' e1 e2
          obtain ⟨k1, k2, k3⟩ := hK _ _ _ e1
          rw [e1]
          refine ih _ t1 (b :: ins) r ?_ c1 ?_ ?_ e2 hi' ?_
          · rw [view_eq, settled_meaning hr c1 (.inr ⟨c2, c3⟩) hb, (c4.keep d (.inl (by simp))).1]
            exact hm
          · intro x hx
            rcases c4.use x hx with h5 | h5
            · rcases List.mem_cons.1 h5 with rfl | h5
              · exact c2
              · exact c4.par x (hu x h5)
            · exact h5
          · intro x hx
            rcases k1 x hx with h | h | h
            · rcases hk x h with h | h | h
              · exact .inl (k2 x (List.mem_cons_of_mem _ h))
              · exact .inr (.inl (k3 ▸ h))
              · exact .inr (.inr h)
            · exact .inl h
            · exact .inl (k2 x (by simp [h]))
          · have := left_le (G := G) c4.par
            have h3 : left G { t with used := b :: t.used } = left G t := rfl
            omega
        · next hc =>
          refine ih _ t (b :: ins) r ?_ hj hu hk he hi' hl
          have hset : Settled G t (d :: stk) b := by
            by_cases hbG : b ∈ G
            · refine .inr ⟨?_, hbs⟩
              by_cases hg : b ∈ t.gone
              · exact (hj.gone b hg).1
              · by_cases hbu : b ∈ t.used
                · exact hu b hbu
                · exact absurd ⟨hbG, hg, hbu⟩ hc
            · exact .inl hbG
          rw [view_eq, settled_meaning hr hj hset hb]
          exact hm

theorem parse2 {s : St} {G : List Dir} (hr : Rest s G) (hall : ∀ d ∈ G, ∃ l, Means s d l) : ∀ fuel, P2 s G fuel (parse s G fuel) := by
  intro fuel
  induction fuel with
  | zero => intro t d stk _ _ _ _ _ _ _ h; omega
  | succ fuel ih =>
    intro t d stk hj hd hp hu hk hstk he hl
    obtain ⟨l, n0, hm⟩ := hall d hd
    obtain ⟨n, hn, hm⟩ := first_level hm
    rw [meaning] at hm
    have hds : d ∉ stk := fun h => hp (hj.stkP d h)
    have hj0 : J s G { t with parsing := d :: t.parsing, rules := set t.rules d [] } (d :: stk) := by
      have hne : ∀ x, Settled G t stk x → x ≠ d := by
        rintro x hx rfl
        rcases hx with hx | hx
        · exact hx hd
        · exact hp hx.1
      have hset : ∀ x, Settled G t stk x → Settled G { t with parsing := d :: t.parsing, rules := set t.rules d [] } (d :: stk) x := by
        intro x hx
        have := hne x hx
        rcases hx with hx | hx
        · exact .inl hx
        · exact .inr ⟨by simp [hx.1], by simp [this, hx.2]⟩
      refine ⟨?_, ?_, ?_, ?_, ?_⟩
      · intro x hx
        obtain ⟨e1, e2⟩ := hj.out x hx
        exact ⟨(set_other _ _ (by rintro rfl; exact hx hd)).trans e1, e2⟩
      · intro x hx hxs
        have hxd : x ≠ d := fun e => hxs (by simp [e])
        have hxp : x ∈ t.parsing := (List.mem_cons.1 hx).resolve_left hxd
        have hxs' : x ∉ stk := fun h => hxs (by simp [h])
        obtain ⟨lk, e1, e2, e3⟩ := hj.fin x hxp hxs'
        refine ⟨lk, ?_, e2, fun b hb => hset b (e3 b hb)⟩
        show trace s.src (set t.rules d []) x (s.prog x) [] = some (set t.rules d [] x, lk)
        rw [set_other _ _ hxd]
        exact trace_congr rfl _ _ e1 (fun b hb => ⟨set_other _ _ (hne b (e3 b hb)), rfl⟩)
      · intro x hx
        rcases List.mem_cons.1 hx with rfl | hx
        · exact hd
        · exact hj.sub x hx
      · intro x hx
        rcases List.mem_cons.1 hx with rfl | hx
        · exact List.mem_cons_self
        · exact List.mem_cons_of_mem _ (hj.stkP x hx)
      · intro x hx
        obtain ⟨g1, g2⟩ := hj.gone x hx
        exact ⟨List.mem_cons_of_mem _ g1, by simp [g2, hne x (.inr ⟨g1, g2⟩)]⟩
    obtain ⟨t1, ins, e1, e2, e3⟩ := exec2 hr (parse0 s G fuel) (parseK s G fuel) (parse1 before_trans before_irr fuel) ih hd hds hstk hn (s.prog d)
      { t with parsing := d :: t.parsing, rules := set t.rules d [] } [] l (by
        rw [show ({ t with parsing := d :: t.parsing, rules := set t.rules d [] } : Run).rules d = [] from set_same _ _ _]
        exact hm) hj0 (by
        intro x hx
        rcases hu x hx with h | h
        · exact List.mem_cons_of_mem _ h
        · exact h ▸ List.mem_cons_self) (by
        intro x hx
        rcases List.mem_cons.1 hx with rfl | hx
        · exact .inr (.inr List.mem_cons_self)
        · rcases hk x hx with h | h | h
          · exact .inl h
          · exact .inr (.inl h)
          · exact .inr (.inr (List.mem_cons_of_mem _ h))) (by
        intro x y hxy hy hys
        have hyd : y ≠ d := fun e => hys (by simp [e])
        exact he x y hxy ((List.mem_cons.1 hy).resolve_left hyd) (fun h => hys (by simp [h]))) (by simp) (by
        have : left G { t with parsing := d :: t.parsing, rules := set t.rules d [] } < left G t := by
          unfold left
          refine countP_lt (b := d) ?_ hd ?_ ?_
          · intro x hx
            simp only [decide_eq_true_eq, List.mem_cons, not_or] at hx ⊢
            exact hx.2
          · simpa using hp
          · simp
        omega)
    refine ⟨{ t1 with links := ins.map (fun b => (b, d)) ++ t1.links.filter (fun l => l.2 ≠ d) }, ?_, ?_⟩
    · unfold parse
      rw [if_neg hp, e1]
    · intro x y hxy hy hys
      simp only [List.mem_append, List.mem_map, List.mem_filter, Prod.mk.injEq, decide_eq_true_eq] at hxy
      rcases hxy with ⟨c, hc, rfl, rfl⟩ | ⟨h3, h4⟩
      · exact e3 c hc
      · exact e2 x y h3 hy (by simp [h4, hys])

theorem loop2 {s : St} {G : List Dir} (hr : Rest s G) (hall : ∀ d ∈ G, ∃ l, Means s d l) : ∀ (l : List Dir) (t : Run), l.Nodup → (∀ x ∈ l, x ∈ G ∧ x ∉ t.gone) → J s G t [] →
    (∀ x ∈ t.used, x ∈ t.parsing) → (∀ x ∈ t.parsing, x ∈ t.used ∨ x ∈ t.gone) → EdgesLt (Before s) t [] → ∃ t', loop s G l t = .ok t' ∧ EdgesLt (Before s) t' [] := by
  intro l
  induction l with
  | nil => intro t _ _ _ _ _ he; exact ⟨t, rfl, he⟩
  | cons d l ih =>
    intro t hnd hl hj hu hk he
    obtain ⟨hdl, hnd⟩ := List.nodup_cons.1 hnd
    obtain ⟨hdG, hdg⟩ := hl d (by simp)
    have hw : ∃ t1, work s G t d = .ok t1 ∧ EdgesLt (Before s) t1 [] ∧ ∀ x ∈ t1.parsing, x ∈ t1.used ∨ x ∈ t1.gone := by
      unfold work
      split
      · refine ⟨_, rfl, he, ?_⟩
        intro x hx
        rcases hk x hx with h | h
        · exact .inl h
        · exact .inr (List.mem_cons_of_mem _ h)
      · next hdu =>
        have hp : d ∉ t.parsing := by
          intro h
          rcases hk d h with h | h
          · exact hdu h
          · exact hdg h
        obtain ⟨t1, e1, e2⟩ := parse2 hr hall (G.length + 1) t d [] hj hdG hp (fun x hx => .inl (hu x hx)) (fun x hx => (hk x hx).imp id .inl) (by simp) he (Nat.lt_succ_of_le List.countP_le_length)
        obtain ⟨k1, k2, k3⟩ := parseK s G _ t d t1 e1
        rw [e1]
        refine ⟨_, rfl, e2, ?_⟩
        intro x hx
        rcases k1 x hx with h | h | h
        · rcases hk x h with h | h
          · exact .inl (k2 x h)
          · exact .inr (List.mem_cons_of_mem _ (k3 ▸ h))
        · exact .inl h
        · exact .inr (by simp [h])
    obtain ⟨t1, e1, e2, e3⟩ := hw
    obtain ⟨_, w2, w3, _⟩ := work0 hdG hu e1
    unfold loop
    rw [e1]
    refine ih t1 hnd ?_ (work1 before_trans before_irr hdG hj hu e1 e2) w3 e3 e2
    intro x hx
    obtain ⟨h1, h2⟩ := hl x (by simp [hx])
    refine ⟨h1, ?_⟩
    rw [w2]
    intro h
    rcases List.mem_cons.1 h with rfl | h
    · exact hdl hx
    · exact h2 h

theorem update_accepts {s : St} {order : List Dir} (hi : Inv s) (hv : Valid s order) (hall : ∀ d, ∃ l, Means s d l) : ∃ s', update s order = .ok s' ∧ Acyclic s'.links := by
  have hr : Rest s order := by
    intro x hx
    obtain ⟨lk, e1, e2⟩ := hi.2 x (fun h => hx ((hv.mem x).2 h))
    refine ⟨lk, e1, ?_⟩
    intro b hb hbo
    exact hx ((hv.mem x).2 (.link ((hv.mem b).1 hbo) ((e2 b).2 hb)))
  obtain ⟨t, e1, e2⟩ := loop2 hr (fun d _ => hall d) order ⟨s.rules, s.links, [], [], []⟩ hv.nodup (fun x hx => ⟨hx, by simp⟩) j_start (by simp) (by simp) (by intro x y _ h; cases h)
  have hj := loop1 before_trans before_irr order _ t (fun _ h => h) j_start (by simp) e1 e2
  obtain ⟨g1, _, _⟩ := loop0 order _ t (fun _ h => h) (by simp) e1
  refine ⟨{ s with rules := t.rules, links := t.links, flags := s.flags.filter (· ∉ t.gone) }, by unfold update; rw [e1], ?_⟩
  have hlt : ∀ x y, (x, y) ∈ t.links → Before s x y := by
    intro x y hxy
    by_cases hy : y ∈ order
    · exact e2 x y hxy (g1 y hy).1 (by simp)
    · obtain ⟨lk, f1, f2⟩ := hi.2 y (fun h => hy ((hv.mem y).2 h))
      have hx := (f2 x).1 (((hj.out y hy).2 x).1 hxy)
      obtain ⟨l, n0, hm⟩ := hall y
      obtain ⟨n, hn, hm⟩ := first_level hm
      rw [meaning] at hm
      refine ⟨n, (eval_trace _ _ f1 hm (fun b hb l hl => ?_)).2 x hx, hn⟩
      have hb' : b ∉ order := fun hbo => hy ((hv.mem y).2 (.link ((hv.mem b).1 hbo) ((f2 b).2 hb)))
      have := settled_meaning hr hj (.inl hb') hl
      rw [(hj.out b hb').1] at this
      exact this.symm
  suffices h : ∀ a b, Path t.links a b → Before s a b from fun x hx => before_irr x (h x x hx)
  intro a b hp
  induction hp with
  | one h => exact hlt _ _ h
  | cons h _ ih => exact before_trans _ _ _ (hlt _ _ h) ih

end Tup.Reparse
