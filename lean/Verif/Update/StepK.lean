import Verif.Update.Inv

/-! Every job keeps the invariant. -/

namespace Tup.Update

open Tup.Exec (upd Graph S Work Cfg Running upd_apply)

variable {π : Proj} {clean : Bool} {w0 : W} {rest : List Nat} {E : List (Nat × Nat)} {d d' : D} {Dn Fl : Nat → Prop}
  {n : Nat} {g : Graph}

theorem bool_ne {b : Bool} (h : ¬ b = true) : b = false := by simpa using h

/-- content changes of inputs: a file that changed is below a command that ran -/
theorem K.changed_rest (ok : π.Ok) (ge : GE π w0.db rest E) (k : K π clean w0 rest E d Dn Fl) {p : Nat}
    (h : d.content p ≠ w0.content p) : ∃ e, Prod π e p ∧ e ∈ d.ran ∧ e ∈ rest ∧ p ∈ rest := by
  rcases k.same p with h1 | ⟨e, h1, h2⟩
  · exact absurd h1 h
  · exact ⟨e, h1, h2, (k.ranRest e h2).1, (ge.prodEdge ok h1 (k.ranRest e h2).1).2⟩

theorem K.file (ok : π.Ok) (ge : GE π w0.db rest E) (k : K π clean w0 rest E d Dn Fl)
    (env : Env rest E g Dn Fl n) (hc : π.isCmd n = false) :
    K π clean w0 rest E (fileWork π (normal π w0.db) g n d) (fun x => Dn x ∨ x = n) Fl := by
  obtain ⟨h1, h2, h3, h4, h5, h6⟩ := fileWork_spec (π := π) (normal π w0.db) g n d
  generalize hd' : fileWork π (normal π w0.db) g n d = d' at *
  have hE : ∀ x, x ∈ g.outs n → normal π w0.db n x = true → ¬ Dn x ∧ x ≠ n :=
    fun x hx _ => env.ahead x ((env.outs x).1 hx)
  refine ⟨?_, ?_, ?_, ?_, ?_, ?_, ?_, ?_, ?_, ?_, ?_, ?_, ?_⟩
  · -- flagSkip
    intro x hx hdn hm
    have hdn : ¬ Dn x := fun h => hdn (Or.inl h)
    refine bool_ne fun hs => ?_
    obtain ⟨hs1, hs2⟩ := (h6 x).1 hs
    rcases ((h5 x).1 hm).2 with hm | ⟨q1, q2, q3, q4⟩
    · rw [k.flagSkip x hx hdn hm] at hs1; cases hs1
    · exact hs2 ⟨q1, q2, q3⟩
  · -- skipFlag
    intro x hx hxc hdn hs
    have hxn : x ≠ n := fun h => hdn (Or.inr h)
    refine (h5 x).2 ⟨hxn, ?_⟩
    by_cases hs1 : d.skip x = true
    · right
      have : d.skip n = false ∧ x ∈ g.outs n ∧ normal π w0.db n x = true := by
        refine Classical.byContradiction fun hcon => ?_
        rw [(h6 x).2 ⟨hs1, hcon⟩] at hs; cases hs
      exact ⟨this.1, this.2.1, this.2.2, hxc⟩
    · exact Or.inl (k.skipFlag x hx hxc (fun h => hdn (Or.inl h)) (bool_ne hs1))
  · -- doneClear
    intro x hx hdn
    refine bool_ne fun hm => ?_
    obtain ⟨hxn, hm⟩ := (h5 x).1 hm
    have hdn : Dn x := hdn.resolve_right hxn
    rcases hm with hm | ⟨q1, q2, q3, q4⟩
    · rw [k.doneClear x hx hdn] at hm; cases hm
    · exact (hE x q2 q3).1 hdn
  · -- inRest
    intro x hx hm
    rcases ((h5 x).1 hm).2 with hm | ⟨q1, q2, q3, q4⟩
    · exact k.inRest x hx hm
    · exact ge.closed n x env.nRest hx q3
  · -- fresh
    intro p
    rw [h1, h2]; exact k.fresh p
  · -- main
    intro hcl c hcn hcc
    have hcn' : c ≠ n := fun h => by rw [h, hc] at hcc; cases hcc
    rcases k.main hcl c hcn hcc with hm | ⟨v, ⟨a1, a2, a3⟩, hv⟩
    · exact Or.inl ((h5 c).2 ⟨hcn', Or.inl hm⟩)
    · by_cases hmc : d'.db.modify c = true
      · exact Or.inl hmc
      · refine Or.inr ⟨v, ⟨a1, by rw [h2]; exact a2, by rw [h3]; exact a3⟩, ?_⟩
        intro p hp hpo
        rw [h2]
        rcases hv p hp hpo with ⟨b1, b2⟩ | ⟨b1, b2, b3⟩
        · exact Or.inl ⟨b1, fun e he => (b2 e he).imp id Or.inl⟩
        · refine Or.inr ⟨b1, b2, b3.imp id ?_⟩
          rintro (hm | ⟨e, he1, he2, he3⟩)
          · by_cases hpn : p = n
            · exfalso
              apply hmc
              have hs : d.skip n = false := k.flagSkip n env.nRest env.nDn (hpn ▸ hm)
              exact (h5 c).2 ⟨hcn', Or.inr ⟨hs, (env.outs c).2 (hpn ▸ b1), hpn ▸ b2, hcc⟩⟩
            · exact Or.inl ((h5 p).2 ⟨hpn, Or.inl hm⟩)
          · have hen : e ≠ n := fun h => by have := he1.2.1; rw [h, hc] at this; cases this
            exact Or.inr ⟨e, he1, (h5 e).2 ⟨hen, Or.inl he2⟩, by rw [h2]; exact he3⟩
  · -- keep
    intro x hx hm
    by_cases hxn : x = n
    · exact Or.inl (Or.inr hxn)
    · rcases k.keep x hx hm with h | h
      · exact Or.inl (Or.inl h)
      · exact Or.inr ((h5 x).2 ⟨hxn, Or.inl h⟩)
  · intro x hx; exact k.skipMono x ((h6 x).1 hx).1
  · intro p; rw [h1, h4]; exact k.same p
  · intro e he
    rw [h4] at he
    exact ⟨(k.ranRest e he).1, (k.ranRest e he).2.imp Or.inl id⟩
  · -- ranIff
    intro c hcr hcc hdn
    have hcn' : c ≠ n := fun h => by rw [h, hc] at hcc; cases hcc
    rw [h4, h1]
    exact k.ranIff c hcr hcc (hdn.resolve_right hcn')
  · -- changed
    intro p hp hpc hdn hch
    rw [h1] at hch
    have := k.changed p hp hpc (fun h => hdn (Or.inl h)) hch
    refine bool_ne fun hs => ?_
    rw [((h6 p).1 hs).1] at this; cases this
  · -- spread
    intro p hp hpc hdn hch c hnc hcn
    rw [h1] at hch
    rw [h4]
    have hcc := normal_file ok hpc hnc
    have hcn' : c ≠ n := fun h => by rw [h, hc] at hcc; cases hcc
    by_cases hpn : p = n
    · subst hpn
      have hs : d.skip p = false := by
        refine k.changed p hp hc env.nDn (hch.imp id fun h => ⟨h, fun e he hf => ?_⟩)
        have her := env.flRest e hf
        exact env.excl e (env.preds e (ge.prodEdge ok he her).1) hf
      have hedge : (p, c) ∈ E := (ge.edge p c).2 (Or.inl ⟨hp, hcn, hnc⟩)
      refine Or.inr ⟨fun h => ?_, ?_⟩
      · exact (env.ahead c hedge).1 (h.resolve_right hcn')
      · refine bool_ne fun hs' => ?_
        exact ((h6 c).1 hs').2 ⟨hs, (env.outs c).2 hedge, hnc⟩
    · rcases k.spread p hp hpc (hdn.resolve_right hpn) hch c hnc hcn with h | ⟨q1, q2⟩
      · exact Or.inl h
      · refine Or.inr ⟨fun h => q1 (h.resolve_right hcn'), bool_ne fun hs => ?_⟩
        rw [((h6 c).1 hs).1] at q2; cases q2

/-- a skipped command -/
theorem K.skipped (ok : π.Ok) (ge : GE π w0.db rest E) (k : K π clean w0 rest E d Dn Fl)
    (env : Env rest E g Dn Fl n) (hc : π.isCmd n = true) (hsk : d.skip n = true) :
    K π clean w0 rest E (finishCmd π (normal π w0.db) g n d) (fun x => Dn x ∨ x = n) Fl := by
  obtain ⟨h1, h2, h3, h4, h5, hn0, h6, h7, h8, h9⟩ := finishCmd_spec (π := π) (normal π w0.db) g n d
  generalize hd' : finishCmd π (normal π w0.db) g n d = d' at *
  have hmn : d.db.modify n = false := bool_ne fun h => by
    rw [k.flagSkip n env.nRest env.nDn h] at hsk; cases hsk
  have hE : ∀ p x, p ∈ g.outs n → x ∈ g.outs p → ¬ Dn x ∧ x ≠ n := by
    intro p x hp hx
    have hp := (env.outs p).1 hp
    exact env.ahead2 p x hp ((env.outs2 p hp x).1 hx)
  have hR : ∀ p x, p ∈ g.outs n → x ∈ g.outs p → x ∈ π.nodes → normal π w0.db p x = true → x ∈ rest := by
    intro p x hp hx hxn hnx
    have hp1 := (env.outs p).1 hp
    have hpr : p ∈ rest := by
      rcases (ge.edge n p).1 hp1 with q | q | q
      · exact ge.closed n p q.1 q.2.1 q.2.2
      · exact absurd (q.1 ▸ ge.nodes n env.nRest) ok.root
      · exact q.2.1
    exact ge.closed p x hpr hxn hnx
  refine ⟨?_, ?_, ?_, ?_, ?_, ?_, ?_, ?_, ?_, ?_, ?_, ?_, ?_⟩
  · -- flagSkip
    intro x hx hdn hm
    obtain ⟨hxn, hm⟩ := h8 x hm
    rcases hm with hm | ⟨_, q, _⟩
    · refine bool_ne fun hs => ?_
      have := h6 x hs
      rw [k.flagSkip x hx (fun h => hdn (Or.inl h)) hm] at this; cases this
    · exact q
  · -- skipFlag
    intro x hx hxc hdn hs
    have hxn : x ≠ n := fun h => hdn (Or.inr h)
    rcases h9 x hxn hs with h | ⟨q, _⟩
    · exact h5 x hxn (k.skipFlag x hx hxc (fun h => hdn (Or.inl h)) h)
    · exact q hxc
  · -- doneClear
    intro x hx hdn
    refine bool_ne fun hm => ?_
    obtain ⟨hxn, hm⟩ := h8 x hm
    have hdn : Dn x := hdn.resolve_right hxn
    rcases hm with hm | ⟨_, _, p, q1, q2, q3⟩
    · rw [k.doneClear x hx hdn] at hm; cases hm
    · exact (hE p x q1 q2).1 hdn
  · -- inRest
    intro x hx hm
    rcases (h8 x hm).2 with hm | ⟨_, _, p, q1, q2, q3⟩
    · exact k.inRest x hx hm
    · exact hR p x q1 q2 hx q3
  · intro p; rw [h1, h2]; exact k.fresh p
  · -- main
    intro hcl c hcn hcc
    by_cases hmc : d'.db.modify c = true
    · exact Or.inl hmc
    right
    rcases k.main hcl c hcn hcc with hm | ⟨v, ⟨a1, a2, a3⟩, hv⟩
    · exfalso; apply hmc
      refine h5 c (fun h => ?_) hm
      rw [h, hmn] at hm; cases hm
    · refine ⟨v, ⟨a1, by rw [h2]; exact a2, by rw [h3]; exact a3⟩, ?_⟩
      intro p hp hpo
      rw [h2]
      rcases hv p hp hpo with ⟨b1, b2⟩ | ⟨b1, b2, b3⟩
      · exact Or.inl ⟨b1, fun e he => (b2 e he).imp id Or.inl⟩
      · refine Or.inr ⟨b1, b2, b3.imp id ?_⟩
        rintro (hm | ⟨e, he1, he2, he3⟩)
        · exact Or.inl (h5 p (fun h => by rw [h, hmn] at hm; cases hm) hm)
        · exact Or.inr ⟨e, he1, h5 e (fun h => by rw [h, hmn] at he2; cases he2) he2, by rw [h2]; exact he3⟩
  · -- keep
    intro x hx hm
    by_cases hxn : x = n
    · exact Or.inl (Or.inr hxn)
    · rcases k.keep x hx hm with h | h
      · exact Or.inl (Or.inl h)
      · exact Or.inr (h5 x hxn h)
  · intro x hx; exact k.skipMono x (h6 x hx)
  · intro p; rw [h1, h4]; exact k.same p
  · intro e he
    rw [h4] at he
    exact ⟨(k.ranRest e he).1, (k.ranRest e he).2.imp Or.inl id⟩
  · -- ranIff
    intro c hcr hcc hdn
    rw [h4, h1]
    by_cases hcn : c = n
    · subst hcn
      right
      constructor
      · refine bool_ne fun hm => ?_
        rcases k.keep c hcr hm with h | h
        · exact env.nDn h
        · rw [hmn] at h; cases h
      · intro p hpn hp
        have hpc : π.isCmd p = false := bool_ne fun hpc => by
          simp only [normal, hpc, if_true, List.contains_iff_mem] at hpn
          have := (ok.outsIn p hpc c hpn).2
          rw [hc] at this; cases this
        have hcon : ¬ (w0.db.modify p = true ∨ d.content p ≠ w0.content p) := by
          intro hch
          have hpr : p ∈ rest := by
            rcases hch with h | h
            · exact ge.sched p hp h
            · exact (k.changed_rest ok ge h).choose_spec.2.2.2
          have hedge : (p, c) ∈ E := (ge.edge p c).2 (Or.inl ⟨hpr, ge.nodes c hcr, hpn⟩)
          rcases k.spread p hpr hpc (env.preds p hedge) hch c hpn (ge.nodes c hcr) with h | ⟨_, h⟩
          · rcases (k.ranRest c h).2 with h | h
            · exact env.nDn h
            · exact env.nFl h
          · rw [hsk] at h; cases h
        constructor
        · exact bool_ne fun h => hcon (Or.inl h)
        · exact Classical.byContradiction fun h => hcon (Or.inr h)
    · exact k.ranIff c hcr hcc (hdn.resolve_right hcn)
  · -- changed
    intro p hp hpc hdn hch
    rw [h1] at hch
    have := k.changed p hp hpc (fun h => hdn (Or.inl h)) hch
    exact bool_ne fun hs => by rw [h6 p hs] at this; cases this
  · -- spread
    intro p hp hpc hdn hch c hnc hcn
    rw [h1] at hch
    rw [h4]
    have hpn : p ≠ n := fun h => by rw [h, hc] at hpc; cases hpc
    rcases k.spread p hp hpc (hdn.resolve_right hpn) hch c hnc hcn with h | ⟨q1, q2⟩
    · exact Or.inl h
    · have hcn' : c ≠ n := fun h => by rw [h, hsk] at q2; cases q2
      refine Or.inr ⟨fun h => q1 (h.resolve_right hcn'), bool_ne fun hs => ?_⟩
      rw [h6 c hs] at q2; cases q2

/-- A command outside the outputs of `n`: its record does not depend on them. -/
theorem outs_disjoint (ok : π.Ok) {c n : Nat} (hc : c ∈ π.nodes) (hn : n ∈ π.nodes) (hcc : π.isCmd c = true)
    (hnc : π.isCmd n = true) (hne : c ≠ n) {o : Nat} (ho : o ∈ π.outs c) : o ∉ π.outs n :=
  fun h => hne (ok.unique c hc n hn hcc hnc o ho h)

/-- a command that ran and succeeded -/
theorem K.succeeded (ok : π.Ok) (ge : GE π w0.db rest E) (k : K π clean w0 rest E d Dn Fl)
    (env : Env rest E g Dn Fl n) (hc : π.isCmd n = true) {v : Content} (hview : View π n d v)
    (hpass : Passes π n (π.beh n (mask π n v))) :
    K π clean w0 rest E (finishCmd π (normal π w0.db) g n (succeed π n d (π.beh n (mask π n v))))
      (fun x => Dn x ∨ x = n) Fl := by
  generalize hr : π.beh n (mask π n v) = r at *
  obtain ⟨h1, h2, h3, h4, h5, hn0, h6, h7, h8, h9⟩ :=
    finishCmd_spec (π := π) (normal π w0.db) g n (succeed π n d r)
  generalize hd' : finishCmd π (normal π w0.db) g n (succeed π n d r) = d' at *
  have hnn : n ∈ π.nodes := ge.nodes n env.nRest
  have hE : ∀ p x, p ∈ g.outs n → x ∈ g.outs p → ¬ Dn x ∧ x ≠ n := by
    intro p x hp hx
    have hp := (env.outs p).1 hp
    exact env.ahead2 p x hp ((env.outs2 p hp x).1 hx)
  have hR : ∀ p x, p ∈ g.outs n → x ∈ g.outs p → x ∈ π.nodes → normal π w0.db p x = true → x ∈ rest := by
    intro p x hp hx hxn hnx
    have hp1 := (env.outs p).1 hp
    have hpr : p ∈ rest := by
      rcases (ge.edge n p).1 hp1 with q | q | q
      · exact ge.closed n p q.1 q.2.1 q.2.2
      · exact absurd (q.1 ▸ ge.nodes n env.nRest) ok.root
      · exact q.2.1
    exact ge.closed p x hpr hxn hnx
  have hprod : ∀ p ∈ π.outs n, Prod π n p := fun p hp => ⟨hnn, hc, hp⟩
  have hout : ∀ p ∈ π.outs n, (n, p) ∈ E ∧ p ∈ rest ∧ π.isCmd p = false ∧ ¬ Dn p ∧ p ≠ n := by
    intro p hp
    obtain ⟨q1, q2⟩ := ge.prodEdge ok (hprod p hp) env.nRest
    exact ⟨q1, q2, (ok.outsIn n hc p hp).2, (env.ahead p q1).1, (env.ahead p q1).2⟩
  have hold : ∀ p ∈ π.outs n, d.content p = w0.content p := by
    intro p hp
    refine Classical.byContradiction fun hne => ?_
    obtain ⟨e, q1, q2, _, _⟩ := k.changed_rest ok ge hne
    have : e = n := q1.eq ok (hprod p hp)
    subst this
    exact (k.ranRest e q2).2.elim env.nDn env.nFl
  have hfreshOut : ∀ p ∈ π.outs n, d.db.known p = d.content p := by
    intro p hp
    rcases k.fresh p with h | ⟨e, q1, q2⟩
    · exact h
    · have : e = n := q1.eq ok (hprod p hp)
      exact absurd (this ▸ q2) env.nFl
  have skip1 : ∀ x, (succeed π n d r).skip x = true → d.skip x = true := by
    intro x hx
    simp only [succeed] at hx
    split at hx
    · simp only [Bool.and_eq_true] at hx; exact hx.1.1.1
    · exact hx
  have hc1 : ∀ p, p ∉ π.outs n → (succeed π n d r).content p = d.content p ∧
      (succeed π n d r).db.known p = d.db.known p ∧ (succeed π n d r).skip p = d.skip p := by
    intro p hp; simp [succeed, hp]
  have hmod : (succeed π n d r).db.modify = d.db.modify := rfl
  have hran : d'.ran = n :: d.ran := h4
  have hkn : ∀ p, p ∉ π.outs n → d'.db.known p = d.db.known p := fun p hp => by
    rw [h2]; exact (hc1 p hp).2.1
  have hco : ∀ p, p ∉ π.outs n → d'.content p = d.content p := fun p hp => by
    rw [h1]; exact (hc1 p hp).1
  have hlk : ∀ p x, x ≠ n → d'.db.link p x = d.db.link p x := fun p x hx => by
    rw [h3]; simp [succeed, hx]
  refine ⟨?_, ?_, ?_, ?_, ?_, ?_, ?_, ?_, ?_, ?_, ?_, ?_, ?_⟩
  · -- flagSkip
    intro x hx hdn hm
    obtain ⟨hxn, hm⟩ := h8 x hm
    rcases hm with hm | ⟨_, q, _⟩
    · refine bool_ne fun hs => ?_
      have := skip1 x (h6 x hs)
      rw [k.flagSkip x hx (fun h => hdn (Or.inl h)) hm] at this; cases this
    · exact q
  · -- skipFlag
    intro x hx hxc hdn hs
    have hxn : x ≠ n := fun h => hdn (Or.inr h)
    rcases h9 x hxn hs with h | ⟨q, _⟩
    · have hxo : x ∉ π.outs n := fun h => by rw [(hout x h).2.2.1] at hxc; cases hxc
      rw [(hc1 x hxo).2.2] at h
      exact h5 x hxn (k.skipFlag x hx hxc (fun h => hdn (Or.inl h)) h)
    · exact q hxc
  · -- doneClear
    intro x hx hdn
    refine bool_ne fun hm => ?_
    obtain ⟨hxn, hm⟩ := h8 x hm
    have hdn : Dn x := hdn.resolve_right hxn
    rcases hm with hm | ⟨_, _, p, q1, q2, q3⟩
    · rw [hmod, k.doneClear x hx hdn] at hm; cases hm
    · exact (hE p x q1 q2).1 hdn
  · -- inRest
    intro x hx hm
    rcases (h8 x hm).2 with hm | ⟨_, _, p, q1, q2, q3⟩
    · exact k.inRest x hx hm
    · exact hR p x q1 q2 hx q3
  · -- fresh
    intro p
    by_cases hp : p ∈ π.outs n
    · left; rw [h1, h2]; simp [succeed, hp]
    · rw [hkn p hp, hco p hp]; exact k.fresh p
  · -- main
    intro hcl c hcn hcc
    by_cases hmc : d'.db.modify c = true
    · exact Or.inl hmc
    right
    by_cases hcn' : c = n
    · subst hcn'
      refine ⟨v, ⟨by rw [hr]; exact hpass, ?_, ?_⟩, ?_⟩
      · intro o ho; rw [hr, h2]; simp [succeed, ho]
      · intro p hp hpo; rw [hr] at hp; rw [h3]; simp [succeed, hp, hpo]
      · intro p hp hpo
        rw [hr] at hp
        rw [hkn p hpo]
        left
        by_cases hg : π.gen p = true
        · have hst := hpass.2.2 p hp hpo hg
          obtain ⟨e, he⟩ := gen_prod hg
          have hset : e ∉ rest ∨ Dn e := by
            by_cases her : e ∈ rest
            · right
              obtain ⟨q1, q2⟩ := ge.prodEdge ok he her
              exact env.preds2 p e ((ge.edge p c).2 (Or.inr (Or.inr ⟨q2, env.nRest, hc, hst⟩))) q1
            · exact Or.inl her
          constructor
          · rw [hview p (Or.inr hst)]
            rcases k.fresh p with h | ⟨e', q1, q2⟩
            · exact h.symm
            · have : e' = e := q1.eq ok he
              subst this
              rcases hset with h | h
              · exact absurd (env.flRest e' q2) h
              · exact absurd q2 (env.excl e' h)
          · intro e' he'
            have : e' = e := he'.eq ok he
            subst this
            exact hset.imp id Or.inl
        · have hg' := bool_ne hg
          constructor
          · rw [hview p (Or.inl hg')]
            rcases k.fresh p with h | ⟨e', q1, q2⟩
            · exact h.symm
            · exact absurd q1.gen hg
          · intro e he; exact absurd he.gen hg
    · rcases k.main hcl c hcn hcc with hm | ⟨u, ⟨a1, a2, a3⟩, hv⟩
      · exact absurd (h5 c hcn' hm) hmc
      · refine ⟨u, ⟨a1, ?_, ?_⟩, ?_⟩
        · intro o ho; rw [hkn o (outs_disjoint ok hcn hnn hcc hc hcn' ho)]; exact a2 o ho
        · intro p hp hpo; rw [hlk p c hcn']; exact a3 p hp hpo
        · intro p hp hpo
          by_cases hpn : p ∈ π.outs n
          · obtain ⟨o1, o2, o3, o4, o5⟩ := hout p hpn
            rcases hv p hp hpo with ⟨b1, b2⟩ | ⟨b1, b2, b3⟩
            · exact (b2 n (hprod p hpn)).elim (fun h => absurd env.nRest h) (fun h => absurd h env.nDn)
            · have hpout : p ∈ g.outs n := (env.outs p).2 o1
              have hcout : c ∈ g.outs p := (env.outs2 p o1 c).2 b1
              by_cases hs : (succeed π n d r).skip p = true
              · -- unchanged: nothing is lost
                have hs1 := skip1 p hs
                have hmp : d.db.modify p = false := bool_ne fun h => by
                  rw [k.flagSkip p o2 o4 h] at hs1; cases hs1
                simp only [succeed, hpn, if_true, Bool.and_eq_true, decide_eq_true_eq] at hs
                have hsame : d'.db.known p = d.db.known p := by
                  rw [h2, hfreshOut p hpn]; simp [succeed, hpn, hs.2]
                have hsome : d.db.known p ≠ none := by
                  rw [hfreshOut p hpn, hs.2]
                  intro hno
                  have := hpass.2.1 p hpn
                  rw [hno] at this; cases this
                right
                refine ⟨b1, b2, Or.inl ?_⟩
                rw [hsame]
                rcases b3 with b3 | b3 | ⟨e, e1, e2, e3⟩
                · exact b3
                · rw [hmp] at b3; cases b3
                · have : e = n := e1.eq ok (hprod p hpn)
                  subst this
                  rcases e3 with e3 | e3
                  · rw [hs.1.1.2] at e3; cases e3
                  · exact absurd e3 hsome
              · exact absurd ((h7 p hpout (bool_ne hs) c hcout b2 hcn').2 hcc) hmc
          · rw [hkn p hpn]
            rcases hv p hp hpo with ⟨b1, b2⟩ | ⟨b1, b2, b3⟩
            · exact Or.inl ⟨b1, fun e he => (b2 e he).imp id Or.inl⟩
            · refine Or.inr ⟨b1, b2, b3.imp id ?_⟩
              have hpc : π.isCmd p = false := (ok.readsIn c _ p hp).2
              rintro (hm | ⟨e, he1, he2, he3⟩)
              · exact Or.inl (h5 p (fun h => by rw [h, hc] at hpc; cases hpc) hm)
              · have hen : e ≠ n := fun h => hpn (h ▸ he1.2.2)
                exact Or.inr ⟨e, he1, h5 e hen he2, by rw [hkn p hpn]; exact he3⟩
  · -- keep
    intro x hx hm
    by_cases hxn : x = n
    · exact Or.inl (Or.inr hxn)
    · rcases k.keep x hx hm with h | h
      · exact Or.inl (Or.inl h)
      · exact Or.inr (h5 x hxn h)
  · intro x hx; exact k.skipMono x (skip1 x (h6 x hx))
  · -- same
    intro p
    by_cases hp : p ∈ π.outs n
    · exact Or.inr ⟨n, hprod p hp, by rw [hran]; simp⟩
    · rw [hco p hp, hran]
      exact (k.same p).imp id fun ⟨e, q1, q2⟩ => ⟨e, q1, List.mem_cons_of_mem _ q2⟩
  · intro e he
    rw [hran] at he
    rcases List.mem_cons.1 he with rfl | he
    · exact ⟨env.nRest, Or.inl (Or.inr rfl)⟩
    · exact ⟨(k.ranRest e he).1, (k.ranRest e he).2.imp Or.inl id⟩
  · -- ranIff
    intro c hcr hcc hdn
    rw [hran]
    by_cases hcn : c = n
    · subst hcn; exact Or.inl (by simp)
    · have hdn := hdn.resolve_right hcn
      rcases k.ranIff c hcr hcc hdn with h | ⟨q1, q2⟩
      · exact Or.inl (List.mem_cons_of_mem _ h)
      · refine Or.inr ⟨q1, fun p hpn hp => ⟨(q2 p hpn hp).1, ?_⟩⟩
        rw [hco p]
        · exact (q2 p hpn hp).2
        · intro hpo
          obtain ⟨o1, o2, o3, o4, o5⟩ := hout p hpo
          exact o4 (env.order p c ((ge.edge p c).2 (Or.inl ⟨o2, ge.nodes c hcr, hpn⟩)) hdn)
  · -- changed
    intro p hp hpc hdn hch
    refine bool_ne fun hs => ?_
    have hs1 := h6 p hs
    by_cases hpo : p ∈ π.outs n
    · rcases hch with hch | ⟨hch, _⟩
      · exact k.skipMono p (skip1 p hs1) (by simp [sched, ge.nodes p hp, hch])
      · simp only [succeed, hpo, if_true, Bool.and_eq_true, decide_eq_true_eq] at hs1
        apply hch
        rw [h1, ← hold p hpo, hs1.2]; simp [succeed, hpo]
    · rw [hco p hpo] at hch
      have := k.changed p hp hpc (fun h => hdn (Or.inl h)) hch
      rw [skip1 p hs1] at this; cases this
  · -- spread
    intro p hp hpc hdn hch c hnc hcn
    have hpn : p ≠ n := fun h => by rw [h, hc] at hpc; cases hpc
    have hdn := hdn.resolve_right hpn
    have hpo : p ∉ π.outs n := fun h => (hout p h).2.2.2.1 hdn
    rw [hco p hpo] at hch
    rw [hran]
    have hcc := normal_file ok hpc hnc
    by_cases hcn' : c = n
    · subst hcn'; exact Or.inl (by simp)
    · rcases k.spread p hp hpc hdn hch c hnc hcn with h | ⟨q1, q2⟩
      · exact Or.inl (List.mem_cons_of_mem _ h)
      · refine Or.inr ⟨fun h => q1 (h.resolve_right hcn'), bool_ne fun hs => ?_⟩
        rw [skip1 c (h6 c hs)] at q2; cases q2

/-- a command that ran and failed -/
theorem K.failed (ok : π.Ok) (ge : GE π w0.db rest E) (k : K π clean w0 rest E d Dn Fl)
    (env : Env rest E g Dn Fl n) (hc : π.isCmd n = true) (hsk : d.skip n = false)
    (hf : Fails π clean n d d') :
    K π clean w0 rest E d' Dn (fun x => Fl x ∨ x = n) := by
  obtain ⟨f1, f2, f3, f4, f5, f6, f7⟩ := hf
  have hnn : n ∈ π.nodes := ge.nodes n env.nRest
  have hprod : ∀ p ∈ π.outs n, Prod π n p := fun p hp => ⟨hnn, hc, hp⟩
  have hmn : d.db.modify n = true := k.skipFlag n env.nRest hc env.nDn hsk
  have hout : ∀ p ∈ π.outs n, (n, p) ∈ E ∧ p ∈ rest ∧ π.isCmd p = false ∧ ¬ Dn p ∧ p ≠ n := by
    intro p hp
    obtain ⟨q1, q2⟩ := ge.prodEdge ok (hprod p hp) env.nRest
    exact ⟨q1, q2, (ok.outsIn n hc p hp).2, (env.ahead p q1).1, (env.ahead p q1).2⟩
  have hfreshOut : ∀ p ∈ π.outs n, d.db.known p = d.content p := by
    intro p hp
    rcases k.fresh p with h | ⟨e, q1, q2⟩
    · exact h
    · have : e = n := q1.eq ok (hprod p hp)
      exact absurd (this ▸ q2) env.nFl
  refine ⟨?_, ?_, ?_, ?_, ?_, ?_, ?_, ?_, ?_, ?_, ?_, ?_, ?_⟩
  · intro x hx hdn hm
    rw [f5] at hm
    refine bool_ne fun hs => ?_
    have := f6 x hs
    rw [k.flagSkip x hx hdn hm] at this; cases this
  · intro x hx hxc hdn hs
    rw [f5]
    have hxo : x ∉ π.outs n := fun h => by rw [(hout x h).2.2.1] at hxc; cases hxc
    rw [(f1 x hxo).2.2] at hs
    exact k.skipFlag x hx hxc hdn hs
  · intro x hx hdn; rw [f5]; exact k.doneClear x hx hdn
  · intro x hx hm; rw [f5] at hm; exact k.inRest x hx hm
  · intro p
    by_cases hp : p ∈ π.outs n
    · exact Or.inr ⟨n, hprod p hp, Or.inr rfl⟩
    · rw [(f1 p hp).1, (f1 p hp).2.1]
      exact (k.fresh p).imp id fun ⟨e, q1, q2⟩ => ⟨e, q1, Or.inl q2⟩
  · -- main
    intro hcl c hcn hcc
    rw [f5]
    by_cases hcn' : c = n
    · subst hcn'; exact Or.inl hmn
    · rcases k.main hcl c hcn hcc with hm | ⟨u, ⟨a1, a2, a3⟩, hv⟩
      · exact Or.inl hm
      · refine Or.inr ⟨u, ⟨a1, ?_, ?_⟩, ?_⟩
        · intro o ho; rw [(f1 o (outs_disjoint ok hcn hnn hcc hc hcn' ho)).2.1]; exact a2 o ho
        · intro p hp hpo; rw [f4 p c hcn']; exact a3 p hp hpo
        · intro p hp hpo
          by_cases hpn : p ∈ π.outs n
          · rcases hv p hp hpo with ⟨b1, b2⟩ | ⟨b1, b2, b3⟩
            · exact (b2 n (hprod p hpn)).elim (fun h => absurd env.nRest h) (fun h => absurd h env.nDn)
            · refine Or.inr ⟨b1, b2, ?_⟩
              by_cases ho : π.optO n = true
              · -- known' is known or none
                have hk : d'.db.known p = d.db.known p ∨ d'.db.known p = none := by
                  rcases f2 p hpn with h | h
                  · exact Or.inl h
                  · rcases f3 ho p hpn with q | q | q
                    · left; rw [h, q, hfreshOut p hpn]
                    · right; rw [h, q]
                    · rw [hcl] at q; cases q.2
                rcases hk with hk | hk
                · rw [hk]
                  refine b3.imp id ?_
                  rintro (hm | ⟨e, he1, he2, he3⟩)
                  · exact Or.inl (by rw [f5]; exact hm)
                  · exact Or.inr ⟨e, he1, by rw [f5]; exact he2, by rw [hk]; exact he3⟩
                · exact Or.inr (Or.inr ⟨n, hprod p hpn, by rw [f5]; exact hmn, Or.inr hk⟩)
              · exact Or.inr (Or.inr ⟨n, hprod p hpn, by rw [f5]; exact hmn, Or.inl (bool_ne ho)⟩)
          · rw [(f1 p hpn).2.1]
            rcases hv p hp hpo with ⟨b1, b2⟩ | ⟨b1, b2, b3⟩
            · exact Or.inl ⟨b1, b2⟩
            · refine Or.inr ⟨b1, b2, b3.imp id ?_⟩
              rintro (hm | ⟨e, he1, he2, he3⟩)
              · exact Or.inl (by rw [f5]; exact hm)
              · exact Or.inr ⟨e, he1, by rw [f5]; exact he2, by rw [(f1 p hpn).2.1]; exact he3⟩
  · intro x hx hm; rw [f5]; exact k.keep x hx hm
  · intro x hx; exact k.skipMono x (f6 x hx)
  · intro p
    rw [f7]
    by_cases hp : p ∈ π.outs n
    · exact Or.inr ⟨n, hprod p hp, by simp⟩
    · rw [(f1 p hp).1]
      exact (k.same p).imp id fun ⟨e, q1, q2⟩ => ⟨e, q1, List.mem_cons_of_mem _ q2⟩
  · intro e he
    rw [f7] at he
    rcases List.mem_cons.1 he with rfl | he
    · exact ⟨env.nRest, Or.inr (Or.inr rfl)⟩
    · exact ⟨(k.ranRest e he).1, (k.ranRest e he).2.imp id Or.inl⟩
  · -- ranIff
    intro c hcr hcc hdn
    rw [f7]
    rcases k.ranIff c hcr hcc hdn with h | ⟨q1, q2⟩
    · exact Or.inl (List.mem_cons_of_mem _ h)
    · refine Or.inr ⟨q1, fun p hpn hp => ⟨(q2 p hpn hp).1, ?_⟩⟩
      rw [(f1 p ?_).1]
      · exact (q2 p hpn hp).2
      · intro hpo
        obtain ⟨o1, o2, o3, o4, o5⟩ := hout p hpo
        exact o4 (env.order p c ((ge.edge p c).2 (Or.inl ⟨o2, ge.nodes c hcr, hpn⟩)) hdn)
  · -- changed
    intro p hp hpc hdn hch
    refine bool_ne fun hs => ?_
    have hs1 := f6 p hs
    rcases hch with hch | ⟨hch, hnf⟩
    · exact k.skipMono p hs1 (by simp [sched, ge.nodes p hp, hch])
    · by_cases hpo : p ∈ π.outs n
      · exact hnf n (hprod p hpo) (Or.inr rfl)
      · rw [(f1 p hpo).1] at hch
        have := k.changed p hp hpc hdn (Or.inr ⟨hch, fun e he h => hnf e he (Or.inl h)⟩)
        rw [hs1] at this; cases this
  · -- spread
    intro p hp hpc hdn hch c hnc hcn
    have hpo : p ∉ π.outs n := fun h => (hout p h).2.2.2.1 hdn
    rw [(f1 p hpo).1] at hch
    rw [f7]
    by_cases hcn' : c = n
    · subst hcn'; exact Or.inl (by simp)
    · have hcc := normal_file ok hpc hnc
      have hco : c ∉ π.outs n := fun h => by rw [(hout c h).2.2.1] at hcc; cases hcc
      rcases k.spread p hp hpc hdn hch c hnc hcn with h | ⟨q1, q2⟩
      · exact Or.inl (List.mem_cons_of_mem _ h)
      · exact Or.inr ⟨q1, by rw [(f1 c hco).2.2]; exact q2⟩

end Tup.Update
