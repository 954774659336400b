import Verif.DoRule.Run

/-! An output that another command writes has to be available. -/

namespace Tup.DoRule

open Tup.Db Tup.Links

variable {db db' : Db} {excl : Nat}

theorem create_select {d : Nat} {name : Str} {kind : Kind} {src : Option Nat} {trans : Bool} {i : Nat} {n : Node} (hs : Sound db) (hk : kind ≠ .dir)
    (h : create db d name kind src trans = some (db', i)) (hn : db.node i = some n) : db.select d name = some i := by
  rcases create_cases hk h with ⟨_, e⟩ | ⟨e, _⟩ | ⟨e, _⟩
  · have := insert_fresh hs { dir := d, kind := kind, name := name, src := src, transient := trans }
    rw [e] at this
    rw [this] at hn; cases hn
  · exact e
  · exact e

theorem validate_avail {p : Parse} {d : Nat} {name : Str} {i c : Nat} {n : Node} (hs : Sound db) (h : validate p db d name = true)
    (hsel : db.select d name = some i) (hn : db.node i = some n) (hc : db.normal c i = true) : available p n.src c = true := by
  unfold validate at h
  simp only [hsel, hn] at h
  split at h
  · split at h
    · cases h
    · rename_i hi
      rw [incoming_none hs hi c] at hc; cases hc
    · rename_i c' hi
      rw [(incoming_some hs hi c).1 hc]
      exact h
  · cases h

theorem addOuts_avail {p : Parse} {r : Spec} {db0 : Db} : ∀ {l : List Out} {s s' : Outs}, (∀ o ∈ l, OutOk excl o) → OutsInv db0 excl r s →
    addOuts excl p r l s = some s' → ∀ b m c, b ∈ s'.outputs → b ∉ s.outputs → db0.node b = some m → m.kind = .generated → db0.isKind .cmd c = true →
    db0.normal c b = true → available p m.src c = true
  | [], s, s', _, _, ha => by
    cases ha
    exact fun b m c h1 h2 => absurd h1 h2
  | o :: l, s, s', ho, h, ha => by
    unfold addOuts at ha
    split at ha
    · cases ha
    rename_i s1 h1
    have i1 := addOut_inv (ho o List.mem_cons_self) h h1
    have ih := addOuts_avail (fun o' h' => ho o' (List.mem_cons_of_mem _ h')) i1 ha
    intro b m c hb hbs hm hk hc hn
    by_cases hb1 : b ∈ s1.outputs
    · cases o with
      | file d path src =>
        simp only [addOut, addFile_eq] at h1
        split at h1
        · cases h1
        split at h1
        · cases h1
        split at h1
        · cases h1
        rename_i hval
        split at h1
        · cases h1
        rename_i db' i hcr
        split at h1
        · cases h1
        cases h1
        rcases List.mem_append.1 hb1 with hb1 | hb1
        · exact absurd hb1 hbs
        · simp only [List.mem_singleton] at hb1
          subst hb1
          obtain ⟨q, e1, _, _, _, e2⟩ := h.keep b m hm
          obtain ⟨nc, k1, k2⟩ := isKind_iff.1 hc
          rw [← e2 hk hbs]
          refine validate_avail h.sound (by simpa using hval) (create_select h.sound (by decide) hcr e1) e1 ?_
          rw [h.links c b nc m k1 hm (by rw [k2]; decide) (by rw [hk]; decide)]
          exact hn
      | exclusion pat =>
        simp only [addOut, addExclusion] at h1
        repeat' split at h1
        all_goals first | cases h1 | skip
        exact absurd hb1 hbs
      | group d name =>
        simp only [addOut, addGroup] at h1
        repeat' split at h1
        all_goals first | cases h1 | skip
        exact absurd hb1 hbs
    · exact ih b m c hb hb1 hm hk hc hn

end Tup.DoRule
