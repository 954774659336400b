import Verif.Links.OutSpec
import Verif.Links.OutputsLemmas

/-! The loop over the written files, and the comparison with the outputs. -/

namespace Tup.Links

open Tup.Db

/-- What holds in the loop.  `W`: the entries that have been dealt with. -/
structure LoopInv (all : List Written) (db0 : Db) (maps0 : List Map) (doUnlink : Bool) (W : Written → Prop) (s : Out) : Prop where
  look : ∀ w ∈ all, Counts w → nodeOf s.db w = nodeOf db0 w
  node : ∀ i, Wrote db0 all i → s.db.node i = db0.node i
  excl : Excludable s.db all
  normal : s.db.normal = db0.normal
  modify : ∀ j, db0.modify j = true → s.db.modify j = true
  bounded : Bounded s.db
  unique : Unique s.db
  asc : Asc s.root
  root : ∀ i, i ∈ s.root ↔ ∃ w, W w ∧ Counts w ∧ nodeOf db0 w = some i
  bork : s.bork = true ↔ ∃ w, W w ∧ Counts w ∧ nodeOf db0 w = none
  acts : ∀ a, a ∈ s.acts ↔ doUnlink = true ∧ ∃ w, W w ∧ Counts w ∧ nodeOf db0 w = none ∧ a = .unlink w.path
  names : (s.maps.map (·.real)).Nodup
  set : ∀ m ∈ s.maps, ∀ i, m.node = some i → ∃ w, W w ∧ Counts w ∧ w.path = m.real ∧ nodeOf db0 w = some i
  unset : ∀ m ∈ s.maps, m.node = none → m ∈ maps0 ∧ ∀ w, W w → Counts w → w.path ≠ m.real
  has : ∀ w, W w → Counts w → ∀ i, nodeOf db0 w = some i → ∃ m ∈ s.maps, m.real = w.path
  origin : ∀ m ∈ s.maps, m.tmp = m.real ∨ ∃ m0 ∈ maps0, m0.tmp = m.tmp ∧ m0.real = m.real
  keep : ∀ m0 ∈ maps0, (∀ w, W w → Counts w → nodeOf db0 w = none → w.path ≠ m0.real) → ∃ m ∈ s.maps, m.real = m0.real ∧ m.tmp = m0.tmp

theorem LoopInv.congr {all : List Written} {db0 : Db} {maps0 : List Map} {u : Bool} {W W' : Written → Prop} {s : Out}
    (h : LoopInv all db0 maps0 u W s) (hw : ∀ w, Counts w → (W w ↔ W' w)) : LoopInv all db0 maps0 u W' s := by
  have hex : ∀ P : Written → Prop, (∃ w, W w ∧ Counts w ∧ P w) ↔ ∃ w, W' w ∧ Counts w ∧ P w := by
    intro P
    constructor
    · rintro ⟨w, h1, h2, h3⟩; exact ⟨w, (hw w h2).1 h1, h2, h3⟩
    · rintro ⟨w, h1, h2, h3⟩; exact ⟨w, (hw w h2).2 h1, h2, h3⟩
  refine { h with root := ?_, bork := ?_, acts := ?_, set := ?_, unset := ?_, has := ?_, keep := fun m0 hm0 hno => h.keep m0 hm0 fun w h1 h2 => hno w ((hw w h2).1 h1) h2 }
  · intro i; rw [h.root, hex]
  · rw [h.bork, hex]
  · intro a; rw [h.acts, hex]
  · intro m hm i hi
    exact (hex _).1 (h.set m hm i hi)
  · intro m hm hn
    obtain ⟨h1, h2⟩ := h.unset m hm hn
    exact ⟨h1, fun w h3 h4 => h2 w ((hw w h4).2 h3) h4⟩
  · intro w h3 h4
    exact h.has w ((hw w h4).2 h3) h4

theorem mem_otherPaths {path : Str} {l : List Written} {w : Written} : w ∈ otherPaths path l ↔ w ∈ l ∧ w.path ≠ path := by
  simp [otherPaths]

/-- The excluded file does not disturb the invariant. -/
theorem LoopInv.ignored {all : List Written} {db0 : Db} {maps0 : List Map} {u : Bool} {W : Written → Prop} {s : Out}
    (h : LoopInv all db0 maps0 u W s) (hp : Paths all) {w : Written} (hw : w ∈ all) (he : w.excluded = true) {d : Nat} (hd : w.dir = some d)
    {db' : Db} (hg : Grown d w.name s.db db') (hkind : ∀ i n, db'.node i = some n → n.dir = d → n.name = w.name →
      n.kind = .ghost ∨ (w.outside = false ∧ n.kind = .file)) :
    LoopInv all db0 maps0 u W { s with db := db' } := by
  have hlook : ∀ w' ∈ all, Counts w' → nodeOf db' w' = nodeOf s.db w' := by
    intro w' hw' hc
    unfold nodeOf
    cases hd' : w'.dir with
    | none => rfl
    | some d' =>
      refine hg.select h.bounded h.unique ?_
      rintro ⟨rfl, hn⟩
      have : w = w' := hp.other w hw w' hw' (by rw [hd]; rfl) (by rw [hd, hd']) hn.symm
      subst this
      rw [hc.2] at he
      cases he
  refine { h with look := ?_, node := ?_, excl := ?_, normal := ?_, modify := ?_, bounded := hg.bounded, unique := hg.unique }
  · intro w' hw' hc
    show nodeOf db' w' = _
    rw [hlook w' hw' hc, h.look w' hw' hc]
  · intro i hi
    obtain ⟨w', hw', hc, hno⟩ := hi
    rw [← h.node i ⟨w', hw', hc, hno⟩]
    rw [← h.look w' hw' hc] at hno
    unfold nodeOf at hno
    cases hd' : w'.dir with
    | none => rw [hd'] at hno; cases hno
    | some d' =>
      rw [hd'] at hno
      obtain ⟨n, h1, h2, h3⟩ := select_some hno
      rw [h1]
      refine hg.keep i n h1 ?_
      rintro ⟨k1, k2⟩
      have : w = w' := hp.other w hw w' hw' (by rw [hd]; rfl) (by rw [hd, hd', ← h2, k1]) (by rw [← h3, k2])
      subst this
      rw [hc.2] at he
      cases he
  · intro w' hw' he' hh d' hd' i n hs hn
    by_cases hdn : d' = d ∧ w'.name = w.name
    · have : w = w' := hp.other w hw w' hw' (by rw [hd]; rfl) (by rw [hd, hd', hdn.1]) hdn.2.symm
      subst this
      obtain ⟨m, k1, k2, k3⟩ := select_some hs
      have hs' : db'.node i = some n := hn
      rw [k1] at hs'
      cases hs'
      exact hkind i _ k1 (by rw [k2, hdn.1]) k3
    · have hs' : db'.select d' w'.name = some i := hs
      rw [hg.select h.bounded h.unique hdn] at hs'
      obtain ⟨m, k1, k2, k3⟩ := select_some hs'
      have := hg.keep i m k1 (by rw [k2, k3]; exact hdn)
      have hn' : db'.node i = some n := hn
      rw [this] at hn'
      cases hn'
      exact h.excl w' hw' he' hh d' hd' i _ hs' k1
  · show db'.normal = _
    rw [hg.normal, h.normal]
  · intro j hj
    exact hg.modify j (h.modify j hj)

theorem writeLoop_spec {sort : List (Nat × Kind) → List (Nat × Kind)} {fuel : Nat} (hf : 0 < fuel) {all : List Written} (hp : Paths all)
    {db0 : Db} {maps0 : List Map} {u : Bool} :
    ∀ (k : Nat) (l : List Written) (W : Written → Prop) (s : Out), l.length ≤ k → (∀ w ∈ l, w ∈ all) → (∀ w, W w → w ∈ all) →
      LoopInv all db0 maps0 u W s →
      ∃ s', writeLoop sort fuel u l s = some s' ∧ LoopInv all db0 maps0 u (fun w => w ∈ l ∨ W w) s' := by
  intro k
  induction k with
  | zero =>
    intro l W s hl _ _ h
    have : l = [] := List.length_eq_zero_iff.1 (by omega)
    subst this
    rw [writeLoop]
    exact ⟨s, rfl, h.congr fun w _ => by simp⟩
  | succ k ih =>
    intro l W s hl hin hW h
    cases l with
    | nil =>
      rw [writeLoop]
      exact ⟨s, rfl, h.congr fun w _ => by simp⟩
    | cons w l =>
      have hwa : w ∈ all := hin w List.mem_cons_self
      have hla : ∀ x ∈ l, x ∈ all := fun x hx => hin x (List.mem_cons_of_mem _ hx)
      have hll : l.length ≤ k := by simp only [List.length_cons] at hl; omega
      rw [writeLoop]
      by_cases hh : w.hidden = true
      · rw [if_pos hh]
        obtain ⟨s', h1, h2⟩ := ih l W s hll hla hW h
        refine ⟨s', h1, h2.congr fun x hx => ?_⟩
        simp only [List.mem_cons]
        constructor
        · rintro (h | h)
          · exact .inl (.inr h)
          · exact .inr h
        · rintro ((h | h) | h)
          · subst h; rw [hx.1] at hh; cases hh
          · exact .inl h
          · exact .inr h
      · rw [if_neg hh]
        by_cases he : w.excluded = true
        · rw [if_pos he]
          have hx : ∃ db', createIgnored sort fuel s.db w = some db' ∧ LoopInv all db0 maps0 u W { s with db := db' } := by
            cases hd : w.dir with
            | none =>
              refine ⟨s.db, ?_, h⟩
              unfold createIgnored
              rw [hd]
            | some d =>
              obtain ⟨db', h1, h2, h3⟩ := createIgnored_spec (sort := sort) hf h.bounded h.unique hd
                (h.excl w hwa he (by simpa using hh) d hd)
              exact ⟨db', h1, h.ignored hp hwa he hd h2 h3⟩
          obtain ⟨db', h1, h2⟩ := hx
          rw [h1]
          obtain ⟨s', h3, h4⟩ := ih l W { s with db := db' } hll hla hW h2
          refine ⟨s', h3, h4.congr fun x hx => ?_⟩
          simp only [List.mem_cons]
          constructor
          · rintro (h | h)
            · exact .inl (.inr h)
            · exact .inr h
          · rintro ((h | h) | h)
            · subst h; rw [hx.2] at he; cases he
            · exact .inl h
            · exact .inr h
        · rw [if_neg he]
          have hc : Counts w := ⟨by simpa using hh, by simpa using he⟩
          have hol : (otherPaths w.path l).length ≤ k := Nat.le_trans (List.length_filter_le _ _) hll
          have hoa : ∀ x ∈ otherPaths w.path l, x ∈ all := fun x hx => hla x (mem_otherPaths.1 hx).1
          have hW' : ∀ x, (x = w ∨ W x) → x ∈ all := by
            rintro x (rfl | hx)
            · exact hwa
            · exact hW x hx
          have hfin : ∀ x, Counts x → ((x ∈ otherPaths w.path l ∨ (x = w ∨ W x)) ↔ (x ∈ w :: l ∨ W x)) := by
            intro x _
            simp only [mem_otherPaths, List.mem_cons]
            constructor
            · rintro (h | h | h)
              · exact .inl (.inr h.1)
              · exact .inl (.inl h)
              · exact .inr h
            · rintro ((h | h) | h)
              · exact .inr (.inl h)
              · by_cases hpx : x.path = w.path
                · exact .inr (.inl (hp.same x (hla x h) w hwa hpx))
                · exact .inl ⟨h, hpx⟩
              · exact .inr (.inr h)
          have hpath : ∀ x, W x → x.path = w.path → x = w := fun x hx hxp => hp.same x (hW x hx) w hwa hxp
          rw [h.look w hwa hc]
          have one : ∀ P : Written → Prop, (∃ x, (x = w ∨ W x) ∧ Counts x ∧ P x) ↔ P w ∨ ∃ x, W x ∧ Counts x ∧ P x := by
            intro P
            constructor
            · rintro ⟨x, rfl | hx, h2, h3⟩
              · exact .inl h3
              · exact .inr ⟨x, hx, h2, h3⟩
            · rintro (h3 | ⟨x, hx, h2, h3⟩)
              · exact ⟨w, .inl rfl, hc, h3⟩
              · exact ⟨x, .inr hx, h2, h3⟩
          cases hn : nodeOf db0 w with
          | none =>
            simp only
            have hinv : LoopInv all db0 maps0 u (fun x => x = w ∨ W x)
                { s with bork := true, acts := (if u = true then s.acts ++ [.unlink w.path] else s.acts), maps := dropMap (fun m => decide (m.real = w.path)) s.maps } := by
              have hkeep : ∀ m0 ∈ maps0, (∀ x, (x = w ∨ W x) → Counts x → nodeOf db0 x = none → x.path ≠ m0.real) →
                  ∃ m ∈ dropMap (fun m => decide (m.real = w.path)) s.maps, m.real = m0.real ∧ m.tmp = m0.tmp := by
                intro m0 hm0 hno
                obtain ⟨m, k1, k2, k3⟩ := h.keep m0 hm0 fun x hx => hno x (.inr hx)
                refine ⟨m, mem_dropMap' k1 ?_, k2, k3⟩
                simp only [decide_eq_false_iff_not]
                intro hmw
                exact hno w (.inl rfl) hc hn (by rw [← hmw, k2])
              refine { h with root := ?_, bork := ?_, acts := ?_, names := ?_, set := ?_, unset := ?_, has := ?_, origin := fun m hm => h.origin m (mem_dropMap hm), keep := hkeep }
              · intro i
                rw [one]
                show i ∈ s.root ↔ _
                rw [h.root, hn]
                simp
              · rw [one]
                simp [hn]
              · intro a
                rw [one]
                show a ∈ (if u = true then s.acts ++ [Act.unlink w.path] else s.acts) ↔ _
                cases u with
                | true =>
                  simp only [if_true, List.mem_append, List.mem_singleton, h.acts, true_and, hn]
                  exact ⟨fun h => h.symm, fun h => h.symm⟩
                | false => simp [h.acts]
              · exact h.names.sublist (dropMap_sub.map _)
              · intro m hm i hi
                obtain ⟨x, k1, k2⟩ := h.set m (mem_dropMap hm) i hi
                exact ⟨x, .inr k1, k2⟩
              · intro m hm hi
                obtain ⟨k1, k2⟩ := h.unset m (mem_dropMap hm) hi
                refine ⟨k1, ?_⟩
                rintro x (rfl | hx) hcx
                · have := dropMap_none (p := fun m => decide (m.real = x.path)) ?_ hm
                  · simp only [decide_eq_false_iff_not] at this
                    exact fun h => this h.symm
                  · have hnn := h.names
                    rw [List.Nodup, List.pairwise_map] at hnn
                    refine hnn.imp ?_
                    intro a b hab hboth
                    simp only [decide_eq_true_eq] at hboth
                    exact hab (hboth.1.trans hboth.2.symm)
                · exact k2 x hx hcx
              · rintro x (rfl | hx) hcx i hi
                · rw [hn] at hi; cases hi
                · obtain ⟨m, k1, k2⟩ := h.has x hx hcx i hi
                  refine ⟨m, mem_dropMap' k1 ?_, k2⟩
                  simp only [decide_eq_false_iff_not]
                  intro hmw
                  have := hpath x hx (by rw [← k2, hmw])
                  subst this
                  rw [hn] at hi; cases hi
            obtain ⟨s', h3, h4⟩ := ih _ _ _ hol hoa hW' hinv
            exact ⟨s', h3, h4.congr hfin⟩
          | some i =>
            simp only
            have hinv : LoopInv all db0 maps0 u (fun x => x = w ∨ W x)
                { s with root := addId i s.root, maps := setMap w.path i s.maps } := by
              have horg : ∀ m ∈ setMap w.path i s.maps, m.tmp = m.real ∨ ∃ m0 ∈ maps0, m0.tmp = m.tmp ∧ m0.real = m.real := by
                intro m hm
                rcases setMap_origin hm with k | ⟨m1, k1, k2, k3⟩
                · exact .inl k
                · rw [← k2, ← k3]; exact h.origin m1 k1
              have hkeep : ∀ m0 ∈ maps0, (∀ x, (x = w ∨ W x) → Counts x → nodeOf db0 x = none → x.path ≠ m0.real) →
                  ∃ m ∈ setMap w.path i s.maps, m.real = m0.real ∧ m.tmp = m0.tmp := by
                intro m0 hm0 hno
                obtain ⟨m, k1, k2, k3⟩ := h.keep m0 hm0 fun x hx => hno x (.inr hx)
                obtain ⟨m', k4, k5, k6⟩ := setMap_tmp (path := w.path) (i := i) k1
                exact ⟨m', k4, k5.trans k2, k6.trans k3⟩
              refine { h with asc := asc_addId h.asc, root := ?_, bork := ?_, acts := ?_, names := ?_, set := ?_, unset := ?_, has := ?_, origin := horg, keep := hkeep }
              · intro j
                rw [one]
                show j ∈ addId i s.root ↔ _
                rw [mem_addId, h.root, hn]
                simp only [Option.some.injEq]
                exact ⟨fun h => h.imp (·.symm) id, fun h => h.imp (·.symm) id⟩
              · rw [one]
                show s.bork = true ↔ _
                rw [h.bork]
                simp [hn]
              · intro a
                rw [one]
                show a ∈ s.acts ↔ _
                rw [h.acts]
                simp [hn]
              · exact setMap_reals h.names
              · intro m hm j hj
                rcases mem_setMap hm with ⟨k1, k2⟩ | ⟨k1, k2⟩
                · rw [k2] at hj; cases hj
                  exact ⟨w, .inl rfl, hc, k1.symm, hn⟩
                · obtain ⟨x, k3, k4⟩ := h.set m k2 j hj
                  exact ⟨x, .inr k3, k4⟩
              · intro m hm hj
                rcases mem_setMap hm with ⟨k1, k2⟩ | ⟨k1, k2⟩
                · rw [k2] at hj; cases hj
                · obtain ⟨k3, k4⟩ := h.unset m k2 hj
                  refine ⟨k3, ?_⟩
                  rintro x (rfl | hx) hcx
                  · exact fun h => k1 h.symm
                  · exact k4 x hx hcx
              · rintro x (rfl | hx) hcx j hj
                · obtain ⟨m, k1, k2, _⟩ := setMap_has x.path i s.maps
                  exact ⟨m, k1, k2⟩
                · obtain ⟨m, k1, k2⟩ := h.has x hx hcx j hj
                  obtain ⟨m', k3, k4⟩ := setMap_keeps (path := w.path) (i := i) k1
                  exact ⟨m', k3, k4.trans k2⟩
            obtain ⟨s', h3, h4⟩ := ih _ _ _ hol hoa hW' hinv
            exact ⟨s', h3, h4.congr hfin⟩

theorem loop_start {all : List Written} {db0 : Db} {maps0 : List Map} (u : Bool) (hb : Bounded db0) (hu : Unique db0)
    (he : Excludable db0 all) (hm : Mapped maps0) :
    LoopInv all db0 maps0 u (fun _ => False) ⟨db0, maps0, [], false, []⟩ where
  look _ _ _ := rfl
  node _ _ := rfl
  excl := he
  normal := rfl
  modify _ h := h
  bounded := hb
  unique := hu
  asc := List.Pairwise.nil
  root i := by simp
  bork := by simp
  acts a := by simp
  names := hm.names
  set m h i hi := by rw [hm.fresh m h] at hi; cases hi
  unset m h _ := ⟨h, fun _ h => h.elim⟩
  has _ h := h.elim
  origin m h := .inr ⟨m, h, rfl, rfl⟩
  keep m h _ := ⟨m, h, rfl, rfl⟩

/-- Different temporary files belong to different nodes. -/
theorem LoopInv.distinct {all : List Written} {db0 : Db} {maps0 : List Map} {u : Bool} {W : Written → Prop} {s : Out}
    (h : LoopInv all db0 maps0 u W s) (hp : Paths all) (hW : ∀ w, W w → w ∈ all) (i : Nat) :
    s.maps.Pairwise fun a b => ¬ (decide (a.node = some i) = true ∧ decide (b.node = some i) = true) := by
  have hnn := h.names
  rw [List.Nodup, List.pairwise_map] at hnn
  refine hnn.imp_of_mem ?_
  intro a b ha hb hab hboth
  simp only [decide_eq_true_eq] at hboth
  obtain ⟨w, k1, k2, k3, k4⟩ := h.set a ha i hboth.1
  obtain ⟨w', l1, l2, l3, l4⟩ := h.set b hb i hboth.2
  refine hab ?_
  rw [← k3, ← l3]
  unfold nodeOf at k4 l4
  cases hd : w.dir with
  | none => rw [hd] at k4; cases k4
  | some d =>
    cases hd' : w'.dir with
    | none => rw [hd'] at l4; cases l4
    | some d' =>
      rw [hd] at k4
      rw [hd'] at l4
      obtain ⟨n, e1, e2, e3⟩ := select_some k4
      obtain ⟨n', f1, f2, f3⟩ := select_some l4
      rw [e1] at f1
      cases f1
      rw [hp.other w (hW w k1) w' (hW w' l1) (by rw [hd]; rfl) (by rw [hd, hd', ← e2, ← f2]) (by rw [← e3, ← f3])]

/-- What holds while the written files are compared with the outputs. -/
structure CmpInv (u success : Bool) (s0 : Out) (D : Ev → Prop) (s : Out) : Prop where
  node : s.db.node = s0.db.node
  normal : s.db.normal = s0.db.normal
  modify : ∀ j, s.db.modify j = true ↔ s0.db.modify j = true ∨
    (u = true ∧ ∃ i, D (.left i) ∧ s0.db.isKind .generated i = true ∧ s0.db.normal j i = true)
  bork : s.bork = true ↔ s0.bork = true ∨ (∃ i, D (.left i)) ∨ (success = true ∧ ∃ i, D (.right i))
  acts : ∀ a, a ∈ s.acts ↔ a ∈ s0.acts ∨
    (u = true ∧ ∃ i, D (.left i) ∧ s0.db.isKind .ghost i = true ∧ a = .deleteFile i)
  sub : s.maps.Sublist s0.maps
  gone : ∀ m ∈ s.maps, ∀ i, D (.left i) → m.node ≠ some i
  kept : ∀ m ∈ s0.maps, (∀ i, m.node = some i → ¬ D (.left i)) → m ∈ s.maps

theorem ghost_not_generated {db : Db} {i : Nat} (h : db.isKind .ghost i = true) : db.isKind .generated i = false := by
  obtain ⟨n, h1, h2⟩ := isKind_iff.1 h
  cases hg : db.isKind .generated i with
  | false => rfl
  | true =>
    obtain ⟨m, h3, h4⟩ := isKind_iff.1 hg
    rw [h1] at h3
    cases h3
    rw [h2] at h4
    cases h4

theorem cmp_extra {u success : Bool} {s0 s s' : Out} {D : Ev → Prop} {i : Nat}
    (hpair : ∀ i, s0.maps.Pairwise fun a b => ¬ (decide (a.node = some i) = true ∧ decide (b.node = some i) = true))
    (h : CmpInv u success s0 D s) (hs : extraOutput u s i = some s') :
    CmpInv u success s0 (fun x => x = .left i ∨ D x) s' := by
  have hk : ∀ k x, s.db.isKind k x = s0.db.isKind k x := fun k x => isKind_congr (by rw [h.node]) k
  have hgone : ∀ m ∈ dropMap (fun m => decide (m.node = some i)) s.maps, ∀ j, (Ev.left j = Ev.left i ∨ D (.left j)) → m.node ≠ some j := by
    rintro m hm j (hj | hj)
    · cases hj
      have := dropMap_none ((hpair i).sublist h.sub) hm
      simpa using this
    · exact h.gone m (mem_dropMap hm) j hj
  have hkept : ∀ m ∈ s0.maps, (∀ j, m.node = some j → ¬ (Ev.left j = Ev.left i ∨ D (.left j))) →
      m ∈ dropMap (fun m => decide (m.node = some i)) s.maps := by
    intro m hm hno
    refine mem_dropMap' (h.kept m hm fun j hj hd => hno j hj (.inr hd)) ?_
    simp only [decide_eq_false_iff_not]
    exact fun hc => hno i hc (.inl rfl)
  have exl : ∀ P : Nat → Prop, (∃ j, (Ev.left j = Ev.left i ∨ D (.left j)) ∧ P j) ↔ P i ∨ ∃ j, D (.left j) ∧ P j := by
    intro P
    constructor
    · rintro ⟨j, hj | hj, hP⟩
      · cases hj; exact .inl hP
      · exact .inr ⟨j, hj, hP⟩
    · rintro (hP | ⟨j, hj, hP⟩)
      · exact ⟨i, .inl rfl, hP⟩
      · exact ⟨j, .inr hj, hP⟩
  have hbork : true = true ↔ s0.bork = true ∨ (∃ j, (Ev.left j = Ev.left i ∨ D (.left j))) ∨
      (success = true ∧ ∃ j, (Ev.right j = Ev.left i ∨ D (.right j))) :=
    ⟨fun _ => .inr (.inl ⟨i, .inl rfl⟩), fun _ => rfl⟩
  unfold extraOutput at hs
  simp only [Option.some.injEq] at hs
  subst hs
  cases u with
  | false =>
    simp only [Bool.false_eq_true, if_false]
    exact ⟨h.node, h.normal, fun j => by simp [h.modify], hbork, fun a => by simp [h.acts], dropMap_sub.trans h.sub, hgone, hkept⟩
  | true =>
    simp only [if_true]
    by_cases hg : s.db.isKind .ghost i = true
    · rw [if_pos hg]
      have hg0 : s0.db.isKind .ghost i = true := by rw [← hk]; exact hg
      refine ⟨h.node, h.normal, fun j => ?_, hbork, fun a => ?_, dropMap_sub.trans h.sub, hgone, hkept⟩
      · rw [exl]
        show s.db.modify j = true ↔ _
        rw [h.modify, ghost_not_generated hg0]
        simp
      · rw [exl]
        simp only [List.mem_append, List.mem_singleton, h.acts, hg0, true_and]
        grind
    · rw [if_neg hg]
      have hg0 : ¬ s0.db.isKind .ghost i = true := by rw [← hk]; exact hg
      by_cases hgen : s.db.isKind .generated i = true
      · rw [if_pos hgen]
        have hgen0 : s0.db.isKind .generated i = true := by rw [← hk]; exact hgen
        refine ⟨h.node, h.normal, fun j => ?_, hbork, fun a => ?_, dropMap_sub.trans h.sub, hgone, hkept⟩
        · rw [exl]
          show (s.db.modify j || s.db.normal j i) = true ↔ _
          simp only [Bool.or_eq_true, h.modify, h.normal, hgen0, true_and]
          grind
        · rw [exl]
          show a ∈ s.acts ↔ _
          rw [h.acts]
          simp [hg0]
      · rw [if_neg hgen]
        have hgen0 : ¬ s0.db.isKind .generated i = true := by rw [← hk]; exact hgen
        refine ⟨h.node, h.normal, fun j => ?_, hbork, fun a => ?_, dropMap_sub.trans h.sub, hgone, hkept⟩
        · rw [exl]
          show s.db.modify j = true ↔ _
          rw [h.modify]
          simp [hgen0]
        · rw [exl]
          show a ∈ s.acts ↔ _
          rw [h.acts]
          simp [hg0]

theorem cmp_missing {u success : Bool} {s0 s s' : Out} {D : Ev → Prop} {i : Nat}
    (h : CmpInv u success s0 D s) (hs : missingOutput success s i = some s') :
    CmpInv u success s0 (fun x => x = .right i ∨ D x) s' := by
  unfold missingOutput at hs
  simp only [Option.some.injEq] at hs
  subst hs
  cases success with
  | true =>
    simp only [if_true]
    refine ⟨h.node, h.normal, fun j => by simp [h.modify], ?_, fun a => by simp [h.acts], h.sub, ?_, ?_⟩
    · simp only [true_and, true_iff]
      exact .inr (.inr ⟨i, .inl rfl⟩)
    · rintro m hm j (hj | hj)
      · cases hj
      · exact h.gone m hm j hj
    · intro m hm hno
      exact h.kept m hm fun j hj hd => hno j hj (.inr hd)
  | false =>
    simp only [Bool.false_eq_true, if_false]
    refine ⟨h.node, h.normal, fun j => by simp [h.modify], ?_, fun a => by simp [h.acts], h.sub, ?_, ?_⟩
    · rw [h.bork]; simp
    · rintro m hm j (hj | hj)
      · cases hj
      · exact h.gone m hm j hj
    · intro m hm hno
      exact h.kept m hm fun j hj hd => hno j hj (.inr hd)

theorem cmp_spec {u success : Bool} {s0 : Out} {outputs : List Nat} (ha : Asc s0.root) (hb : Asc outputs)
    (hpair : ∀ i, s0.maps.Pairwise fun a b => ¬ (decide (a.node = some i) = true ∧ decide (b.node = some i) = true)) :
    ∃ s, compare (extraOutput u) (missingOutput success) s0.root outputs s0 = some s ∧
      CmpInv u success s0 (fun x => x ∈ diff s0.root outputs) s := by
  refine compare_total ha hb (CmpInv u success s0) ?_ ?_
  · refine ⟨rfl, rfl, fun j => by simp, by simp, fun a => by simp, List.Sublist.refl _, ?_, fun m hm _ => hm⟩
    intro m _ i h
    exact h.elim
  · intro D e s _ _ h
    cases e with
    | left a => exact ⟨_, rfl, cmp_extra hpair h rfl⟩
    | right b => exact ⟨_, rfl, cmp_missing h rfl⟩

theorem move_spec {moved : Str → Bool} {stat : Str → Option (Int × Int)} :
    ∀ (l : List Map) (s : Out), (∀ m ∈ l, m.node.isSome → (stat m.real).isSome) →
      ∃ s', moveMaps moved stat l s = some s' ∧ s'.db.modify = s.db.modify ∧
        (s'.bork = true ↔ s.bork = true ∨ ∃ m ∈ l, m.tmp ≠ m.real ∧ moved m.real = false) ∧
        (∀ a, a ∈ s'.acts ↔ a ∈ s.acts ∨ ∃ m ∈ l, m.tmp ≠ m.real ∧ a = .rename m.tmp m.real) := by
  intro l
  induction l with
  | nil => intro s _; exact ⟨s, rfl, rfl, by simp, fun a => by simp⟩
  | cons m l ih =>
    intro s hst
    have hl : ∀ m ∈ l, m.node.isSome → (stat m.real).isSome := fun x hx => hst x (List.mem_cons_of_mem _ hx)
    have key : ∀ s1 : Out, s1.db.modify = s.db.modify →
        (s1.bork = true ↔ s.bork = true ∨ (m.tmp ≠ m.real ∧ moved m.real = false)) →
        (∀ a, a ∈ s1.acts ↔ a ∈ s.acts ∨ (m.tmp ≠ m.real ∧ a = .rename m.tmp m.real)) →
        ∃ s', moveMaps moved stat l s1 = some s' ∧ s'.db.modify = s.db.modify ∧
        (s'.bork = true ↔ s.bork = true ∨ ∃ x ∈ m :: l, x.tmp ≠ x.real ∧ moved x.real = false) ∧
        (∀ a, a ∈ s'.acts ↔ a ∈ s.acts ∨ ∃ x ∈ m :: l, x.tmp ≠ x.real ∧ a = .rename x.tmp x.real) := by
      intro s1 k1 k2 k3
      obtain ⟨s', h1, h2, h3, h4⟩ := ih s1 hl
      refine ⟨s', h1, h2.trans k1, ?_, fun a => ?_⟩
      · rw [h3, k2]; simp only [List.mem_cons, exists_eq_or_imp, or_assoc]
      · rw [h4, k3]; simp only [List.mem_cons, exists_eq_or_imp, or_assoc]
    have hb : ∀ b : Bool, (b || !moved m.real) = true ↔ b = true ∨ moved m.real = false := by
      intro b; cases b <;> simp
    unfold moveMaps
    by_cases hr : m.tmp = m.real
    · simp only [if_pos hr]
      cases hn : m.node with
      | none => exact key s rfl (by simp [hr]) (fun a => by simp [hr])
      | some i =>
        have := hst m List.mem_cons_self (by rw [hn]; rfl)
        obtain ⟨t, ht⟩ := Option.isSome_iff_exists.1 this
        simp only [ht]
        exact key { s with db := s.db.setMtime i t } rfl (by simp [hr]) (fun a => by simp [hr])
    · simp only [if_neg hr]
      cases hn : m.node with
      | none => exact key { s with acts := s.acts ++ [.rename m.tmp m.real], bork := s.bork || !moved m.real } rfl (by simp [hr, hb]) (fun a => by simp [hr])
      | some i =>
        have := hst m List.mem_cons_self (by rw [hn]; rfl)
        obtain ⟨t, ht⟩ := Option.isSome_iff_exists.1 this
        simp only [ht]
        exact key { s with acts := s.acts ++ [.rename m.tmp m.real], bork := s.bork || !moved m.real, db := s.db.setMtime i t } rfl (by simp [hr, hb]) (fun a => by simp [hr])

end Tup.Links
