import Verif.Deletes.Spec
import Verif.DoRule.Claim
import Verif.DoRule.Reject

/-! What a rule leaves of generated files that it does not list, and the name of its command. -/

namespace Tup.Deletes

open Tup.Db Tup.Links Tup.DoRule

variable {db db' : Db} {excl : Nat}

/-- Generated files stay so, and their mark in the list of changed files stays as it is. -/
def Quiet (db db' : Db) : Prop := ∀ i, db.isKind .generated i = true → db'.isKind .generated i = true ∧ db'.modify i = db.modify i

theorem Quiet.refl (db : Db) : Quiet db db := fun _ h => ⟨h, rfl⟩

theorem Quiet.trans {db'' : Db} (h : Quiet db db') (h' : Quiet db' db'') : Quiet db db'' := fun i hi => by
  obtain ⟨h1, h2⟩ := h i hi
  obtain ⟨h3, h4⟩ := h' i h1
  exact ⟨h3, h4.trans h2⟩

theorem quiet_nodes (hn : db'.node = db.node) (hm : db'.modify = db.modify) : Quiet db db' := fun i h =>
  ⟨by rw [isKind_congr (congrFun hn i)]; exact h, by rw [hm]⟩

theorem quiet_insert (hs : Sound db) (n : Node) : Quiet db (db.insertNode n).1 := fun i h => by
  refine ⟨?_, rfl⟩
  have hne : i ≠ (db.insertNode n).2 := fun e => by
    rw [e, isKind_none (insert_fresh hs n)] at h; cases h
  rw [isKind_congr (db' := (db.insertNode n).1) (db := db) (by rw [insert_node, if_neg hne])]
  exact h

theorem upgrade_modify (db : Db) (i : Nat) (kind : Kind) (src : Option Nat) (j : Nat) (hj : j ≠ i) (hc : db.isKind .cmd j = false) (hg : db.isKind .group j = false) :
    (upgradeGhost db i kind src).modify j = db.modify j := by
  unfold upgradeGhost
  split
  · rfl
  · show ((if kind = .var then _ else if kind = .generated then _ else _ : Db).modify j || decide (j = i)) = _
    rw [decide_eq_false hj, Bool.or_false]
    split
    · rfl
    · split
      · have : ((db.createByInput i).modifyByInput i).modify j = db.modify j := by
          show (db.modify j || (db.normal i j && (db.isKind .cmd j || db.isKind .group j))) = _
          rw [hc, hg]; simp
        rw [← this]
        unfold Db.deleteLinks Db.flagGroupUsers
        split <;> rfl
      · rfl

theorem upgrade_other (db : Db) (i : Nat) (kind : Kind) (src : Option Nat) (j : Nat) (hj : j ≠ i) : (upgradeGhost db i kind src).node j = db.node j := by
  unfold upgradeGhost
  split
  · rfl
  · show (if j = i then _ else if j = i then _ else (if kind = .var then _ else if kind = .generated then _ else _ : Db).node j) = _
    rw [if_neg hj, if_neg hj]
    split
    · rfl
    · split
      · rw [(deleteLinks_spec _ i).2.2.2.1]; rfl
      · rfl

theorem quiet_create {d : Nat} {name : Str} {kind : Kind} {src : Option Nat} {trans : Bool} {i : Nat} (hs : Sound db) (hk : kind ≠ .dir)
    (h : create db d name kind src trans = some (db', i)) : Quiet db db' := by
  rcases create_cases hk h with ⟨_, e⟩ | ⟨_, e, rfl⟩ | ⟨_, _, _, rfl⟩
  · have := quiet_insert hs { dir := d, kind := kind, name := name, src := src, transient := trans }
    rw [e] at this
    exact this
  · intro j hj
    have hne : j ≠ i := fun he => isKind_ne hj (he ▸ e) (by decide)
    exact ⟨by rw [isKind_congr (upgrade_other db i kind src j hne)]; exact hj,
      upgrade_modify db i kind src j hne (isKind_other hj (by decide)) (isKind_other hj (by decide))⟩
  · intro j hj
    obtain ⟨n, e1, e2⟩ := isKind_iff.1 hj
    refine ⟨?_, by cases src <;> rfl⟩
    cases src with
    | none =>
      refine isKind_iff.2 ⟨if j = i then { n with transient := trans } else n, ?_, by split <;> exact e2⟩
      show (if j = i then (db.node j).map _ else db.node j) = _
      rw [e1]; split <;> rfl
    | some s =>
      refine isKind_iff.2 ⟨if j = i then { n with src := some s, transient := trans } else n, ?_, by split <;> exact e2⟩
      show (if j = i then (if j = i then (db.node j).map _ else db.node j).map _ else if j = i then _ else db.node j) = _
      rw [e1]; split <;> rfl

/-- Which generated files there are after the outputs are added. -/
theorem addOut_quiet {p : Parse} {r : Spec} {s s' : Outs} {o : Out} {db0 : Db} (ho : OutOk excl o) (h : OutsInv db0 excl r s)
    (ha : addOut excl p r s o = some s') : Quiet s.db s'.db ∧ ∀ i, s'.db.isKind .generated i = true → s.db.isKind .generated i = true ∨ i ∈ s'.outputs := by
  cases o with
  | file d path src =>
    simp only [addOut, addFile_eq] at ha
    split at ha
    · cases ha
    split at ha
    · cases ha
    split at ha
    · cases ha
    split at ha
    · cases ha
    rename_i db' i hcr
    split at ha
    · cases ha
    cases ha
    refine ⟨quiet_create h.sound (by decide) hcr, fun j hj => ?_⟩
    have m := create_made (excl := excl) (.inl ⟨.inl rfl, ho⟩) h.sound h.tidy hcr
    by_cases hji : j = i
    · right; rw [hji]; exact List.mem_append_right _ List.mem_cons_self
    · left; rw [← isKind_congr (m.other j hji)]; exact hj
  | exclusion pat =>
    simp only [addOut, addExclusion] at ha
    split at ha
    · cases ha
    rename_i db' i hcr
    split at ha
    · cases ha
    cases ha
    refine ⟨quiet_create h.sound (by decide) hcr, fun j hj => .inl ?_⟩
    have m := create_made (excl := excl) (.inr ⟨rfl, rfl⟩) h.sound h.tidy hcr
    by_cases hji : j = i
    · obtain ⟨n, e1, e2, _⟩ := m.node
      have hj : db'.isKind .generated j = true := hj
      rw [hji, isKind_some e1, e2] at hj
      cases hj
    · rw [← isKind_congr (m.other j hji)]; exact hj
  | group d name =>
    simp only [addOut, addGroup] at ha
    split at ha
    · cases ha
    split at ha
    · cases ha
    rename_i db' i hcr
    cases ha
    refine ⟨quiet_create h.sound (by decide) hcr, fun j hj => .inl ?_⟩
    have m := create_made (excl := excl) (.inl ⟨.inr rfl, ho⟩) h.sound h.tidy hcr
    by_cases hji : j = i
    · obtain ⟨n, e1, e2, _⟩ := m.node
      have hj : db'.isKind .generated j = true := hj
      rw [hji, isKind_some e1, e2] at hj
      cases hj
    · rw [← isKind_congr (m.other j hji)]; exact hj

theorem addOuts_quiet {p : Parse} {r : Spec} {db0 : Db} : ∀ {l : List Out} {s s' : Outs}, (∀ o ∈ l, OutOk excl o) → OutsInv db0 excl r s →
    addOuts excl p r l s = some s' →
    Quiet s.db s'.db ∧ ∀ i, s'.db.isKind .generated i = true → s.db.isKind .generated i = true ∨ i ∈ s'.outputs
  | [], s, s', _, _, ha => by cases ha; exact ⟨Quiet.refl _, fun i h => .inl h⟩
  | o :: l, s, s', ho, h, ha => by
    unfold addOuts at ha
    split at ha
    · cases ha
    rename_i s1 h1
    have i1 := addOut_inv (ho o List.mem_cons_self) h h1
    obtain ⟨a1, a2⟩ := addOut_quiet (ho o List.mem_cons_self) h h1
    obtain ⟨b1, b2⟩ := addOuts_quiet (fun o' h' => ho o' (List.mem_cons_of_mem _ h')) i1 ha
    refine ⟨a1.trans b1, fun i hi => ?_⟩
    rcases b2 i hi with h | h
    · rcases a2 i h with h | h
      · exact .inl h
      · exact .inr (addOuts_sub ha i h)
    · exact .inr h

theorem uniqueLink_quiet {c b : Nat} (h : uniqueLink db c b = some db') : db'.node = db.node ∧ db'.modify = db.modify := by
  have hl : ∀ (db : Db) g, (leave db b g).node = db.node ∧ (leave db b g).modify = db.modify := fun db g => by cases g <;> exact ⟨rfl, rfl⟩
  unfold uniqueLink at h
  split at h
  · cases h
  · obtain ⟨g, _, rfl⟩ := Option.map_eq_some_iff.1 h
    exact hl db g
  · split at h
    · cases h; exact ⟨rfl, rfl⟩
    · obtain ⟨g, _, rfl⟩ := Option.map_eq_some_iff.1 h
      exact hl db g

theorem uniqueLinks_quiet {c : Nat} : ∀ {l : List Nat} {db : Db}, uniqueLinks c l db = some db' → db'.node = db.node ∧ db'.modify = db.modify
  | [], db, h => by cases h; exact ⟨rfl, rfl⟩
  | b :: l, db, h => by
    unfold uniqueLinks at h
    split at h
    · cases h
    rename_i db1 h1
    obtain ⟨a1, a2⟩ := uniqueLink_quiet h1
    obtain ⟨b1, b2⟩ := uniqueLinks_quiet h
    exact ⟨b1.trans a1, b2.trans a2⟩

/-- The command has the string of the rule. -/
theorem findCommand_name {r : Spec} {main : List Nat} {m modified : Bool} {c : Nat} (hs : Sound db) (hb : ∀ b ∈ main, db.isKind .generated b = true) (ht : Tidy db excl)
    (h : findCommand r main db m = some (db', c, modified)) :
    (∃ n, db'.node c = some n ∧ n.name = r.cmd) ∧ Quiet db db' ∧ ∀ i, db'.isKind .generated i = true → db.isKind .generated i = true := by
  have hf := findCommand_spec hs ht hb h
  have hback : ∀ i, db'.isKind .generated i = true → db.isKind .generated i = true := fun i hi => by
    by_cases hic : i = c
    · obtain ⟨n, e1, e2, _⟩ := hf.node
      rw [hic, isKind_some e1, e2] at hi
      cases hi
    · rw [← isKind_congr (hf.other i hic)]; exact hi
  have hkeep : ∀ i, db.isKind .generated i = true → db'.isKind .generated i = true := fun i hi => by
    have hic : i ≠ c := by
      rintro rfl
      rcases hf.old with h | h
      · rw [isKind_none h] at hi; cases hi
      · exact isKind_ne hi h (by decide)
    rw [isKind_congr (hf.other i hic)]; exact hi
  suffices hx : (∃ n, db'.node c = some n ∧ n.name = r.cmd) ∧ ∀ i, db.isKind .generated i = true → db'.modify i = db.modify i from
    ⟨hx.1, fun i hi => ⟨hkeep i hi, hx.2 i hi⟩, hback⟩
  unfold findCommand at h
  split at h
  · rename_i c' hsel
    split at h
    · cases h
      obtain ⟨n, e1, _, e2⟩ := select_some hsel
      refine ⟨⟨{ n with transient := r.transient }, ?_, e2⟩, fun _ _ => rfl⟩
      show (if c = c then (db.node c).map _ else _) = _
      rw [if_pos rfl, e1]; rfl
    · cases h
  · rename_i hsel
    split at h
    · cases h
    · rename_i c' hex
      cases h
      obtain ⟨b, h1, h2⟩ := existing_some hs hex
      obtain ⟨n, hn⟩ := Option.isSome_iff_exists.1 (hs.normal c b h2).1
      refine ⟨⟨{ n with dir := r.dir, name := r.cmd, transient := r.transient }, ?_, rfl⟩, fun _ _ => rfl⟩
      show (if c = c then (if c = c then (db.node c).map _ else _).map _ else _) = _
      rw [if_pos rfl, if_pos rfl, hn]; rfl
    · obtain ⟨⟨db1, i⟩, hcr, he⟩ := Option.map_eq_some_iff.1 h
      cases he
      refine ⟨?_, fun i hi => ?_⟩
      case refine_2 =>
        have hic : i ≠ c := by
          rintro rfl
          obtain ⟨n, e1, e2, _⟩ := hf.node
          have := hkeep i hi
          rw [isKind_some e1, e2] at this
          cases this
        show (db1.modify i || decide (i = c)) = _
        rw [decide_eq_false hic, Bool.or_false]
        exact (quiet_create hs (by decide) hcr i hi).2
      show ∃ n, db1.node c = some n ∧ n.name = r.cmd
      rcases create_cases (by decide) hcr with ⟨_, e⟩ | ⟨e, _⟩ | ⟨e, _⟩
      · refine ⟨{ dir := r.dir, kind := .cmd, name := r.cmd, src := none, transient := r.transient }, ?_, rfl⟩
        have := insert_node (db := db) { dir := r.dir, kind := .cmd, name := r.cmd, src := none, transient := r.transient } c
        rw [e] at this
        simpa using this
      · rw [hsel] at e; cases e
      · rw [hsel] at e; cases e

/-- There is no directory that was not one. -/
def NoDir (db db' : Db) : Prop := ∀ i, db'.isKind .dir i = true → db.isKind .dir i = true

theorem noDir_of {c : Nat} {n : Node} (hn : db'.node c = some n) (hk : n.kind ≠ .dir) (ho : ∀ j, j ≠ c → db'.node j = db.node j) : NoDir db db' := fun i hi => by
  by_cases hic : i = c
  · rw [hic, isKind_some hn] at hi
    simp only [decide_eq_true_eq] at hi
    exact absurd hi hk
  · rw [← isKind_congr (ho i hic)]; exact hi

theorem addOut_noDir {p : Parse} {r : Spec} {s s' : Outs} {o : Out} {db0 : Db} (ho : OutOk excl o) (h : OutsInv db0 excl r s)
    (ha : addOut excl p r s o = some s') : NoDir s.db s'.db := by
  cases o with
  | file d path src =>
    simp only [addOut, addFile_eq] at ha
    split at ha
    · cases ha
    split at ha
    · cases ha
    split at ha
    · cases ha
    split at ha
    · cases ha
    rename_i db' i hcr
    split at ha
    · cases ha
    cases ha
    have m := create_made (excl := excl) (.inl ⟨.inl rfl, ho⟩) h.sound h.tidy hcr
    obtain ⟨n, e1, e2, _⟩ := m.node
    exact noDir_of e1 (by rw [e2]; decide) m.other
  | exclusion pat =>
    simp only [addOut, addExclusion] at ha
    split at ha
    · cases ha
    rename_i db' i hcr
    split at ha
    · cases ha
    cases ha
    have m := create_made (excl := excl) (.inr ⟨rfl, rfl⟩) h.sound h.tidy hcr
    obtain ⟨n, e1, e2, _⟩ := m.node
    exact noDir_of e1 (by rw [e2]; decide) m.other
  | group d name =>
    simp only [addOut, addGroup] at ha
    split at ha
    · cases ha
    split at ha
    · cases ha
    rename_i db' i hcr
    cases ha
    have m := create_made (excl := excl) (.inl ⟨.inr rfl, ho⟩) h.sound h.tidy hcr
    obtain ⟨n, e1, e2, _⟩ := m.node
    exact noDir_of e1 (by rw [e2]; decide) m.other

theorem addOuts_noDir {p : Parse} {r : Spec} {db0 : Db} : ∀ {l : List Out} {s s' : Outs}, (∀ o ∈ l, OutOk excl o) → OutsInv db0 excl r s →
    addOuts excl p r l s = some s' → NoDir s.db s'.db
  | [], s, s', _, _, ha => by cases ha; exact fun _ h => h
  | o :: l, s, s', ho, h, ha => by
    unfold addOuts at ha
    split at ha
    · cases ha
    rename_i s1 h1
    have i1 := addOut_inv (ho o List.mem_cons_self) h h1
    have a1 := addOut_noDir (ho o List.mem_cons_self) h h1
    have b1 := addOuts_noDir (fun o' h' => ho o' (List.mem_cons_of_mem _ h')) i1 ha
    exact fun i hi => a1 i (b1 i hi)

/-- What else the rule has done. -/
structure More (excl : Nat) (r : Spec) (p p' : Parse) (s : Outs) (c : Nat) : Prop where
  done : Done excl r p p' s c
  outs : outputsOf excl r p = s.outputs
  name : ∃ n, p'.db.node c = some n ∧ n.name = r.cmd
  quiet : Quiet p.db p'.db
  back : ∀ i, p'.db.isKind .generated i = true → p.db.isKind .generated i = true ∨ i ∈ s.outputs
  listed : ∀ d path src, Out.file d path src ∈ r.outputs ++ r.extra → ∃ b ∈ s.outputs, ∃ n, p'.db.node b = some n ∧ n.dir = d ∧ n.name = base path
  lists : ∀ b ∈ s.outputs, ∀ n, p'.db.node b = some n → Lists r n
  noDir : NoDir p.db p'.db

theorem rule_more {r : Spec} {p p' : Parse} (hg : Good p.db excl) (hr : SpecOk p.db excl r) (h : doRule excl r p = some p') :
    ∃ s c, More excl r p p' s c := by
  have hs := hg.sound
  have ht := hg.tidy
  obtain ⟨m, s, c, hm, hso, hd⟩ := doRule_done hs ht hr h
  have im := addOuts_inv (fun o ho => hr.outs o (List.mem_append_left _ ho)) (outs_start hs ht r) hm
  have is := addOuts_inv (fun o ho => hr.outs o (List.mem_append_right _ ho)) im hso
  obtain ⟨q1, b1⟩ := addOuts_quiet (fun o ho => hr.outs o (List.mem_append_left _ ho)) (outs_start hs ht r) hm
  obtain ⟨q2, b2⟩ := addOuts_quiet (fun o ho => hr.outs o (List.mem_append_right _ ho)) im hso
  have hgen : ∀ b ∈ s.outputs, s.db.isKind .generated b = true := fun b hb => by
    obtain ⟨n, e1, e2, _⟩ := is.output b hb
    exact isKind_iff.2 ⟨n, e1, e2⟩
  have hall : (∃ n, p'.db.node c = some n ∧ n.name = r.cmd) ∧ Quiet s.db p'.db ∧
      (∀ i, p'.db.isKind .generated i = true → s.db.isKind .generated i = true) ∧ NoDir s.db p'.db := by
    unfold doRule at h
    rw [hm] at h
    simp only [hso] at h
    split at h
    · cases h
    split at h
    · cases h
    rename_i db1 c1 modified hc
    split at h
    · cases h
    rename_i hseen
    split at h
    · cases h
    rename_i db2 hl
    cases h
    have hf := findCommand_spec is.sound is.tidy (fun b hb => hgen b (addOuts_sub hso b hb)) hc
    obtain ⟨n1, n2, n3⟩ := findCommand_name is.sound (fun b hb => hgen b (addOuts_sub hso b hb)) is.tidy hc
    have hcc : c1 = c := by
      have h1 := hd.doomed
      have h2 := hd.seen r.dir c1
      have h3 : (p.seen r.dir c1 || (decide (r.dir = r.dir) && decide (c1 = c1))) = true := by simp
      have h2 : (p.seen r.dir c1 || (decide (r.dir = r.dir) && decide (c1 = c1))) = (p.seen r.dir c1 || (decide (r.dir = r.dir) && decide (c1 = c))) := h2
      rw [h3] at h2
      rw [Bool.eq_false_iff.2 hseen] at h2
      simpa using h2.symm
    subst hcc
    unfold linkRule at hl
    split at hl
    · cases hl
    rename_i db3 hu
    split at hl
    · cases hl
    rename_i inputs hin
    split at hl
    · cases hl
    rename_i hcirc
    have hcirc : circular s inputs = false := Bool.eq_false_iff.2 hcirc
    obtain ⟨nc, ec1, ec2, ec3⟩ := hf.node
    have hne : ∀ b n, s.db.node b = some n → n.kind ≠ .cmd → db1.node b = some n := by
      intro b n hb hn
      have : b ≠ c1 := by
        rintro rfl
        rcases hf.old with h | h
        · rw [hb] at h; cases h
        · rw [isKind_some hb] at h
          simp only [decide_eq_true_eq] at h
          exact hn h
      rw [hf.other b this, hb]
    have hk := uniqueLinks_spec hf.sound hf.tidy (isKind_iff.2 ⟨nc, ec1, ec2⟩) is.nodup (fun b hb => by
      obtain ⟨n, e1, e2, e3, _⟩ := is.output b hb
      have := hne b n e1 (by rw [e2]; decide)
      refine ⟨isKind_iff.2 ⟨n, this, e2⟩, ?_⟩
      rw [inDir_some this]
      exact decide_eq_false e3) hu
    have henv : ∀ a ∈ r.env, db3.isKind .var a = true := by
      intro a ha
      obtain ⟨n, e1, e2⟩ := isKind_iff.1 (hr.env a ha)
      obtain ⟨n', k1, _, _, k2, _⟩ := is.keep a n e1
      have k2 := k2 (by rw [e2]; decide)
      exact isKind_iff.2 ⟨n', by rw [hk.node]; exact hne a n' k1 (by rw [k2, e2]; decide), k2.trans e2⟩
    obtain ⟨ok, free, hmem⟩ := toRule_ok (modified := modified) is hf hk hin hcirc henv
    have w := ruleWritten hk.sound hk.tidy ok hl
    have hno : db2.node = db3.node := by
      have := w.nodes
      unfold SameNodes at this
      rw [this]
    obtain ⟨u1, u2⟩ := uniqueLinks_quiet hu
    have hno' : db2.node = db1.node := hno.trans u1
    have hlast : Quiet db1 db2 := fun i hi => by
      refine ⟨by rw [isKind_congr (congrFun hno' i)]; exact hi, ?_⟩
      rw [← u2, Bool.eq_iff_iff, w.modify]
      have hi3 : db3.isKind .generated i = true := by rw [isKind_congr (congrFun u1 i)]; exact hi
      constructor
      · rintro (h | ⟨rfl, _⟩ | ⟨_, h⟩ | ⟨g, hgl, h⟩)
        · exact h
        · exact (isKind_ne hi3 ok.cmd (by decide)).elim
        · obtain ⟨n, e1, e2⟩ := ok.group i h
          rw [isKind_some e1, e2] at hi3; cases hi3
        · rcases h with rfl | ⟨_, j, _, _, h | h⟩
          · exact (isKind_ne hi3 hgl.2.1 (by decide)).elim
          · exact (isKind_ne hi3 h (by decide)).elim
          · exact (isKind_ne hi3 h (by decide)).elim
      · exact .inl
    refine ⟨?_, n2.trans hlast, fun i hi => n3 i ?_, fun i hi => noDir_of ec1 (by rw [ec2]; decide) hf.other i ?_⟩
    · obtain ⟨n, e1, e2⟩ := n1
      exact ⟨n, by show db2.node c1 = _; rw [hno', e1], e2⟩
    · have hi : db2.isKind .generated i = true := hi
      rw [isKind_congr (congrFun hno' i)] at hi
      exact hi
    · have hi : db2.isKind .dir i = true := hi
      rw [isKind_congr (congrFun hno' i)] at hi
      exact hi
  refine ⟨s, c, hd, ?_, hall.1, (q1.trans q2).trans hall.2.1, fun i hi => ?_, fun d path src hl => ?_, fun b hb n hn => ?_, fun i hi => ?_⟩
  · unfold outputsOf
    rw [hm]
    simp only [hso]
  · rcases b2 i (hall.2.2.1 i hi) with h | h
    · rcases b1 i h with h | h
      · exact .inl h
      · exact .inr (addOuts_sub hso i h)
    · exact .inr h
  · obtain ⟨b, hb, n, e1, e2, e3⟩ := listed_output (p' := p') (c := c) hg hr hm hso hl
    exact ⟨b, hb, n, by rw [hd.names b hb, e1], e2, e3⟩
  · rw [hd.names b hb] at hn
    have h3 : addOuts excl p r (r.outputs ++ r.extra) { db := p.db } = some s := by rw [addOuts_append, hm]; exact hso
    exact addOuts_only hr.outs (outs_start hg.sound hg.tidy r) h3 b hb (by simp) n hn
  · exact addOuts_noDir (fun o ho => hr.outs o (List.mem_append_left _ ho)) (outs_start hs ht r) hm i
      (addOuts_noDir (fun o ho => hr.outs o (List.mem_append_right _ ho)) im hso i (hall.2.2.2 i hi))

end Tup.Deletes
