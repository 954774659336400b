import Verif.DoRule.Accept
import Verif.DoRule.SchedProps

/-! C50, the other direction: a rule that nothing is against is accepted. -/

namespace Tup.DoRule

open Tup.Db Tup.Links Tup.Deletes

variable {db db' : Db} {excl : Nat} {p0 p p' : Parse} {r : Spec}

theorem uniqueLink_ok (hs : Sound db) (ht : Tidy db excl) {c b : Nat} (hb : db.isKind .generated b = true ∧ inDir db excl b = false)
    (h1 : ∀ b x y, db.normal b x = true → db.normal b y = true → db.isKind .group x = true → db.isKind .group y = true → x = y) :
    ∃ db', uniqueLink db c b = some db' := by
  have hng : db.isKind .group b = false := isKind_other hb.1 (by decide)
  obtain ⟨o, ho⟩ := incoming_ok hs (b := b) fun x y hx hy =>
    ht.owner x y b ⟨ht.source x b hb.1 hx, hx, hng, hb.2⟩ ⟨ht.source y b hb.1 hy, hy, hng, hb.2⟩
  unfold uniqueLink
  rw [ho]
  cases o with
  | none =>
    obtain ⟨g, hg⟩ := outputGroup_ok hs (c := b) (h1 b)
    simp only [hg]
    exact ⟨_, rfl⟩
  | some c' =>
    obtain ⟨g, hg⟩ := outputGroup_ok hs (c := c') (h1 c')
    simp only [hg]
    split
    · exact ⟨_, rfl⟩
    · exact ⟨_, rfl⟩

theorem uniqueLinks_ok {c : Nat} : ∀ {l : List Nat} {db : Db}, Sound db → Tidy db excl →
    (∀ b ∈ l, db.isKind .generated b = true ∧ inDir db excl b = false) →
    (∀ b x y, db.normal b x = true → db.normal b y = true → db.isKind .group x = true → db.isKind .group y = true → x = y) →
    ∃ db', uniqueLinks c l db = some db'
  | [], db, _, _, _, _ => ⟨db, rfl⟩
  | b :: l, db, hs, ht, hb, h1 => by
    obtain ⟨db1, hu⟩ := uniqueLink_ok (c := c) hs ht (hb b List.mem_cons_self) h1
    obtain ⟨b1, b2⟩ := hb b List.mem_cons_self
    have cut := (uniqueLink_spec hs ht b1 b2 hu).1
    have hk : ∀ k i, db1.isKind k i = db.isKind k i := fun k i => isKind_congr (congrFun cut.node i) k
    obtain ⟨db', h⟩ := uniqueLinks_ok (c := c) (l := l) cut.sound cut.tidy (fun b' hb' => by
      rw [hk, inDir_congr (congrFun cut.node b')]
      exact hb b' (List.mem_cons_of_mem _ hb')) (fun b x y hx hy gx gy => by
      rw [hk] at gx gy
      exact h1 b x y (cut.normal _ _ hx) (cut.normal _ _ hy) gx gy)
    refine ⟨db', ?_⟩
    unfold uniqueLinks
    rw [hu]
    exact h

theorem inputsNodes_ok {force : Bool} : ∀ {l : List Nat}, (∀ a ∈ l, ∃ x, inputNodes db force a = some x) → ∃ x, inputsNodes db force l = some x
  | [], _ => ⟨[], rfl⟩
  | a :: l, h => by
    obtain ⟨x, hx⟩ := h a List.mem_cons_self
    obtain ⟨y, hy⟩ := inputsNodes_ok fun b hb => h b (List.mem_cons_of_mem _ hb)
    exact ⟨x ++ y, by unfold inputsNodes; rw [hx, hy]⟩

theorem existing_ok {l : List Nat} (h : ∀ b ∈ l, ∃ o, incoming db b = some o) : ∃ o, existing db l = some o := by
  induction l with
  | nil => exact ⟨_, rfl⟩
  | cons b l ih =>
    obtain ⟨o, ho⟩ := h b List.mem_cons_self
    unfold existing
    rw [ho]
    cases o with
    | none => exact ih fun b hb => h b (List.mem_cons_of_mem _ hb)
    | some c => exact ⟨_, rfl⟩

/-- Nothing is against the rule: the outputs are fine, each in a place of its own and at most one of them a group; a rule that copies has
one input and one output; its command is none of the outputs or of the other nodes, and this Tupfile does not have it yet; the inputs
are there and are not outputs, nor is the group among those that the commands of the inputs read; a generated input has its command; and
the database is in order: a variable that a command has used is declared, a file is in one group at most, and what the Tupfile has are
commands that are there. -/
structure Acceptable (excl : Nat) (r : Spec) (p : Parse) : Prop where
  apart : (r.outputs ++ r.extra).Pairwise (apart excl)
  fine : ∀ o ∈ r.outputs ++ r.extra, OutFine excl r p o
  copy : r.copy = true → r.inputs.length = 1 ∧ (r.outputs.filter Out.isFile).length = 1
  cmd : ∀ b n, p.db.node b = some n → n.dir = r.dir → n.name = r.cmd → n.kind = .cmd
  cmdOut : ∀ o ∈ r.outputs ++ r.extra, o.key excl ≠ (r.dir, r.cmd)
  seen : ∀ c, p.seen r.dir c = true → ∃ n, p.db.node c = some n ∧ ¬ (n.dir = r.dir ∧ n.name = r.cmd) ∧
    ∀ b m, p.db.node b = some m → Lists r m → p.db.normal c b = false
  input : ∀ a ∈ r.inputs ++ (r.order ++ r.env), ∃ n, p.db.node a = some n ∧ n.dir ≠ excl ∧
    ∀ o ∈ r.outputs ++ r.extra, o.key excl ≠ (n.dir, n.name)
  made : ∀ a ∈ r.inputs ++ (r.order ++ r.env), p.db.isKind .generated a = true → ∃ c, p.db.normal c a = true
  groups : ∀ a ∈ r.inputs ++ (r.order ++ r.env), ∀ c g n, p.db.normal c a = true → p.db.sticky g c = true → p.db.node g = some n →
    Out.group n.dir n.name ∉ r.outputs ++ r.extra
  env : ∀ a ∈ r.env, ∀ c, p.db.normal a c = true → p.db.sticky a c = true
  one : ∀ b x y, p.db.normal b x = true → p.db.normal b y = true → p.db.isKind .group x = true → p.db.isKind .group y = true → x = y

/-- C50: a rule is accepted if nothing is against it. -/
theorem c50_accepted (h0 : Initial p0) (hs : Steps excl p0 p) (hr : SpecOk p.db excl r) (h : Acceptable excl r p) :
    ∃ p', doRule excl r p = some p' := by
  have hg := good_steps (initial_good (excl := excl) h0) hs
  have hst := outs_start hg.sound hg.tidy r
  obtain ⟨s, hx⟩ := addOuts_ok hg hr.outs h.apart h.fine [] (r.outputs ++ r.extra) rfl _ rfl
  have hx' := hx
  rw [addOuts_append] at hx'
  obtain ⟨m, hm, hso⟩ := Option.bind_eq_some_iff.1 hx'
  have is := addOuts_inv hr.outs hst hx
  have htr := addOuts_trace hr.outs hst hx
  have hsub := addOuts_sub hso
  -- the outputs
  have hgen : ∀ b ∈ s.outputs, s.db.isKind .generated b = true ∧ inDir s.db excl b = false := fun b hb => by
    obtain ⟨n, e1, e2, e3, _⟩ := is.output b hb
    exact ⟨isKind_iff.2 ⟨n, e1, e2⟩, by rw [inDir_some e1]; exact decide_eq_false e3⟩
  have hkb : ∀ b x, s.db.isKind .group x = true → p.db.normal b x = true → p.db.isKind .group x = true := fun b x hx hn => by
    obtain ⟨n, e1, e2⟩ := isKind_iff.1 hx
    obtain ⟨n0, f0⟩ := Option.isSome_iff_exists.1 (hg.sound.normal b x hn).2
    obtain ⟨n', k1, k2, k3, k4, _⟩ := is.keep x n0 f0
    rw [e1] at k1; cases k1
    by_cases hgh : n0.kind = .ghost
    · rcases htr x n e1 with hh | ⟨o, ho1, ho2, ho3⟩
      · exact isKind_iff.2 ⟨n, hh, e2⟩
      · have hd : n.dir ≠ excl := by
          rw [e2] at ho3
          cases o with
          | group d name =>
            have := hr.outs _ ho1
            cases ho2
            exact this
          | file d path src => cases ho3
          | exclusion pat => cases ho3
        have := (hg.tidy.ghost x (isKind_iff.2 ⟨n0, f0, hgh⟩) (by rw [inDir_some f0, ← k2]; exact decide_eq_false hd) b).1
        rw [hn] at this; cases this
    · exact isKind_iff.2 ⟨n0, f0, (k4 hgh).symm.trans e2⟩
  -- the command
  have hinc : ∀ b ∈ s.outputs, ∃ o, incoming s.db b = some o := fun b hb => by
    obtain ⟨g1, g2⟩ := hgen b hb
    have hng : s.db.isKind .group b = false := isKind_other g1 (by decide)
    exact incoming_ok is.sound fun x y hx hy =>
      is.tidy.owner x y b ⟨is.tidy.source x b g1 hx, hx, hng, g2⟩ ⟨is.tidy.source y b g1 hy, hy, hng, g2⟩
  have hfind : ∃ db1 c modified, findCommand r m.outputs s.db s.modified = some (db1, c, modified) ∧ p.seen r.dir c = false := by
    unfold findCommand
    cases hsel : s.db.select r.dir r.cmd with
    | some c =>
      obtain ⟨n, e1, e2, e3⟩ := select_some hsel
      have hp : p.db.node c = some n := by
        rcases htr c n e1 with hh | ⟨o, ho1, ho2, _⟩
        · exact hh
        · exact absurd (by rw [ho2, e2, e3]) (h.cmdOut o ho1)
      have hk : s.db.isKind .cmd c = true := isKind_iff.2 ⟨n, e1, h.cmd c n hp e2 e3⟩
      simp only [hk, if_true]
      refine ⟨_, _, _, rfl, Bool.eq_false_iff.2 fun hse => ?_⟩
      obtain ⟨n', f1, f2, _⟩ := h.seen c hse
      rw [hp] at f1; cases f1
      exact f2 ⟨e2, e3⟩
    | none =>
      obtain ⟨o, ho⟩ := existing_ok fun b hb => hinc b (hsub b hb)
      simp only [ho]
      cases o with
      | some c =>
        refine ⟨_, _, _, rfl, Bool.eq_false_iff.2 fun hse => ?_⟩
        obtain ⟨n', f1, _, f3⟩ := h.seen c hse
        obtain ⟨b, hb, hn⟩ := existing_some is.sound ho
        have hn := is.normal c b hn
        obtain ⟨n0, k0⟩ := Option.isSome_iff_exists.1 (hg.sound.normal c b hn).2
        obtain ⟨n2, k1, k2, k3, _⟩ := is.keep b n0 k0
        obtain ⟨path, src, l1, l2⟩ := addOuts_only hr.outs hst hx b (hsub b hb) (by simp) n2 k1
        have := f3 b n0 k0 ⟨path, src, by rw [← k2]; exact l1, by rw [l2, k3]⟩
        rw [hn] at this; cases this
      | none =>
        obtain ⟨⟨db1, c⟩, hc⟩ := create_ok (db := s.db) (d := r.dir) (name := r.cmd) (kind := .cmd) none r.transient
          (fun i n h1 _ => by rw [hsel] at h1; cases h1)
        simp only [hc]
        refine ⟨_, _, _, rfl, Bool.eq_false_iff.2 fun hse => ?_⟩
        obtain ⟨n', f1, _⟩ := h.seen c hse
        obtain ⟨n2, k1, _⟩ := is.keep c n' f1
        have := create_select is.sound (by decide) hc k1
        rw [hsel] at this; cases this
  obtain ⟨db1, c, modified, hf, hseen⟩ := hfind
  have hmain : ∀ b ∈ m.outputs, s.db.isKind .generated b = true := fun b hb => (hgen b (hsub b hb)).1
  have hfd := findCommand_spec is.sound is.tidy hmain hf
  obtain ⟨nc, ec1, ec2, _⟩ := hfd.node
  have hcmd : db1.isKind .cmd c = true := isKind_iff.2 ⟨nc, ec1, ec2⟩
  have hk1 : ∀ b k, k ≠ .cmd → (db1.isKind k b = true ↔ s.db.isKind k b = true) := fun b k hk => by
    by_cases hb : b = c
    · subst hb
      rw [isKind_other hcmd (fun h => hk h.symm)]
      rcases hfd.old with hh | hh
      · rw [isKind_none hh]
      · rw [isKind_other hh (fun h => hk h.symm)]
    · rw [isKind_congr (hfd.other b hb)]
  have hout1 : ∀ b ∈ s.outputs, db1.isKind .generated b = true ∧ inDir db1 excl b = false := fun b hb => by
    obtain ⟨g1, g2⟩ := hgen b hb
    have hbc : b ≠ c := fun he => by
      have := (hk1 b .generated (by decide)).2 g1
      rw [he] at this
      exact isKind_ne hcmd this (by decide)
    exact ⟨(hk1 b .generated (by decide)).2 g1, by rw [inDir_congr (hfd.other b hbc)]; exact g2⟩
  -- the links of other commands
  obtain ⟨db3, hu⟩ := uniqueLinks_ok (c := c) hfd.sound hfd.tidy hout1 (fun b x y hx hy gx gy => by
    rw [hfd.normal] at hx hy
    have px := is.normal _ _ hx
    have py := is.normal _ _ hy
    exact h.one b x y px py (hkb b x ((hk1 x .group (by decide)).1 gx) px) (hkb b y ((hk1 y .group (by decide)).1 gy) py))
  have hk := uniqueLinks_spec hfd.sound hfd.tidy hcmd is.nodup hout1 hu
  have hk3 : ∀ b k, db3.isKind k b = db1.isKind k b := fun b k => isKind_congr (congrFun hk.node b) k
  have hst3 : db3.sticky = s.db.sticky := (uniqueLinks_sticky hu).trans hfd.sticky
  -- the inputs
  have hin : ∀ a ∈ r.inputs ++ (r.order ++ r.env), ∃ n, p.db.node a = some n ∧ s.db.node a = some n ∧ a ∉ s.outputs ∧
      s.group ≠ some a ∧ n.dir ≠ excl := fun a ha => by
    obtain ⟨n, e1, hd, e2⟩ := h.input a ha
    obtain ⟨n', k1, k2, k3, _⟩ := is.keep a n e1
    refine ⟨n, e1, ?_, fun hb => ?_, fun hb => ?_, hd⟩
    · rcases htr a n' k1 with hh | ⟨o, ho1, ho2, _⟩
      · rw [hh] at e1; cases e1; exact k1
      · exact absurd (by rw [ho2, k2, k3]) (e2 o ho1)
    · obtain ⟨path, src, l1, l2⟩ := addOuts_only hr.outs hst hx a hb (by simp) n' k1
      exact e2 _ l1 (by show (n'.dir, base path) = _; rw [l2, k2, k3])
    · have l1 := addOuts_only_group hr.outs hst hx a hb rfl n' k1
      exact e2 _ l1 (by show (n'.dir, n'.name) = _; rw [k2, k3])
  have hcmds : ∀ c', s.db.isKind .cmd c' = true → p.db.isKind .cmd c' = true := fun c' hc' => by
    rw [← isKind_congr (is.cmd c' hc')]; exact hc'
  have hstk : ∀ c', p.db.isKind .cmd c' = true → ∀ b, db3.sticky b c' = p.db.sticky b c' := fun c' hc' b => by
    rw [hst3]
    exact (addOuts_added hg.unique hc' hr.outs hst hx).links.sticky b
  have hpin : ∀ force, ∀ a ∈ r.inputs ++ (r.order ++ r.env), ∃ x, inputNodes db3 force a = some x := fun force a ha => by
    obtain ⟨n, e1, e2, e3, _, hd⟩ := hin a ha
    unfold inputNodes
    split
    · rename_i hga
      have hgs : s.db.isKind .generated a = true := (hk1 a .generated (by decide)).1 (by rw [← hk3]; exact hga)
      have hgp : p.db.isKind .generated a = true := by rw [isKind_some e1]; rw [isKind_some e2] at hgs; exact hgs
      obtain ⟨c', hc'⟩ := h.made a ha hgp
      have hcp := hg.tidy.source c' a hgp hc'
      obtain ⟨n', f1, f2⟩ := isKind_iff.1 hcp
      obtain ⟨n2, f3, _, _, f4, _⟩ := is.keep c' n' f1
      have f4 := f4 (by rw [f2]; decide)
      have hnor : s.db.normal c' a = true := by
        rw [is.links c' a n' n f1 e1 (by rw [f2]; decide) (fun hh => by
          rw [isKind_some e1, hh] at hgp; cases hgp)]
        exact hc'
      have hco : c' ∉ s.outputs := fun hh => isKind_ne (hgen c' hh).1 (isKind_iff.2 ⟨n2, f3, f4.trans f2⟩) (by decide)
      have hn3 : db3.normal c' a = true := by rw [hk.other c' a hco e3, hfd.normal]; exact hnor
      have hng : s.db.isKind .group a = false := isKind_other hgs (by decide)
      obtain ⟨o, ho⟩ := incoming_ok hk.sound (b := a) fun x y hx hy => by
        have hx := is.normal _ _ (by rw [← hfd.normal]; exact hk.normal _ _ hx)
        have hy := is.normal _ _ (by rw [← hfd.normal]; exact hk.normal _ _ hy)
        have hng : p.db.isKind .group a = false := isKind_other hgp (by decide)
        have hdd : inDir p.db excl a = false := by rw [inDir_some e1]; exact decide_eq_false hd
        exact hg.tidy.owner x y a ⟨hg.tidy.source x a hgp hx, hx, hng, hdd⟩ ⟨hg.tidy.source y a hgp hy, hy, hng, hdd⟩
      cases o with
      | none =>
        have := incoming_none hk.sound ho c'
        rw [hn3] at this; cases this
      | some c2 => rw [ho]; exact ⟨_, rfl⟩
    · split
      · exact ⟨_, rfl⟩
      · split <;> exact ⟨_, rfl⟩
  have hall : ∃ inputs, allInputs r db3 = some inputs := by
    obtain ⟨x, hx⟩ := inputsNodes_ok (l := r.inputs) fun a ha => hpin true a (List.mem_append_left _ ha)
    obtain ⟨y, hy⟩ := inputsNodes_ok (l := r.order ++ r.env) fun a ha => hpin false a (List.mem_append_right _ ha)
    exact ⟨x ++ y, by unfold allInputs; rw [hx, hy]⟩
  obtain ⟨inputs, hinp⟩ := hall
  have hiff := allInputs_iff hk.sound hinp
  have hback : ∀ a c', db3.isKind .generated a = true → incoming db3 a = some (some c') → p.db.normal c' a = true ∧ p.db.isKind .cmd c' = true := fun a c' ha hi => by
    have h3 := (incoming_some hk.sound hi c').2 rfl
    have h1 := hk.normal c' a h3
    rw [hfd.normal] at h1
    have hgs : s.db.isKind .generated a = true := (hk1 a .generated (by decide)).1 (by rw [← hk3]; exact ha)
    exact ⟨is.normal c' a h1, hcmds c' (is.tidy.source c' a hgs h1)⟩
  have hcirc : circular s inputs = false := by
    rw [Bool.eq_false_iff]
    intro hc
    unfold circular at hc
    rcases Bool.or_eq_true_iff.1 hc with hc | hc
    · split at hc
      · rename_i g hgr
        rcases (hiff g).1 (of_decide_eq_true hc) with ⟨ha, _⟩ | ⟨ha, _⟩ | ⟨_, a, ha, h3, c', h4, h5⟩
        · exact (hin g (List.mem_append_left _ ha)).choose_spec.2.2.2.1 hgr
        · exact (hin g (List.mem_append_right _ ha)).choose_spec.2.2.2.1 hgr
        · obtain ⟨b1, b2⟩ := hback a c' h3 h4
          rw [hstk c' b2] at h5
          obtain ⟨n, hn⟩ := Option.isSome_iff_exists.1 (hg.sound.sticky g c' h5).1
          obtain ⟨n', k1, k2, k3, _⟩ := is.keep g n hn
          have l1 := addOuts_only_group hr.outs hst hx g hgr rfl n' k1
          exact h.groups a ha c' g n b1 h5 hn (by rw [← k2, ← k3]; exact l1)
      · cases hc
    · obtain ⟨b, hb, hc⟩ := List.any_eq_true.1 hc
      rcases (hiff b).1 (of_decide_eq_true hc) with ⟨ha, _⟩ | ⟨ha, _⟩ | ⟨hgb, _⟩
      · exact (hin b (List.mem_append_left _ ha)).choose_spec.2.2.1 hb
      · exact (hin b (List.mem_append_right _ ha)).choose_spec.2.2.1 hb
      · rw [hk3] at hgb
        exact isKind_ne hgb (hout1 b hb).1 (by decide)
  have henv : ∀ a ∈ r.env, db3.isKind .var a = true := fun a ha => by
    obtain ⟨n, e1, e2, _⟩ := hin a (List.mem_append_right _ (List.mem_append_right _ ha))
    rw [hk3]
    refine (hk1 a .var (by decide)).2 ?_
    have := hr.env a ha
    rw [isKind_some e1] at this
    rw [isKind_some e2]
    exact this
  obtain ⟨ok, free, hmem⟩ := toRule_ok (modified := modified) is hfd hk hinp hcirc henv
  have mi : ∀ b, b ∈ (toRule r s db3 c modified inputs).inputs ↔ b ∈ inputs := fun b => mem_tree hk.sound fun a h => (allInputs_kind hinp a h).some
  obtain ⟨db4, hw⟩ := writeRule_total hk.sound hk.tidy ok free (fun g hgr hgi => by
    have hgr : s.group = some g := hgr
    unfold circular at hcirc
    rw [hgr] at hcirc
    have := (Bool.or_eq_false_iff.1 hcirc).1
    exact of_decide_eq_false this ((mi g).1 hgi)) (fun a ha => by
    obtain ⟨h1, h2⟩ := ha
    rw [Bool.eq_false_iff]
    intro hn
    have hae : a ∈ r.env := (List.mem_filter.1 h1).2 |> of_decide_eq_true
    have hp := is.normal _ _ (by rw [← hfd.normal]; exact hk.normal _ _ hn)
    have hsp : p.db.sticky a c = true := h.env a hae _ hp
    have hcs : s.db.isKind .cmd c = true := by
      rcases hfd.old with hh | hh
      · obtain ⟨n, hn⟩ := Option.isSome_iff_exists.1 (hg.sound.normal a c hp).2
        obtain ⟨n', k1, _⟩ := is.keep c n hn
        rw [hh] at k1; cases k1
      · exact hh
    have := hstk c (hcmds c hcs) a
    rw [hsp] at this
    have h2 : db3.sticky a c = false := h2
    rw [h2] at this; cases this)
  refine Option.isSome_iff_exists.1 ?_
  unfold doRule
  rw [hm]
  simp only [hso]
  have hcopy : copyOk r m.outputs = true := by
    unfold copyOk
    cases hc : r.copy with
    | false => rfl
    | true =>
      obtain ⟨h1, h2⟩ := h.copy hc
      have := addOuts_count hm
      simp only [List.length_nil, Nat.zero_add] at this
      simp [this, h1, h2]
  simp only [hcopy, Bool.not_true, Bool.false_eq_true, if_false, hf, hseen]
  have : linkRule excl r s db1 c modified = some db4 := by
    unfold linkRule
    rw [hu]
    simp only [hinp, hcirc, Bool.false_eq_true, if_false]
    exact hw
  rw [this]
  rfl

theorem doRule_seen (h : doRule excl r p = some p') : ∃ c, ∀ d i, p'.seen d i = (p.seen d i || (decide (d = r.dir) && decide (i = c))) := by
  unfold doRule at h
  split at h
  · cases h
  · split at h
    · cases h
    · split at h
      · cases h
      · split at h
        · cases h
        · split at h
          · cases h
          · split at h
            · cases h
            · cases h
              exact ⟨_, fun _ _ => rfl⟩

/-! The Tupfile of the history above goes on: `: a.o |> ld a.o |> prog <bins> ^\.map`. -/

def exLink : Spec := { dir := 1, cmd := "ld a.o".toList, outputs := [.file 1 "prog".toList none, .group 1 "<bins>".toList, .exclusion "\\.map".toList], inputs := [5] }

theorem exLink_ok {db : Db} : SpecOk db 2 exLink := by
  refine specOk_simple (fun o ho => ?_) rfl
  simp only [exLink, List.mem_append, List.mem_cons, List.not_mem_nil, or_false] at ho
  rcases ho with rfl | rfl | rfl
  · exact (by decide : (1 : Nat) ≠ 2)
  · exact (by decide : (1 : Nat) ≠ 2)
  · trivial

theorem exLink_acceptable : Acceptable 2 exLink exDone := by
  have hsd : Sound exDone.db := (good_steps (initial_good exStart_initial) exDone_steps).sound
  have hlt : ∀ i n, exDone.db.node i = some n → i < 10 := fun i n h => by
    have := (hsd.node i n h).2
    have ht : exDone.db.top = 10 := by decide +kernel
    omega
  have hno : ∀ d name, (∀ i < 10, (exDone.db.node i).map (fun n => (n.dir, n.name)) ≠ some (d, name)) →
      ∀ i n, exDone.db.node i = some n → n.dir = d → n.name = name → False := fun d name hh i n h h1 h2 =>
    hh i (hlt i n h) (by rw [h, ← h1, ← h2]; rfl)
  have hnl : ∀ x y, exDone.db.normal x y = true → x < 10 ∧ y < 10 := fun x y h => by
    obtain ⟨h1, h2⟩ := hsd.normal x y h
    obtain ⟨n, h1⟩ := Option.isSome_iff_exists.1 h1
    obtain ⟨m, h2⟩ := Option.isSome_iff_exists.1 h2
    exact ⟨hlt x n h1, hlt y m h2⟩
  have hsl : ∀ x y, exDone.db.sticky x y = true → x < 10 ∧ y < 10 := fun x y h => by
    obtain ⟨h1, h2⟩ := hsd.sticky x y h
    obtain ⟨n, h1⟩ := Option.isSome_iff_exists.1 h1
    obtain ⟨m, h2⟩ := Option.isSome_iff_exists.1 h2
    exact ⟨hlt x n h1, hlt y m h2⟩
  have hout : ∀ P : Out → Prop, P (.file 1 "prog".toList none) → P (.group 1 "<bins>".toList) → P (.exclusion "\\.map".toList) →
      ∀ o ∈ exLink.outputs ++ exLink.extra, P o := fun P h1 h2 h3 o ho => by
    simp only [exLink, List.mem_append, List.mem_cons, List.not_mem_nil, or_false] at ho
    rcases ho with rfl | rfl | rfl
    · exact h1
    · exact h2
    · exact h3
  have hins : ∀ a ∈ exLink.inputs ++ (exLink.order ++ exLink.env), a = 5 := by decide
  have hse : ∀ c, exDone.seen 1 c = true → c = 9 := fun c hc => by
    obtain ⟨c', h⟩ := doRule_seen exRule_done
    have hp : ∀ i, exParse.seen 1 i = false := fun i => by
      have : exParse.seen 1 i = (exUpdate.seen 1 i && !decide ((1 : Nat) = 1)) := rfl
      rw [this]
      simp
    have h9 : exDone.seen 1 9 = true := by decide +kernel
    rw [h, hp, Bool.false_or, Bool.and_eq_true] at h9 hc
    exact (of_decide_eq_true hc.2).trans (of_decide_eq_true h9.2).symm
  refine ⟨?_, hout _ ?_ ?_ ?_, fun h => absurd h (by decide), fun b n h1 h2 h3 => (hno 1 "ld a.o".toList (by decide +kernel) b n h1 h2 h3).elim,
    hout _ (by decide +kernel) (by decide +kernel) (by decide +kernel), fun c hc => ?_, fun a ha => ?_, fun a ha _ => ?_,
    fun a ha c g n h1 h2 hn => ?_, fun a ha => (by cases ha), fun b x y hx hy gx gy => ?_⟩
  · unfold apart
    decide +kernel
  · refine ⟨fun _ => by decide +kernel, fun d' h => (by cases h), fun b n h1 h2 h3 => (hno 1 "prog".toList (by decide +kernel) b n h1 h2 h3).elim⟩
  · exact fun b n h1 h2 h3 => (hno 1 "<bins>".toList (by decide +kernel) b n h1 h2 h3).elim
  · exact fun b n h1 h2 h3 => (hno 2 "\\.map".toList (by decide +kernel) b n h1 h2 h3).elim
  · cases hse c hc
    refine ⟨{ dir := 1, kind := .cmd, name := "cc a.c".toList }, by decide +kernel, by decide +kernel, fun b m hb hl => ?_⟩
    obtain ⟨path, src, l1, l2⟩ := hl
    refine (hno m.dir m.name ?_ b m hb rfl rfl).elim
    simp only [exLink, List.mem_append, List.mem_cons, List.not_mem_nil, or_false, Out.file.injEq, reduceCtorEq] at l1
    obtain ⟨e1, e2, _⟩ := l1
    rw [e1, ← l2, e2]
    decide +kernel
  · cases hins a ha
    obtain ⟨n, hn⟩ := Option.isSome_iff_exists.1 (show (exDone.db.node 5).isSome = true by decide +kernel)
    have : (n.dir, n.name) = (1, "a.o".toList) := by
      have : (exDone.db.node 5).map (fun n => (n.dir, n.name)) = some (1, "a.o".toList) := by decide +kernel
      rw [hn] at this
      exact Option.some.inj this
    refine ⟨n, hn, by rw [(Prod.mk.inj this).1]; decide, ?_⟩
    rw [this]
    exact hout _ (by decide +kernel) (by decide +kernel) (by decide +kernel)
  · cases hins a ha
    exact ⟨9, by decide +kernel⟩
  · obtain ⟨g1, g2⟩ := hsl g c h2
    have : ∀ g < 10, ∀ c < 10, exDone.db.sticky g c = true → g = 3 := by decide +kernel
    cases this g g1 c g2 h2
    have : exDone.db.node 3 = some { dir := 1, kind := .file, name := "a.c".toList } := by decide +kernel
    rw [this] at hn; cases hn
    decide +kernel
  · have : ∀ x < 10, exDone.db.isKind .group x = true → x = 6 := by decide +kernel
    rw [this x (hnl b x hx).2 gx, this y (hnl b y hy).2 gy]

example : ∃ p, doRule 2 exLink exDone = some p := c50_accepted exStart_initial exDone_steps exLink_ok exLink_acceptable

end Tup.DoRule
