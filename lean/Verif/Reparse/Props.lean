import Verif.Reparse.History

/-!
C74.  An update parses only the Tupfiles that changed and those that look at them, in the order of the links of the last time, or as they are needed.  What it leaves in the database are the commands that each Tupfile
has when it is parsed after all those it looks at: the same as if everything had been parsed.
-/

namespace Tup.Reparse

/-- C74: after an update that succeeds and leaves no circle of directories, every directory has in the database the commands of its Tupfile, and no directory is left to be parsed. -/
theorem c74_right {s s' : St} {order : List Dir} (h : Hist s) (hv : Valid s order) (hu : update s order = .ok s') (ha : Acyclic s'.links) : (∀ d, Means s d (s'.rules d)) ∧ ∀ d, ¬ Reach s' d := by
  obtain ⟨h1, h2⟩ := update_local (hist_inv h) hv hu ha
  obtain ⟨e1, e2⟩ := update_keeps hu
  refine ⟨fun d => ?_, reach_none h2⟩
  obtain ⟨n, hn⟩ := local_means h1 ha d
  exact ⟨n, (meaning_same e1 e2 n d).symm.trans hn⟩

/-- C74: a project is accepted without leaving a circle exactly if every Tupfile has a meaning, that is, if none is wrong and none is in a circle. -/
theorem c74_accepts {s : St} {order : List Dir} (h : Hist s) (hv : Valid s order) : (∃ s', update s order = .ok s' ∧ Acyclic s'.links) ↔ ∀ d, ∃ l, Means s d l := by
  constructor
  · rintro ⟨s', hu, ha⟩ d
    exact ⟨_, (c74_right h hv hu ha).1 d⟩
  · exact update_accepts (hist_inv h) hv

/-- C74: the commands of a Tupfile are a matter of the sources alone; whatever happened before and in whichever order the nodes come up, two projects with the same sources have the same commands. -/
theorem c74_same {s u s' u' : St} {o o' : List Dir} (hs : Hist s) (hu : Hist u) (e1 : s.src = u.src) (e2 : s.prog = u.prog) (vs : Valid s o) (vu : Valid u o') (us : update s o = .ok s') (uu : update u o' = .ok u')
    (as : Acyclic s'.links) (au : Acyclic u'.links) : s'.rules = u'.rules := by
  funext d
  obtain ⟨n, hn⟩ := (c74_right hs vs us as).1 d
  obtain ⟨m, hm⟩ := (c74_right hu vu uu au).1 d
  exact means_unique ⟨n, hn⟩ ⟨m, (meaning_same e1 e2 m d).trans hm⟩

/-- C74: a project that every update left without a circle can always be updated: there is an order. -/
theorem c74_order {s : St} (h : Hist s) : ∃ order, Valid s order := by
  classical
  have ha := (hist_inv h).1
  obtain ⟨m, m1, m2⟩ := nodup_same (s.flags ++ s.links.map (·.2))
  let c := m.filter (fun d => decide (Reach s d))
  let le := fun a b => decide (depth s.links a ≤ depth s.links b)
  have hp : (c.mergeSort le).Perm c := List.mergeSort_perm c le
  have hso : (c.mergeSort le).Pairwise (fun a b => le a b = true) := by
    refine List.pairwise_mergeSort ?_ ?_ c
    · intro a b d h1 h2
      simp only [le, decide_eq_true_eq] at *
      omega
    · intro a b
      simp only [le, Bool.or_eq_true, decide_eq_true_eq]
      omega
  refine ⟨c.mergeSort le, hp.nodup_iff.2 ?_, ?_, ?_⟩
  · exact List.Pairwise.filter _ m1
  · intro d
    refine Iff.trans hp.mem_iff ?_
    simp only [c, List.mem_filter, decide_eq_true_eq, m2, List.mem_append, List.mem_map]
    refine ⟨fun h => h.2, fun hr => ⟨?_, hr⟩⟩
    cases hr with
    | flag h => exact .inl h
    | link _ h => exact .inr ⟨_, h, rfl⟩
  · intro b d hl hb l r e
    have hlt := depth_lt ha hl
    rw [e] at hb hso
    rcases List.mem_append.1 hb with h | h
    · exact h
    · rcases List.mem_cons.1 h with rfl | h
      · omega
      · have := (List.pairwise_cons.1 (List.pairwise_append.1 hso).2.1).1 b h
        simp only [le, decide_eq_true_eq] at this
        omega

/-- C74: when the links of the last update have a circle in what is to be parsed, no order exists and no update can be made, whatever the Tupfiles now say. -/
theorem c74_stuck {s : St} {x : Dir} (h : Path s.links x x) (hr : Reach s x) : ¬ ∃ order, Valid s order := by
  rintro ⟨order, hv⟩
  have hx := (hv.mem x).2 hr
  obtain ⟨l, r, e⟩ := List.append_of_mem hx
  have := path_before hv h hx l r e
  have hn := hv.nodup
  rw [e] at hn
  exact (List.nodup_append.1 hn).2.2 x this x (by simp) rfl

/-! ### Cases -/

/-- An update, or nothing if it fails; for the examples. -/
def upd (s : St) (order : List Dir) : St :=
  match update s order with
  | .ok s' => s'
  | .err _ => s

def okay (s : St) (order : List Dir) : Bool :=
  match update s order with
  | .ok _ => true
  | .err _ => false

theorem upd_eq {s : St} {order : List Dir} (h : okay s order = true) : update s order = .ok (upd s order) := by
  unfold okay at h
  unfold upd
  split at h
  · next e => rw [e]
  · cases h

theorem acyclic_of_lt {L : List (Dir × Dir)} (h : ∀ l ∈ L, l.1 < l.2) : Acyclic L := by
  have : ∀ a b, Path L a b → a < b := by
    intro a b hp
    induction hp with
    | one h' => exact h _ h'
    | cons h' _ ih => exact Nat.lt_trans (h _ h') ih
  exact fun x hx => Nat.lt_irrefl _ (this x x hx)

theorem valid_of {s : St} {order : List Dir} (h1 : order.Nodup) (h2 : ∀ d ∈ order, d ∈ s.flags ∨ ∃ b ∈ s.flags, (b, d) ∈ s.links) (h3 : ∀ d ∈ s.flags, d ∈ order)
    (h4 : ∀ l ∈ s.links, l.1 ∈ order → l.2 ∈ order ∧ ∀ i ∈ List.range order.length, order[i]? = some l.2 → l.1 ∈ order.take i) : Valid s order := by
  refine ⟨h1, fun d => ⟨fun hd => ?_, fun hr => ?_⟩, ?_⟩
  · rcases h2 d hd with h | ⟨b, h, h'⟩
    · exact .flag h
    · exact .link (.flag h) h'
  · induction hr with
    | flag h => exact h3 _ h
    | link _ h ih => exact (h4 _ h ih).1
  · intro b d hl hb l r e
    have := (h4 _ hl hb).2 l.length (by rw [e]; simp) (by rw [e]; simp)
    rw [e] at this
    simpa using this

/-- Directory 0 makes `g` if there is a source `a`; directory 1 makes `u` if it finds `g` in directory 0. -/
def genProg : Prog := .look 0 (fun n => if n "a".toList then .rule ⟨"gen".toList, [(0, "g".toList)]⟩ .done else .done)
def useProg : Prog := .look 0 (fun n => if n "g".toList then .rule ⟨"use".toList, [(1, "u".toList)]⟩ .done else .done)

def two : St := edit (edit init 0 (fun n => n == "a".toList) genProg) 1 (fun _ => false) useProg
def two1 : St := upd two [1, 0]
/-- The source is removed. -/
def two2 : St := edit two1 0 (fun _ => false) genProg
def two3 : St := upd two2 [0, 1]

theorem two_hist : Hist two := .edit (.edit .init)
theorem two_valid : Valid two [1, 0] := valid_of (by decide +kernel) (fun d hd => .inl hd) (fun d hd => hd) (by intro l hl; cases hl)
theorem two_ok : update two [1, 0] = .ok two1 := upd_eq (by decide +kernel)
theorem two_acyclic : Acyclic two1.links := acyclic_of_lt (by decide +kernel)
theorem two2_hist : Hist two2 := .edit (.update two_hist two_valid two_ok two_acyclic)
theorem two2_valid : Valid two2 [0, 1] := valid_of (by decide +kernel) (by decide +kernel) (by decide +kernel) (by decide +kernel)

/-- The case of `c74_right`: directory 1 comes up first and has directory 0 parsed; both have a command. -/
example : two1.rules 0 = [⟨"gen".toList, [(0, "g".toList)]⟩] ∧ two1.rules 1 = [⟨"use".toList, [(1, "u".toList)]⟩] ∧ two1.links = [(0, 1)] := by decide +kernel
example : ∀ d, Means two d (two1.rules d) := (c74_right two_hist two_valid two_ok two_acyclic).1

/-- Only directory 0 is flagged after the removal; directory 1 is parsed too, and both commands go. -/
example : two2.flags = [0] ∧ two3.rules 0 = [] ∧ two3.rules 1 = [] := by decide +kernel
example : ∀ d, Means two2 d (two3.rules d) := (c74_right two2_hist two2_valid (upd_eq (by decide +kernel)) (acyclic_of_lt (by decide +kernel))).1

/-- The case of `c74_accepts`. -/
example : ∀ d, ∃ l, Means two2 d l := (c74_accepts two2_hist two2_valid).1 ⟨_, upd_eq (by decide +kernel), acyclic_of_lt (by decide +kernel)⟩

/-- The case of `c74_same`: the same sources at once, in a new project. -/
def once : St := edit (edit init 0 (fun _ => false) genProg) 1 (fun _ => false) useProg

example : two3.rules = (upd once [0, 1]).rules := by
  refine c74_same two2_hist (.edit (.edit .init)) ?_ ?_ two2_valid (valid_of (order := [0, 1]) (by decide +kernel) (by decide +kernel) (by decide +kernel) (by intro l hl; cases hl)) (upd_eq (by decide +kernel)) (upd_eq (by decide +kernel))
    (acyclic_of_lt (by decide +kernel)) (acyclic_of_lt (by decide +kernel))
  · funext d
    show set (set (set init.src 0 _) 1 _) 0 _ d = set (set init.src 0 _) 1 _ d
    unfold set
    split
    · next h => simp [h]
    · rfl
  · funext d
    show set (set (set init.prog 0 _) 1 _) 0 _ d = set (set init.prog 0 _) 1 _ d
    unfold set
    split
    · next h => simp [h]
    · rfl

/-- The case of `c74_order`. -/
example : ∃ order, Valid two2 order := c74_order two2_hist

/-! ### Circles -/

/-- Directories 1 and 2 each make a file unless the other one does; directory 0 looks at directory 1. -/
def ringA : Prog := .look 2 (fun n => if n "o".toList then .done else .rule ⟨"a".toList, [(1, "o".toList)]⟩ .done)
def ringB : Prog := .look 1 (fun n => if n "o".toList then .done else .rule ⟨"b".toList, [(2, "o".toList)]⟩ .done)
def ring : St := edit (edit (edit init 2 (fun _ => false) ringB) 1 (fun _ => false) ringA) 0 (fun _ => false) (.look 1 (fun _ => .done))
def ring1 : St := upd ring [0, 1, 2]
/-- The Tupfile of directory 1 is corrected. -/
def ring2 : St := edit ring1 1 (fun _ => false) .done

theorem ring_hist : Hist ring := .edit (.edit (.edit .init))

theorem ring_means : ∀ n, meaning ring n 1 = none ∧ meaning ring n 2 = none := by
  intro n
  induction n with
  | zero => exact ⟨rfl, rfl⟩
  | succ n ih =>
    constructor
    · rw [meaning, show ring.prog 1 = ringA from rfl, ringA, eval, if_neg (by decide), ih.2]
    · rw [meaning, show ring.prog 2 = ringB from rfl, ringB, eval, if_neg (by decide), ih.1]

/-- C74: that the update leaves no circle cannot be left out.  A circle of two Tupfiles is found when one of them comes up first; but it is not found when they are parsed for a third directory that looks at one of them.
Then the update succeeds, though the two have no meaning, and the links that it leaves have a circle. -/
theorem c74_circle_missed : ∃ s, Hist s ∧ Valid s [1, 2, 0] ∧ Valid s [0, 1, 2] ∧ (∀ l, ¬ Means s 1 l) ∧ update s [1, 2, 0] = .err .circular ∧ ∃ s', update s [0, 1, 2] = .ok s' ∧ Path s'.links 1 1 := by
  refine ⟨ring, ring_hist, valid_of (by decide +kernel) (by decide +kernel) (by decide +kernel) (by intro l hl; cases hl), valid_of (by decide +kernel) (by decide +kernel) (by decide +kernel) (by intro l hl; cases hl), ?_, rfl, ring1,
    upd_eq (by decide +kernel), .cons (b := 2) (by decide +kernel) (.one (by decide +kernel))⟩
  rintro l ⟨n, h⟩
  rw [(ring_means n).1] at h
  cases h

/-- C74: after that, the project cannot be updated even when the circle has been taken out of the Tupfiles and all of them have a meaning. -/
theorem c74_circle_stays : ∃ s s' : St, Hist s ∧ Valid s [0, 1, 2] ∧ update s [0, 1, 2] = .ok s' ∧ (∀ d, ∃ l, Means (edit s' 1 (fun _ => false) .done) d l) ∧ ¬ ∃ order, Valid (edit s' 1 (fun _ => false) .done) order := by
  refine ⟨ring, ring1, ring_hist, valid_of (by decide +kernel) (by decide +kernel) (by decide +kernel) (by intro l hl; cases hl), upd_eq (by decide +kernel), ?_, ?_⟩
  · intro d
    match d with
    | 0 => exact ⟨_, 2, rfl⟩
    | 1 => exact ⟨_, 1, rfl⟩
    | 2 => exact ⟨_, 2, rfl⟩
    | d + 3 => exact ⟨[], 1, rfl⟩
  · exact c74_stuck (x := 1) (.cons (b := 2) (by decide +kernel) (.one (by decide +kernel))) (.flag (by decide +kernel))

end Tup.Reparse
