import Verif.External.Scan

/-! From what the scan sees to what is in the database. -/

namespace Tup.External

open Tup.Db

variable {d : Disk}

theorem Below.under {db : Db} {s i : Nat} {p : List Str} (h : Below db s i p) : Under db s i := by
  induction h with
  | top => exact .refl
  | sub _ hn hd ih => exact .sub (by rw [hd]; exact ih) hn

theorem Below.lt {db : Db} (hw : Wf db) {s i : Nat} {p : List Str} (h : Below db s i p) (hp : p ≠ []) : s < i := by
  cases h with
  | top => exact absurd rfl hp
  | sub ha hn hd =>
    have h1 := ha.under.le hw
    have h2 := hw.down _ _ hn
    omega

theorem Below.nil {db : Db} {s i : Nat} {p : List Str} (h : Below db s i p) (hp : p = []) : i = s := by
  cases h with
  | top => rfl
  | sub _ _ _ => simp at hp

theorem Below.row {db : Db} {s i : Nat} {p : List Str} (h : Below db s i p) (hp : p ≠ []) : ∃ n, db.node i = some n := by
  cases h with
  | top => exact absurd rfl hp
  | sub _ hn _ => exact ⟨_, hn⟩

theorem Below.trans {db : Db} {s a i : Nat} {p q : List Str} (h : Below db s a p) (h' : Below db a i q) :
    Below db s i (p ++ q) := by
  induction h' with
  | top => simpa using h
  | sub _ hn hd ih => rw [← List.append_assoc]; exact .sub ih hn hd

theorem Below.unique {db : Db} (hw : Wf db) {s i : Nat} {p q : List Str} (h : Below db s i p) (h' : Below db s i q) :
    p = q := by
  induction h generalizing q with
  | top =>
    by_cases hq : q = []
    · exact hq.symm
    · exact absurd (h'.lt hw hq) (by omega)
  | @sub i a p n ha hn hd ih =>
    cases h' with
    | top =>
      have h1 := ha.under.le hw
      have h2 := hw.down _ _ hn
      omega
    | @sub _ b q m hb hm hmd =>
      rw [hn] at hm
      cases hm
      rw [hd] at hmd
      subst hmd
      rw [ih hb]

theorem Seen.tail {db : Db} {s i : Nat} {p q : List Str} (h : Seen db d s p i q) :
    ∃ r, r ≠ [] ∧ q = p ++ r ∧ Below db s i r := by
  induction h with
  | @child i n hn hd => exact ⟨[n.name], by simp, rfl, .sub (p := []) .top hn hd⟩
  | @sub i a n m q _ _ _ hn hd ih =>
    obtain ⟨r, _, rfl, hb⟩ := ih
    exact ⟨r ++ [n.name], by simp, by simp, .sub hb hn hd⟩

theorem Seen.path {db : Db} {s i : Nat} {q : List Str} (h : Seen db d s [] i q) : q ≠ [] ∧ Below db s i q := by
  obtain ⟨r, h1, h2, h3⟩ := h.tail
  have h2 : q = r := h2
  exact h2 ▸ ⟨h1, h3⟩

/-- A path that is not seen lies below one that is not a directory and is recorded as it is. -/
theorem seen_or {db : Db} {s i : Nat} {p : List Str} (h : Below db s i p) (hp : p ≠ []) :
    Seen db d s [] i p ∨ ∃ a pa q n, Below db s a pa ∧ pa ≠ [] ∧ db.node a = some n ∧ d.dir pa = false ∧
      n.mtime = d.time pa ∧ Below db a i q ∧ q ≠ [] ∧ p = pa ++ q := by
  induction h with
  | top => exact absurd rfl hp
  | @sub i a p n ha hn hd ih =>
    by_cases hp' : p = []
    · have := ha.nil hp'
      subst hp'
      exact .inl (.child hn (hd.trans this))
    · rcases ih hp' with h | ⟨b, pb, q, m, h1, h2, h3, h4, h5, h6, h7, rfl⟩
      · obtain ⟨m, hm⟩ := h.node
        by_cases ho : d.dir p = true ∨ m.mtime ≠ d.time p
        · exact .inl (.sub h hm ho hn hd)
        · simp only [not_or, Bool.not_eq_true] at ho
          exact .inr ⟨a, p, [n.name], m, ha, hp', hm, ho.1, Decidable.not_not.1 ho.2, .sub (p := []) .top hn hd, by simp, rfl⟩
      · exact .inr ⟨b, pb, q ++ [n.name], m, h1, h2, h3, h4, h5, .sub h6 hn hd, by simp, by simp⟩

/-- What lies below such a path is not seen. -/
theorem not_seen {db : Db} (hw : Wf db) {s a i : Nat} {p q r : List Str} {n : Node} (ha : Below db s a p) (hp : p ≠ [])
    (hn : db.node a = some n) (hdir : d.dir p = false) (ht : n.mtime = d.time p) (hi : Below db a i q) (hq : q ≠ []) :
    ¬ Seen db d s [] i r := by
  induction hi generalizing r with
  | top => exact absurd rfl hq
  | @sub i b q m hb hm hmd ih =>
    intro hs
    have hsb : s < a := ha.lt hw hp
    have hab : a ≤ b := hb.under.le hw
    cases hs with
    | child hm' hd' =>
      rw [hm] at hm'
      cases hm'
      omega
    | @sub _ b' _ m' r' hsb' hm' ho hm'' hd' =>
      rw [hm] at hm''
      cases hm''
      rw [hmd] at hd'
      subst hd'
      by_cases hq' : q = []
      · have := hb.nil hq'
        subst this
        rw [hn] at hm'
        cases hm'
        have := hsb'.path.2.unique hw ha
        subst this
        rcases ho with ho | ho
        · rw [hdir] at ho; cases ho
        · exact ho ht
      · exact ih hq' hsb'

theorem settled_of {db : Db} {s : Nat} {d d' : Disk} (hi : InStep db s d) (hh : Honest d d') :
    Settled db s d' := by
  intro i p n hb hp hn hd ht j q m hj hq hm
  rw [hi (j) (p ++ q) m (hb.trans hj) (by simp [hq]) hm]
  refine below_gone ?_ hq
  cases h : d.dir p with
  | false => rfl
  | true =>
    refine absurd ?_ (hh p h hd)
    rw [← hi i p n hb hp hn, ht]

theorem instep_of {db db' : Db} (hw : Wf db) {s : Nat} (he : Effect db db' d (Seen db d s [])) (hs : Settled db s d) :
    InStep db' s d := by
  intro i p n hb hp hn
  have hb' := he.alike.symm.below hb
  obtain ⟨m, hm⟩ : ∃ m, db.node i = some m := by
    obtain ⟨m, hm, _⟩ := he.alike.symm.to hn
    exact ⟨m, hm⟩
  rcases seen_or (d := d) hb' hp with h | ⟨a, pa, q, n', h1, h2, h3, h4, h5, h6, h7, rfl⟩
  · rw [he.hit i p m h hm] at hn
    cases hn
    rfl
  · rw [he.miss i (.inr fun r => not_seen hw h1 h2 h3 h4 h5 h6 h7)] at hn
    rw [below_gone h4 h7]
    exact hs a pa n' h1 h2 h3 h4 h5 i q n h6 h7 hn

theorem settled_iff {db db' : Db} (hw : Wf db) {s : Nat} (he : Effect db db' d (Seen db d s [])) :
    InStep db' s d ↔ Settled db s d := by
  refine ⟨?_, instep_of hw he⟩
  intro hi i p n hb hp hn hd ht j q m hj hq hm
  have hrow := he.miss j (.inr fun r => not_seen hw hb hp hn hd ht hj hq)
  have := hi j (p ++ q) m (he.alike.below (hb.trans hj)) (by simp [hq]) (by rw [hrow, hm])
  rw [this, below_gone hd hq]

theorem reads_iff {db : Db} {s : Nat} (hs : Settled db s d) (j : Nat) :
    (∃ i q n, Seen db d s [] i q ∧ db.node i = some n ∧ n.mtime ≠ d.time q ∧ db.normal i j = true) ↔
      Reads db s d j := by
  constructor
  · rintro ⟨i, q, n, h, hn, ht, hl⟩
    exact ⟨i, q, n, h.path.2, h.path.1, hn, ht, hl⟩
  · rintro ⟨i, q, n, hb, hq, hn, ht, hl⟩
    rcases seen_or (d := d) hb hq with h | ⟨a, pa, r, n', h1, h2, h3, h4, h5, h6, h7, rfl⟩
    · exact ⟨i, q, n, h, hn, ht, hl⟩
    · refine absurd ?_ ht
      rw [below_gone h4 h7]
      exact hs a pa n' h1 h2 h3 h4 h5 i r n h6 h7 hn

/-- Opening the entries one after the other leads where the path leads. -/
theorem openPath_time {parent : List Str} {name : Str} {t : Time} (h : outsideMtime d parent name = some t) :
    t = d.time (parent ++ [name]) := by
  unfold outsideMtime at h
  split at h
  case isFalse => cases h
  case isTrue =>
    unfold Disk.time
    rw [timeAt_snoc]
    have key : ∀ (i : Nat) (p : List Str), match openPath d i p with
        | .denied => True
        | .absent => d.leads i p = none
        | .fd k => d.leads i p = some k ∨ (d.leads i p = none ∧ d.obj k ≠ .dir) := by
      intro i p
      induction p generalizing i with
      | nil => exact .inl rfl
      | cons m p ih =>
        simp only [openPath, Disk.leads]
        cases hopen : d.openat i m with
        | denied => trivial
        | absent =>
          have : d.enter i m = none := by unfold Disk.enter; rw [hopen]; simp
          simp only [this]
        | fd k =>
          simp only
          by_cases hdir : d.isDir i m = true
          · have : d.enter i m = some k := by unfold Disk.enter; rw [hopen, if_pos hdir]
            rw [this]
            exact ih k
          · have : d.enter i m = none := by unfold Disk.enter; rw [if_neg hdir]
            rw [this]
            -- a file: nothing can be opened in it
            have hk : d.obj k ≠ .dir := by
              intro hk
              apply hdir
              unfold Disk.openat at hopen
              unfold Disk.isDir
              cases hl : d.lookup i m with
              | none => rw [hl] at hopen; cases hopen
              | some j =>
                simp only [hl] at hopen
                cases hf : d.follow j with
                | none => rw [hf] at hopen; cases hopen
                | some k' =>
                  simp only [hf] at hopen
                  split at hopen
                  · cases hopen
                    simpa [hf] using hk
                  · cases hopen
            cases p with
            | nil => exact .inr ⟨rfl, hk⟩
            | cons m' p =>
              have : d.openat k m' = .absent := by
                unfold Disk.openat Disk.lookup
                rw [if_neg hk]
              simp only [openPath, this]
    have := key d.root parent
    cases hopen : openPath d d.root parent with
    | denied => rw [hopen] at h; cases h
    | absent =>
      rw [hopen] at h this
      simp only at this
      cases h
      rw [this]
    | fd k =>
      rw [hopen] at h this
      simp only at this h
      rcases this with this | ⟨this, hk⟩
      · rw [this]
        simp only
        cases hl : d.lookup k name with
        | none => rw [hl] at h; cases h; rfl
        | some j => rw [hl] at h; cases h; rfl
      · rw [this]
        have : d.lookup k name = none := by unfold Disk.lookup; rw [if_neg hk]
        rw [this] at h
        cases h
        rfl

/-- All nodes below `/` are ghosts. -/
def AllGhosts (db : Db) (slash : Nat) : Prop :=
  ∀ i p n, Below db slash i p → p ≠ [] → db.node i = some n → n.kind = .ghost

/-- What is known about the database whenever no update is at work on outside files. -/
structure Sound (db : Db) (slash : Nat) (d : Disk) : Prop where
  wf : Wf db
  here : (db.node slash).isSome
  ghosts : AllGhosts db slash
  step : InStep db slash d

/-- The rows that there are stay, and new ones may come. -/
def Grows (db db' : Db) : Prop := ∀ i n, db.node i = some n → db'.node i = some n

theorem Grows.below {db db' : Db} (h : Grows db db') {s i : Nat} {p : List Str} (hb : Below db s i p) : Below db' s i p := by
  induction hb with
  | top => exact .top
  | sub _ hn hd ih => exact .sub ih (h _ _ hn) hd

theorem insert_sound {db : Db} {s cur : Nat} {parent : List Str} {name : Str} (hs : Sound db s d)
    (hb : Below db s cur parent) (hc : (db.node cur).isSome) :
    let r := db.insertNode { dir := cur, kind := .ghost, name, mtime := d.time (parent ++ [name]) }
    Sound r.1 s d ∧ Grows db r.1 ∧ Below r.1 s r.2 (parent ++ [name]) ∧ (r.1.node r.2).isSome := by
  intro r
  obtain ⟨i, hi⟩ : ∃ i, i = fresh db.node db.top := ⟨_, rfl⟩
  have hfresh : db.node i = none := hi ▸ fresh_node hs.wf.bounded
  have habove : ∀ j, i ≤ j → db.node j = none := by
    intro j hj
    exact fresh_none hs.wf.bounded j (hi ▸ hj)
  have hr2 : r.2 = i := hi.symm
  have hnew : r.1.node i = some { dir := cur, kind := .ghost, name, mtime := d.time (parent ++ [name]) } := by
    show (if i = fresh db.node db.top then _ else _) = _
    rw [if_pos hi]
  have hold : ∀ j, j ≠ i → r.1.node j = db.node j := by
    intro j hj
    show (if j = fresh db.node db.top then _ else _) = _
    rw [if_neg (hi ▸ hj)]
  have hlt : ∀ j n, db.node j = some n → j < i := by
    intro j n hn
    by_cases h : j < i
    · exact h
    · rw [habove j (by omega)] at hn; cases hn
  have hgrow : Grows db r.1 := by
    intro j n hn
    rw [hold j (by have := hlt j n hn; omega), hn]
  have hwf : Wf r.1 := by
    constructor
    · intro j hj
      have hj : max db.top (fresh db.node db.top + 1) ≤ j := hj
      rw [hold j (by omega)]
      exact hs.wf.bounded j (by omega)
    · intro j n hn
      by_cases h : j = i
      · subst h
        rw [hnew] at hn
        cases hn
        obtain ⟨m, hm⟩ := Option.isSome_iff_exists.1 hc
        exact hlt cur m hm
      · rw [hold j h] at hn
        exact hs.wf.down j n hn
  -- nothing is in the new directory
  have hback : ∀ j p, Below r.1 s j p → p ≠ [] → Below db s j p ∨ (j = i ∧ p = parent ++ [name]) := by
    intro j p h
    induction h with
    | top => intro hp; exact absurd rfl hp
    | @sub j a p n ha hn hd ih =>
      intro _
      have ha' : Below db s a p ∨ (a = i ∧ p = parent ++ [name]) := by
        by_cases hp : p = []
        · have := ha.nil hp
          subst this hp
          exact .inl .top
        · exact ih hp
      by_cases h : j = i
      · subst h
        rw [hnew] at hn
        cases hn
        have hd : cur = a := hd
        subst hd
        rcases ha' with h' | ⟨h', _⟩
        · rw [h'.unique hs.wf hb]
          exact .inr ⟨rfl, rfl⟩
        · rw [h', hfresh] at hc
          cases hc
      · rw [hold j h] at hn
        rcases ha' with h' | ⟨rfl, _⟩
        · exact .inl (.sub h' hn hd)
        · have h1 := hs.wf.down j n hn
          have h2 := hlt j n hn
          omega
  refine ⟨⟨hwf, ?_, ?_, ?_⟩, hgrow, ?_, ?_⟩
  · obtain ⟨m, hm⟩ := Option.isSome_iff_exists.1 hs.here
    rw [hgrow s m hm]; rfl
  · intro j p n hbj hp hn
    rcases hback j p hbj hp with h | ⟨rfl, rfl⟩
    · obtain ⟨m, hm⟩ := h.row hp
      rw [hgrow j m hm] at hn
      cases hn
      exact hs.ghosts j p _ h hp hm
    · rw [hnew] at hn
      cases hn
      rfl
  · intro j p n hbj hp hn
    rcases hback j p hbj hp with h | ⟨rfl, rfl⟩
    · obtain ⟨m, hm⟩ := h.row hp
      rw [hgrow j m hm] at hn
      cases hn
      exact hs.step j p _ h hp hm
    · rw [hnew] at hn
      cases hn
      rfl
  · rw [hr2]
    exact .sub (n := { dir := cur, kind := .ghost, name, mtime := d.time (parent ++ [name]) }) (hgrow.below hb) hnew rfl
  · rw [hr2, hnew]; rfl

theorem addElements_sound (path : List Str) : ∀ {db db' : Db} {s cur i : Nat} {parent : List Str}, Sound db s d →
    Below db s cur parent → (db.node cur).isSome → addElements d db cur parent path = some (db', i) →
    Sound db' s d ∧ Grows db db' ∧ Below db' s i (parent ++ path) ∧ (db'.node i).isSome := by
  induction path with
  | nil =>
    intro db db' s cur i parent hs hb hc h
    cases h
    exact ⟨hs, fun _ _ h => h, by simpa using hb, hc⟩
  | cons name path ih =>
    intro db db' s cur i parent hs hb hc h
    simp only [addElements] at h
    cases he : addElement d db cur parent name with
    | none => rw [he] at h; cases h
    | some r =>
      obtain ⟨db₁, j⟩ := r
      rw [he] at h
      simp only at h
      have h1 : Sound db₁ s d ∧ Grows db db₁ ∧ Below db₁ s j (parent ++ [name]) ∧ (db₁.node j).isSome := by
        unfold addElement at he
        cases hsel : db.select cur name with
        | some k =>
          rw [hsel] at he
          cases he
          obtain ⟨n, hn, hd, hname⟩ := select_some hsel
          exact ⟨hs, fun _ _ h => h, hname ▸ .sub hb hn hd, by rw [hn]; rfl⟩
        | none =>
          rw [hsel] at he
          simp only at he
          cases ho : outsideMtime d parent name with
          | none => rw [ho] at he; cases he
          | some t =>
            rw [ho] at he
            simp only [Option.some.injEq] at he
            have := insert_sound (name := name) hs hb hc
            rw [← openPath_time ho, he] at this
            exact this
      obtain ⟨h2, h3, h4, h5⟩ := h1
      obtain ⟨h6, h7, h8, h9⟩ := ih h2 h4 h5 h
      exact ⟨h6, fun i n hn => h7 i n (h3 i n hn), by simpa using h8, h9⟩

end Tup.External
