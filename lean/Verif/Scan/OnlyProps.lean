import Verif.Scan.Props

/-! C41, the other direction: what is scheduled when a file or directory is gone has a reason. -/

namespace Tup.Scan

open Db

/-- The reasons to parse a directory `j` outside of `B`: it reads something in `B`, it is where something of `B` was, or its Tupfile
makes a file in `B`. -/
def WhyParsed (db : Db) (B : Nat → Prop) (j : Nat) : Prop :=
  (∃ f, B f ∧ db.normal f j = true ∧ db.isKind .dir j = true) ∨ (∃ f n, B f ∧ db.node f = some n ∧ n.dir = j) ∨
  ∃ f n, B f ∧ db.node f = some n ∧ n.kind = .generated ∧ n.src = some j ∧ db.isKind .dir j = true

/-- The reasons to run a command `j` outside of `B`: it reads something in `B`, or makes a file in `B`. -/
def WhyRun (db : Db) (B : Nat → Prop) (j : Nat) : Prop :=
  ∃ f, B f ∧ ((db.normal f j = true ∧ (db.isKind .cmd j = true ∨ db.isKind .group j = true)) ∨
    (db.normal j f = true ∧ db.isKind .generated f = true))

/-- The reason to read a configuration `j` outside of `B`: it reads something in `B`. -/
def WhyRead (db : Db) (B : Nat → Prop) (j : Nat) : Prop := ∃ f, B f ∧ db.normal f j = true ∧ db.isKind .file j = true

/-- The state on the way from `db0`. -/
structure Way (db0 : Db) (B : Nat → Prop) (db : Db) : Prop where
  top : db.top = db0.top
  sub : ∀ f n, db.node f = some n → ∃ n0, db0.node f = some n0 ∧ n.dir = n0.dir ∧ n.name = n0.name ∧
    (n.kind = n0.kind ∧ n.src = n0.src ∨ n.kind = .ghost)
  outside : ∀ j, ¬ B j → db.node j = db0.node j
  group : ∀ f n, db0.node f = some n → n.kind = .group → n.name ≠ tupConfig → db.node f = some n
  normal : ∀ a b, db.normal a b = true → db0.normal a b = true
  create : ∀ j, ¬ B j → db.create j = true → db0.create j = true ∨ WhyParsed db0 B j
  modify : ∀ j, ¬ B j → db.modify j = true → db0.modify j = true ∨ WhyRun db0 B j
  config : ∀ j, ¬ B j → db.config j = true → db0.config j = true ∨ WhyRead db0 B j

variable {db0 db db' : Db} {B : Nat → Prop} {sort : List (Nat × Kind) → List (Nat × Kind)} {fuel i : Nat} {n : Node}

theorem Way.kind (h : Way db0 B db) {j : Nat} (hj : ¬ B j) (k : Kind) : db.isKind k j = db0.isKind k j := isKind_congr (h.outside j hj) k

/-- Only the flags change. -/
theorem Way.flags (h : Way db0 B db) (ht : db'.top = db.top) (hn : db'.node = db.node) (hl : db'.normal = db.normal)
    (hc : ∀ j, ¬ B j → db'.create j = true → db.create j = true ∨ WhyParsed db0 B j)
    (hm : ∀ j, ¬ B j → db'.modify j = true → db.modify j = true ∨ WhyRun db0 B j)
    (hf : ∀ j, ¬ B j → db'.config j = true → db.config j = true ∨ WhyRead db0 B j) : Way db0 B db' where
  top := ht.trans h.top
  sub := by rw [hn]; exact h.sub
  outside := by rw [hn]; exact h.outside
  group := by rw [hn]; exact h.group
  normal := by rw [hl]; exact h.normal
  create := fun j hj hh => (hc j hj hh).elim (h.create j hj) .inr
  modify := fun j hj hh => (hm j hj hh).elim (h.modify j hj) .inr
  config := fun j hj hh => (hf j hj hh).elim (h.config j hj) .inr

theorem Way.addCreate (h : Way db0 B db) {d : Nat} (hd : B d ∨ ∃ f n, B f ∧ db0.node f = some n ∧ n.dir = d) : Way db0 B (db.addCreate d) := by
  refine h.flags rfl rfl rfl (fun j hj hh => ?_) (fun _ _ h => .inl h) (fun _ _ h => .inl h)
  rcases Bool.or_eq_true_iff.1 hh with hh | hh
  · exact .inl hh
  · cases of_decide_eq_true hh
    exact hd.elim (fun h => absurd h hj) (fun h => .inr (.inr (.inl h)))

theorem Way.createByInput (h : Way db0 B db) {f : Nat} (hf : B f) : Way db0 B (db.createByInput f) := by
  refine h.flags rfl rfl rfl (fun j hj hh => ?_) (fun _ _ h => .inl h) (fun _ _ h => .inl h)
  rcases Bool.or_eq_true_iff.1 hh with hh | hh
  · exact .inl hh
  · obtain ⟨h1, h2⟩ := Bool.and_eq_true_iff.1 hh
    rw [h.kind hj] at h2
    exact .inr (.inl ⟨f, hf, h.normal _ _ h1, h2⟩)

theorem Way.configByInput (h : Way db0 B db) {f : Nat} (hf : B f) : Way db0 B (db.configByInput f) := by
  refine h.flags rfl rfl rfl (fun _ _ h => .inl h) (fun _ _ h => .inl h) (fun j hj hh => ?_)
  rcases Bool.or_eq_true_iff.1 hh with hh | hh
  · exact .inl hh
  · obtain ⟨h1, h2⟩ := Bool.and_eq_true_iff.1 hh
    rw [h.kind hj] at h2
    exact .inr ⟨f, hf, h.normal _ _ h1, h2⟩

theorem Way.modifyByInput (h : Way db0 B db) {f : Nat} (hf : B f) : Way db0 B (db.modifyByInput f) := by
  refine h.flags rfl rfl rfl (fun _ _ h => .inl h) (fun j hj hh => ?_) (fun _ _ h => .inl h)
  rcases Bool.or_eq_true_iff.1 hh with hh | hh
  · exact .inl hh
  · obtain ⟨h1, h2⟩ := Bool.and_eq_true_iff.1 hh
    rw [h.kind hj, h.kind hj] at h2
    exact .inr ⟨f, hf, .inl ⟨h.normal _ _ h1, Bool.or_eq_true_iff.1 h2⟩⟩

theorem Way.srcid (h : Way db0 B db) (hB : ∀ j n, db0.node j = some n → B n.dir → B j) {d : Nat} (hd : B d) : Way db0 B (srcidDirFlags db d) := by
  refine h.flags rfl rfl rfl (fun j hj hh => ?_) (fun _ _ h => .inl h) (fun _ _ h => .inl h)
  rcases Bool.or_eq_true_iff.1 hh with hh | hh
  · exact .inl hh
  · obtain ⟨h1, h2⟩ := Bool.and_eq_true_iff.1 hh
    have h1 := (Bool.and_eq_true_iff.1 h1).1
    rw [h.kind hj] at h1
    unfold Db.anyNode at h2
    obtain ⟨f, _, h3⟩ := List.any_eq_true.1 h2
    split at h3
    · rename_i m hm
      simp only [Bool.and_eq_true, decide_eq_true_eq] at h3
      obtain ⟨⟨h3, h4⟩, h5⟩ := h3
      obtain ⟨n0, e1, e2, _, e4⟩ := h.sub f m hm
      rcases e4 with ⟨e4, e5⟩ | e4
      · exact .inr (.inr (.inr ⟨f, n0, hB f n0 e1 (by rw [← e2, h3]; exact hd), e1, e4 ▸ h4, e5 ▸ h5, h1⟩))
      · rw [h4] at e4; cases e4
    · cases h3

theorem Way.addConfig (h : Way db0 B db) (hi : B i) : Way db0 B (db.addConfig i) := by
  refine h.flags rfl rfl rfl (fun _ _ h => .inl h) (fun _ _ h => .inl h) (fun j hj hh => ?_)
  rcases Bool.or_eq_true_iff.1 hh with hh | hh
  · exact .inl hh
  · cases of_decide_eq_true hh
    exact absurd hi hj

/-- A node of `B` changes to a ghost or goes away. -/
theorem Way.drop (h : Way db0 B db) (hi : B i) (hn : ∀ m, db'.node i = some m → ∃ n, db.node i = some n ∧ m.dir = n.dir ∧ m.name = n.name ∧ m.kind = .ghost)
    (hg : ∀ n, db.node i = some n → n.kind = .group → n.name = tupConfig)
    (ho : ∀ j, j ≠ i → db'.node j = db.node j) (hl : db'.normal = db.normal) (hc : db'.create = db.create) (hm : db'.modify = db.modify)
    (hf : db'.config = db.config) (ht : db'.top = db.top) : Way db0 B db' where
  top := ht.trans h.top
  sub := fun f m hm => by
    by_cases hfi : f = i
    · subst hfi
      obtain ⟨n, e1, e2, e3, e4⟩ := hn m hm
      obtain ⟨n0, k1, k2, k3, _⟩ := h.sub f n e1
      exact ⟨n0, k1, e2.trans k2, e3.trans k3, .inr e4⟩
    · rw [ho f hfi] at hm
      exact h.sub f m hm
  outside := fun j hj => by rw [ho j (fun he => hj (he ▸ hi))]; exact h.outside j hj
  group := fun f m h1 h2 h3 => by
    have h4 := h.group f m h1 h2 h3
    by_cases hfi : f = i
    · subst hfi
      exact absurd (hg m h4 h2) h3
    · rw [ho f hfi]; exact h4
  normal := by rw [hl]; exact h.normal
  create := by rw [hc]; exact h.create
  modify := by rw [hm]; exact h.modify
  config := by rw [hf]; exact h.config

theorem Way.setKind (h : Way db0 B db) (hi : B i) (hg : ∀ n, db.node i = some n → n.kind = .group → n.name = tupConfig) : Way db0 B (db.setKind i .ghost) := by
  refine h.drop hi (fun m hm => ?_) hg (fun j hj => if_neg hj) rfl rfl rfl rfl rfl
  have hm : (if i = i then (db.node i).map (fun n => { n with kind := .ghost }) else db.node i) = some m := hm
  rw [if_pos rfl] at hm
  obtain ⟨n, e1, rfl⟩ := Option.map_eq_some_iff.1 hm
  exact ⟨n, e1, rfl, rfl, rfl⟩

theorem Way.delete (h : Way db0 B db) (hi : B i) (hg : ∀ n, db.node i = some n → n.kind ≠ .group) : Way db0 B (db.deleteNameFile i) := by
  have h1 : Way db0 B (db.unflagAll i) := by
    refine h.flags rfl rfl rfl (fun j _ hh => ?_) (fun j _ hh => ?_) (fun j _ hh => ?_)
    all_goals exact .inl (Bool.and_eq_true_iff.1 hh).1
  have h2 : Way db0 B ((db.unflagAll i).deleteLinks i) := by
    have hk : (((db.unflagAll i).ghostChecks i).isKind .group i) = false := by
      rw [Bool.eq_false_iff]
      intro hh
      obtain ⟨n, e1, e2⟩ := isKind_iff.1 hh
      exact hg n e1 e2
    unfold Db.deleteLinks Db.flagGroupUsers
    rw [hk]
    simp only [Bool.false_eq_true, if_false]
    exact ⟨h1.top, h1.sub, h1.outside, h1.group, fun a b hh => h1.normal a b (Bool.and_eq_true_iff.1 (Bool.and_eq_true_iff.1 hh).1).1, h1.create, h1.modify, h1.config⟩
  have hg2 : ∀ n, ((db.unflagAll i).deleteLinks i).node i = some n → n.kind ≠ .group := fun n hn => by
    refine hg n ?_
    rw [← hn]
    unfold Db.deleteLinks Db.flagGroupUsers
    split <;> rfl
  unfold Db.deleteNameFile
  generalize (db.unflagAll i).deleteLinks i = x at h2 hg2
  unfold Db.deleteNode
  cases hn : x.node i with
  | none => exact h2
  | some n =>
    simp only
    have h3 : Way db0 B (x.addGhostOf n.src) ∧ (x.addGhostOf n.src).node = x.node := by
      unfold Db.addGhostOf
      split
      · exact ⟨h2.flags rfl rfl rfl (fun _ _ h => .inl h) (fun _ _ h => .inl h) (fun _ _ h => .inl h), rfl⟩
      · exact ⟨h2, rfl⟩
    obtain ⟨h3, hxn⟩ := h3
    generalize x.addGhostOf n.src = y at h3 hxn
    rw [← hxn] at hn hg2
    split
    · have h4 : Way db0 B (if n.kind = .dir then y.addCreate i else y) ∧ (if n.kind = .dir then y.addCreate i else y).node = y.node := by
        split
        · exact ⟨h3.addCreate (.inl hi), rfl⟩
        · exact ⟨h3, rfl⟩
      obtain ⟨h4, hyn⟩ := h4
      generalize (if n.kind = .dir then y.addCreate i else y) = z at h4 hyn
      rw [← hyn] at hg2
      refine h4.drop hi (fun m hm => ?_) (fun n hn hk => absurd hk (hg2 n hn)) (fun j hj => ?_) rfl rfl rfl rfl rfl
      · have hm' : (if i = i then (if i = i then (z.node i).map (fun n => { n with kind := .ghost }) else z.node i).map
          (fun n => { n with src := none }) else _) = some m := hm
        rw [if_pos rfl, if_pos rfl] at hm'
        obtain ⟨a, ha, rfl⟩ := Option.map_eq_some_iff.1 hm'
        obtain ⟨b, hb, rfl⟩ := Option.map_eq_some_iff.1 ha
        exact ⟨b, hb, rfl, rfl, rfl⟩
      · show (if j = i then _ else if j = i then _ else z.node j) = _
        rw [if_neg hj, if_neg hj]
    · refine h3.drop hi (fun m hm => ?_) (fun n hn hk => absurd hk (hg2 n hn)) (fun j hj => if_neg hj) rfl rfl rfl rfl rfl
      have hm : (if i = i then none else y.node i) = some m := hm
      rw [if_pos rfl] at hm
      cases hm

theorem way_each {f : Db → Nat → Kind → Option Db} {P : Nat × Kind → Prop} (hf : ∀ db e db', P e → Way db0 B db → f db e.1 e.2 = some db' → Way db0 B db') :
    ∀ (l : List (Nat × Kind)) (db db' : Db), (∀ e ∈ l, P e) → Way db0 B db → eachEntry f db l = some db' → Way db0 B db'
  | [], db, db', _, h, he => by cases he; exact h
  | (c, k) :: l, db, db', hp, h, he => by
    unfold eachEntry at he
    split at he
    · rename_i x hx
      exact way_each hf l x db' (fun e h => hp e (List.mem_cons_of_mem _ h)) (hf db (c, k) x (hp _ List.mem_cons_self) h hx) he
    · cases he

theorem del_way (hsort : ∀ l, (sort l).Perm l) (hB : ∀ j n, db0.node j = some n → B n.dir → B j) :
    ∀ (fuel : Nat) (db : Db) (i : Nat) (kind : Kind) (force : Bool) (db' : Db), B i →
      (∀ n, db0.node i = some n → n.kind = .group → n.name ≠ tupConfig → kind = .group) → (kind = .generated → db0.isKind .generated i = true) →
      Way db0 B db → del sort fuel db i kind force = some db' → Way db0 B db'
  | 0, _, _, _, _, _, _, _, _, _, h => by cases h
  | fuel + 1, db, i, kind, force, db', hi, hk, hkg, hw, h => by
    have hent : ∀ x : Db, Way db0 B x → ∀ e ∈ sort (entries x i), B e.1 ∧
        (∀ n, db0.node e.1 = some n → n.kind = .group → n.name ≠ tupConfig → e.2 = .group) ∧ (e.2 = .generated → db0.isKind .generated e.1 = true) := fun x hx e he => by
      have he := (hsort _).mem_iff.1 he
      unfold entries at he
      obtain ⟨c, _, hc⟩ := List.mem_filterMap.1 he
      split at hc
      · rename_i m hm
        split at hc
        · rename_i hd
          cases hc
          obtain ⟨n0, e1, e2, _, e4⟩ := hx.sub c m hm
          refine ⟨hB c n0 e1 (by rw [← e2, hd]; exact hi), fun n hn hg hx' => ?_, fun hmg => isKind_iff.2 ⟨n0, e1, ?_⟩⟩
          · have := hx.group c n hn hg hx'
            rw [hm] at this
            cases this
            exact hg
          · have hmg : m.kind = .generated := hmg
            rcases e4 with ⟨e4, _⟩ | e4
            · exact e4 ▸ hmg
            · rw [hmg] at e4; cases e4
        · cases hc
      · cases hc
    have hrec : ∀ (g : Kind → Bool) (x x' : Db), Way db0 B x → eachEntry (fun db j k => del sort fuel db j k (g k)) x (sort (entries x i)) = some x' → Way db0 B x' :=
      fun g x x' hx he => way_each (P := fun e => B e.1 ∧ (∀ n, db0.node e.1 = some n → n.kind = .group → n.name ≠ tupConfig → e.2 = .group) ∧ (e.2 = .generated → db0.isKind .generated e.1 = true))
        (fun db e db' hp hw hd => del_way hsort hB fuel db e.1 e.2 (g e.2) db' hp.1 hp.2.1 hp.2.2 hw hd) _ _ _ (hent x hx) hx he
    rw [del] at h
    split at h
    · cases h
    · rename_i n hn
      obtain ⟨n0, e1, e2, e3, e4⟩ := hw.sub i n hn
      have hdir : B n.dir ∨ ∃ f n', B f ∧ db0.node f = some n' ∧ n'.dir = n.dir := .inr ⟨i, n0, hi, e1, e2.symm⟩
      split at h
      · rename_i hx
        cases h
        exact (hw.setKind hi (fun m hm _ => by rw [hn] at hm; cases hm; exact hx)).addConfig hi
      · rename_i hx
        have hng : kind ≠ .group → ∀ m, db.node i = some m → m.kind ≠ .group := fun hkk m hm hmg => by
          rw [hn] at hm; cases hm
          rcases e4 with ⟨e4, _⟩ | e4
          · exact hkk (hk n0 e1 (e4 ▸ hmg) (e3 ▸ hx))
          · rw [hmg] at e4; cases e4
        have hfile : kind ≠ .group → Way db0 B (delFile db i n kind force) := fun hkk => by
          unfold delFile
          simp only
          have h1 : Way db0 B (if kind = .file then db.dependentFlags i else db) ∧ (if kind = .file then db.dependentFlags i else db).node = db.node := by
            split
            · exact ⟨(hw.createByInput hi).configByInput hi, rfl⟩
            · exact ⟨hw, rfl⟩
          obtain ⟨h1, hn1⟩ := h1
          generalize (if kind = .file then db.dependentFlags i else db) = x at h1 hn1
          have h2 := h1.modifyByInput hi
          split
          · exact h2.delete hi (fun m hm => hng hkk m (by rw [← hn1]; exact hm))
          · exact (h2.addCreate hdir).delete hi (fun m hm => hng hkk m (by rw [← hn1]; exact hm))
        split at h
        · cases h; exact hw
        · cases h; exact hw
        · refine hrec (fun _ => force) _ _ ?_ h
          split
          · exact ((hw.srcid hB hi).setKind hi (fun m hm hg => absurd hg (hng (by decide) m hm))).flags rfl rfl rfl (fun _ _ h => .inl h) (fun _ _ h => .inl h) (fun _ _ h => .inl h)
          · exact hw
        · simp only at h
          split at h
          · rename_i x hxe
            cases h
            have hx' := hrec (fun k => force || decide (k ≠ .dir)) _ _ (hw.srcid hB hi) hxe
            have hngx : ∀ m, x.node i = some m → m.kind ≠ .group := fun m hm hmg => by
              obtain ⟨n1, k1, _, k3, k4⟩ := hx'.sub i m hm
              rw [e1] at k1; cases k1
              rcases k4 with ⟨k4, _⟩ | k4
              · exact absurd (hk n0 e1 (k4 ▸ hmg) (e3 ▸ hx)) (by decide)
              · rw [hmg] at k4; cases k4
            unfold delDir
            simp only
            have h1 : Way db0 B (tupfileReaders x i) ∧ (tupfileReaders x i).node = x.node := by
              unfold tupfileReaders
              split
              · rename_i t ht
                obtain ⟨m, f1, f2, _⟩ := select_some ht
                obtain ⟨m0, k1, k2, _⟩ := hx'.sub t m f1
                exact ⟨hx'.createByInput (hB t m0 k1 (by rw [← k2, f2]; exact hi)), rfl⟩
              · exact ⟨hx', rfl⟩
            obtain ⟨h1, hn1⟩ := h1
            generalize tupfileReaders x i = y at h1 hn1
            split
            · exact (((h1.addCreate hdir).createByInput hi).configByInput hi).delete hi (fun m hm => hngx m (by rw [← hn1]; exact hm))
            · exact ((h1.createByInput hi).configByInput hi).delete hi (fun m hm => hngx m (by rw [← hn1]; exact hm))
          · cases h
        · split at h
          · cases h
            exact hfile (by decide)
          · cases h
            unfold missingGenerated
            split
            · exact hw.addCreate hdir
            · refine hw.flags rfl rfl rfl (fun _ _ h => .inl h) (fun j hj hh => ?_) (fun _ _ h => .inl h)
              rcases Bool.or_eq_true_iff.1 (Bool.and_eq_true_iff.1 hh).1 with hh | hh
              · exact .inl hh
              · exact .inr ⟨i, hi, .inr ⟨hw.normal _ _ hh, hkg rfl⟩⟩
        · cases h
          exact hfile (by decide)
        · rename_i h1 h2 h3 h4 h5 h6
          cases h
          exact hw.delete hi (hng h2)

/-- C41: a file or directory is gone. Nothing outside of it is scheduled without a reason: a directory is parsed only if it was parsed
anyway, if its Tupfiles read something of what is gone, if what is gone was in it, or if its Tupfile makes a file of what is gone; a
command is run only if it was going to, or if it reads something of what is gone or makes it; and a configuration is read only if it was
going to, or if it reads something of what is gone. -/
theorem c41_removed_only (hsort : ∀ l, (sort l).Perm l) (hn : db.node i = some n) (h : fileMissing sort fuel db i = some db') (j : Nat) (hj : ¬ Below db i j) :
    (db'.create j = true → db.create j = true ∨ j = n.dir ∨
      ∃ f, Below db i f ∧ db.isKind .dir j = true ∧ (db.normal f j = true ∨ ∃ m, db.node f = some m ∧ m.kind = .generated ∧ m.src = some j)) ∧
    (db'.modify j = true → db.modify j = true ∨ ∃ f, Below db i f ∧
      ((db.normal f j = true ∧ (db.isKind .cmd j = true ∨ db.isKind .group j = true)) ∨ (db.normal j f = true ∧ db.isKind .generated f = true))) ∧
    (db'.config j = true → db.config j = true ∨ ∃ f, Below db i f ∧ db.normal f j = true ∧ db.isKind .file j = true) := by
  unfold fileMissing at h
  rw [hn] at h
  simp only at h
  have hw : Way db (Below db i) db' := del_way hsort (fun j n hj hd => .step hj hd) fuel db i n.kind false db' .refl
    (fun m hm hg _ => by rw [hn] at hm; cases hm; exact hg) (fun hg => isKind_iff.2 ⟨n, hn, hg⟩)
    ⟨rfl, fun f m hm => ⟨m, hm, rfl, rfl, .inl ⟨rfl, rfl⟩⟩, fun _ _ => rfl, fun _ _ h _ _ => h, fun _ _ h => h, fun _ _ h => .inl h, fun _ _ h => .inl h, fun _ _ h => .inl h⟩ h
  refine ⟨fun hc => ?_, fun hm => hw.modify j hj hm, fun hc => hw.config j hj hc⟩
  rcases hw.create j hj hc with h | ⟨f, h1, h2, h3⟩ | ⟨f, m, h1, h2, h3⟩ | ⟨f, m, h1, h2, h3, h4, h5⟩
  · exact .inl h
  · exact .inr (.inr ⟨f, h1, h3, .inl h2⟩)
  · cases h1 with
    | refl =>
      rw [hn] at h2; cases h2
      exact .inr (.inl h3.symm)
    | step hf hb =>
      rw [hf] at h2; cases h2
      exact absurd (h3 ▸ hb) hj
  · exact .inr (.inr ⟨f, h1, h5, .inr ⟨m, h2, h3, h4⟩⟩)

/-- In the project above, `sub` is gone: command 6, which is outside, runs because it reads `lib`, which was in it. -/
example : ∃ db', fileMissing id 9 sample 2 = some db' ∧ ¬ Below sample 2 6 ∧ db'.modify 6 = true ∧ sample.modify 6 = false := by
  refine ⟨(fileMissing id 9 sample 2).get (by decide), (Option.some_get _).symm, fun h => ?_, by decide, by decide⟩
  cases h with
  | step hf hb =>
    cases hf
    cases hb with
    | step hf hb =>
      cases hf
      cases hb with
      | step hf hb => cases hf

/-- The node and what reads it outside of `B` are as they were. -/
structure Stay (db0 : Db) (B : Nat → Prop) (t : Nat) (db : Db) : Prop where
  way : Way db0 B db
  node : db.node t = db0.node t
  normal : ∀ j, ¬ B j → db0.normal t j = true → db.normal t j = true

theorem Stay.eff {t : Nat} (h : Stay db0 B t db) (hw : Way db0 B db') (he : Eff (· = i) db db') (hi : B i) (ht : t ≠ i) : Stay db0 B t db' :=
  ⟨hw, (he.outside t ht).trans h.node, fun j hj hn => he.normal t j ht (fun hji => hj (hji ▸ hi)) (h.normal j hj hn)⟩

theorem stay_each {t : Nat} {f : Db → Nat → Kind → Option Db} {P : Nat × Kind → Prop} (hf : ∀ db e db', P e → Stay db0 B t db → f db e.1 e.2 = some db' → Stay db0 B t db') :
    ∀ (l : List (Nat × Kind)) (db db' : Db), (∀ e ∈ l, P e) → Stay db0 B t db → eachEntry f db l = some db' → Stay db0 B t db'
  | [], db, db', _, h, he => by cases he; exact h
  | (c, k) :: l, db, db', hp, h, he => by
    unfold eachEntry at he
    split at he
    · rename_i x hx
      exact stay_each hf l x db' (fun e h => hp e (List.mem_cons_of_mem _ h)) (hf db (c, k) x (hp _ List.mem_cons_self) h hx) he
    · cases he

theorem entries_way (hsort : ∀ l, (sort l).Perm l) (hB : ∀ j n, db0.node j = some n → B n.dir → B j) (hi : B i) {x : Db} (hx : Way db0 B x) :
    ∀ e ∈ sort (entries x i), B e.1 ∧ (∀ n, db0.node e.1 = some n → n.kind = .group → n.name ≠ tupConfig → e.2 = .group) ∧
      (e.2 = .generated → db0.isKind .generated e.1 = true) ∧ x.isKind e.2 e.1 = true := by
  intro e he
  have he := (hsort _).mem_iff.1 he
  unfold entries at he
  obtain ⟨c, _, hc⟩ := List.mem_filterMap.1 he
  split at hc
  · rename_i m hm
    split at hc
    · rename_i hd
      cases hc
      obtain ⟨n0, e1, e2, _, e4⟩ := hx.sub c m hm
      refine ⟨hB c n0 e1 (by rw [← e2, hd]; exact hi), fun n hn hg hx' => ?_, fun hmg => isKind_iff.2 ⟨n0, e1, ?_⟩, isKind_iff.2 ⟨m, hm, rfl⟩⟩
      · have := hx.group c n hn hg hx'
        rw [hm] at this
        cases this
        exact hg
      · have hmg : m.kind = .generated := hmg
        rcases e4 with ⟨e4, _⟩ | e4
        · exact e4 ▸ hmg
        · rw [hmg] at e4; cases e4
    · cases hc
  · cases hc

theorem del_stay (hsort : ∀ l, (sort l).Perm l) (hB : ∀ j n, db0.node j = some n → B n.dir → B j) {t : Nat} {nt : Node}
    (ht : db0.node t = some nt) (hg : nt.kind = .ghost) (htx : nt.name ≠ tupConfig) :
    ∀ (fuel : Nat) (db : Db) (i : Nat) (kind : Kind) (force : Bool) (db' : Db), B i →
      (∀ n, db0.node i = some n → n.kind = .group → n.name ≠ tupConfig → kind = .group) → (kind = .generated → db0.isKind .generated i = true) →
      (i = t → kind = .ghost) → Stay db0 B t db → del sort fuel db i kind force = some db' → Stay db0 B t db'
  | 0, _, _, _, _, _, _, _, _, _, _, h => by cases h
  | fuel + 1, db, i, kind, force, db', hi, hk, hkg, hit, hw, h => by
    have hrec : ∀ (g : Kind → Bool) (x x' : Db), Stay db0 B t x → eachEntry (fun db j k => del sort fuel db j k (g k)) x (sort (entries x i)) = some x' → Stay db0 B t x' :=
      fun g x x' hx he => stay_each (P := fun e => B e.1 ∧ (∀ n, db0.node e.1 = some n → n.kind = .group → n.name ≠ tupConfig → e.2 = .group) ∧
          (e.2 = .generated → db0.isKind .generated e.1 = true) ∧ x.isKind e.2 e.1 = true)
        (fun db e db' hp hw hd => del_stay hsort hB ht hg htx fuel db e.1 e.2 (g e.2) db' hp.1 hp.2.1 hp.2.2.1 (fun het => by
          obtain ⟨m, e1, e2⟩ := isKind_iff.1 hp.2.2.2
          rw [het, hx.node, ht] at e1
          cases e1
          exact e2.symm.trans hg) hw hd) _ _ _ (entries_way hsort hB hi hx.way) hx he
    have hway := del_way hsort hB (fuel + 1) db i kind force db' hi hk hkg hw.way h
    by_cases hti : i = t
    · have hkk := hit hti
      subst hti
      rw [del, hw.node, ht] at h
      simp only at h
      rw [if_neg htx, hkk] at h
      cases h
      exact hw
    have hti : t ≠ i := fun h => hti h.symm
    rw [del] at h
    split at h
    · cases h
    · rename_i n hn
      split at h
      · cases h
        exact hw.eff hway ((eff_setKind i).trans (eff_addConfig i)) hi hti
      · split at h
        · cases h; exact hw
        · cases h; exact hw
        · have hrel : ∀ m, db.node i = some m → m.kind = .group → m.name = tupConfig := fun m hm hmg => by
            obtain ⟨n0, e1, _, e3, e4⟩ := hw.way.sub i m hm
            rcases e4 with ⟨e4, _⟩ | e4
            · by_cases hc : n0.name = tupConfig
              · rw [e3]; exact hc
              · exact absurd (hk n0 e1 (e4 ▸ hmg) hc) (by decide)
            · rw [hmg] at e4; cases e4
          refine hrec (fun _ => force) _ _ ?_ h
          split
          · exact hw.eff (((hw.way.srcid hB hi).setKind hi hrel).flags rfl rfl rfl (fun _ _ h => .inl h) (fun _ _ h => .inl h) (fun _ _ h => .inl h))
              (((eff_srcid i).trans (eff_setKind i)).trans (eff_addGhost i)) hi hti
          · exact hw
        · simp only at h
          split at h
          · rename_i x hxe
            cases h
            have hx' := hrec (fun k => force || decide (k ≠ .dir)) _ _ (hw.eff (hw.way.srcid hB hi) (eff_srcid i) hi hti) hxe
            exact hx'.eff hway (eff_delDir x i n).1 hi hti
          · cases h
        · split at h
          · cases h
            exact hw.eff hway (eff_delFile db i n _ _).1 hi hti
          · cases h
            exact hw.eff hway (eff_missing i n) hi hti
        · cases h
          exact hw.eff hway (eff_delFile db i n _ _).1 hi hti
        · cases h
          exact hw.eff hway (eff_delete db i).1 hi hti

/-- C41: a directory is gone that had no Tupfile. The directories outside of it that have looked for its Tupfile are parsed again. -/
theorem c41_removed_tupfile (hsort : ∀ l, (sort l).Perm l) (hu : Unique db) (hb : Bounded db) (hn : db.node i = some n) (hk : n.kind = .dir) (hx : n.name ≠ "tup.config".toList)
    (h : fileMissing sort fuel db i = some db') {t j : Nat} {nt : Node} (ht : db.node t = some nt) (hg : nt.kind = .ghost) (hd : nt.dir = i) (hname : nt.name = "Tupfile".toList)
    (hti : t ≠ i) (hj : ¬ Below db i j) (hr : db.normal t j = true) (hjd : db.isKind .dir j = true) : db'.create j = true := by
  have htx : nt.name ≠ tupConfig := by rw [hname]; decide
  have hB : ∀ j n, db.node j = some n → Below db i n.dir → Below db i j := fun j n hj hd => .step hj hd
  have h0 : Way db (Below db i) db :=
    ⟨rfl, fun f m hm => ⟨m, hm, rfl, rfl, .inl ⟨rfl, rfl⟩⟩, fun _ _ => rfl, fun _ _ h _ _ => h, fun _ _ h => h, fun _ _ h => .inl h, fun _ _ h => .inl h, fun _ _ h => .inl h⟩
  unfold fileMissing at h
  rw [hn] at h
  simp only at h
  cases fuel with
  | zero => cases h
  | succ fuel =>
    rw [del, hn] at h
    simp only at h
    rw [if_neg (show n.name ≠ tupConfig from hx), hk] at h
    simp only at h
    split at h
    · rename_i x hxe
      cases h
      have hst : Stay db (Below db i) t (srcidDirFlags db i) := ⟨h0.srcid hB .refl, rfl, fun _ _ h => h⟩
      have hsx := stay_each (P := fun e => Below db i e.1 ∧ (∀ n, db.node e.1 = some n → n.kind = .group → n.name ≠ tupConfig → e.2 = .group) ∧
          (e.2 = .generated → db.isKind .generated e.1 = true) ∧ (srcidDirFlags db i).isKind e.2 e.1 = true)
        (fun db1 e db' hp hw hd => del_stay hsort hB ht hg htx fuel db1 e.1 e.2 (false || decide (e.2 ≠ .dir)) db' hp.1 hp.2.1 hp.2.2.1 (fun het => by
          obtain ⟨m, e1, e2⟩ := isKind_iff.1 hp.2.2.2
          rw [het, hst.node, ht] at e1
          cases e1
          exact e2.symm.trans hg) hw hd) _ _ _ (entries_way hsort hB .refl hst.way) hst hxe
      have hji : j ≠ i := fun h => hj (h ▸ .refl)
      have hsel : ∃ t', x.select i tupfile = some t' := by
        have hbx : Bounded x := fun k hk' => by
          cases hx : x.node k with
          | none => rfl
          | some m =>
            obtain ⟨m0, k1, _⟩ := hsx.way.sub k m hx
            rw [hb k (by rw [← hsx.way.top]; exact hk')] at k1
            cases k1
        cases hs : x.select i tupfile with
        | some t' => exact ⟨t', rfl⟩
        | none => exact absurd hname (select_none hbx hs (hsx.node.trans ht) hd)
      obtain ⟨t', hs⟩ := hsel
      obtain ⟨m, f1, f2, f3⟩ := select_some hs
      obtain ⟨m0, k1, k2, k3, _⟩ := hsx.way.sub t' m f1
      have : t' = t := hu t' t m0 nt k1 ht (by rw [← k2, f2, hd]) (by rw [← k3, f3, hname]; rfl)
      subst this
      have hc : (tupfileReaders x i).create j = true := by
        unfold tupfileReaders
        rw [hs]
        show (x.create j || (x.normal t' j && x.isKind .dir j)) = true
        rw [hsx.normal j hj hr, hsx.way.kind hj, hjd]
        simp
      unfold delDir
      simp only
      generalize tupfileReaders x i = y at hc
      have h2 : Eff (· = i) y (if y.isKind .dir n.dir then y.addCreate n.dir else y) := by
        split
        · exact eff_create _
        · exact .refl _ _
      exact ((h2.trans (eff_dependent i)).trans (eff_delete _ i).1).create j hji hc
    · cases h

/-- The same project, where `sub` has no Tupfile (9) and `out2` (10) includes it. -/
def sampleGhost : Db :=
  { sample with
    node := fun i =>
      if i = 9 then some { dir := 2, kind := .ghost, name := "Tupfile".toList }
      else if i = 10 then some { dir := 1, kind := .dir, name := ['o', '2'] }
      else sample.node i
    top := 11
    normal := fun a b => sample.normal a b || decide ((a, b) = (9, 10)) }

example : ((fileMissing id 9 sampleGhost 2).map fun db => db.create 10) = some true ∧ sampleGhost.normal 9 10 = true ∧ sampleGhost.isKind .dir 10 = true := by decide +kernel

end Tup.Scan
