import Verif.External.Lemmas

/-! The scan with its one list looks at each entry once, and brings it up to date. -/

namespace Tup.External

open Tup.Db

variable {d : Disk}

theorem mem_children {db : Db} (hw : Wf db) {dt i : Nat} : i ∈ children db dt ↔ ∃ n, db.node i = some n ∧ n.dir = dt := by
  unfold children
  rw [List.mem_filter, List.mem_range]
  constructor
  · rintro ⟨_, h⟩
    cases hn : db.node i with
    | none => rw [hn] at h; cases h
    | some n => rw [hn] at h; exact ⟨n, rfl, by simpa using h⟩
  · rintro ⟨n, hn, hd⟩
    refine ⟨lt_top hw.bounded hn, ?_⟩
    rw [hn]
    simpa using hd

theorem nodup_children (db : Db) (dt : Nat) : (children db dt).Nodup :=
  List.Sublist.nodup List.filter_sublist List.nodup_range

/-- An entry of the list that does not belong to the directory `c` or what is below it. -/
def Foreign (db : Db) (c x : Nat) : Prop := ∃ n, db.node x = some n ∧ ¬ Under db c n.dir

theorem Alike.foreign {db db' : Db} (h : Alike db db') {c x : Nat} (hf : Foreign db c x) : Foreign db' c x := by
  obtain ⟨n, hn, hu⟩ := hf
  obtain ⟨m, hm, h1, _, _⟩ := h.to hn
  exact ⟨m, hm, fun hu' => hu (h1 ▸ h.symm.under hu')⟩

/-- What the call for a directory does. -/
def Good (d : Disk) (scan : Db → List Nat → Option Nat → Nat → Option (Db × List Nat)) (low top : Nat) : Prop :=
  ∀ db l dt p, Wf db → db.top = top → low < dt → dt < db.top → (∀ x ∈ l, Foreign db dt x) →
    ∃ db' l', scan db l (d.leads d.root p) dt = some (db', l') ∧ Effect db db' d (Seen db d dt p) ∧
      ∀ x ∈ l', x ∈ l ∨ ∃ n, db.node x = some n ∧ Under db dt n.dir

theorem loop_spec {scan : Db → List Nat → Option Nat → Nat → Option (Db × List Nat)} {dt : Nat}
{top : Nat}
    (hg : Good d scan dt top) (p : List Str) (cs : List Nat) :
    ∀ (db : Db) (full l : List Nat), Wf db → db.top = top → cs.Nodup → (∀ c ∈ cs, ∃ n, db.node c = some n ∧ n.dir = dt) →
      (∀ x ∈ full, ∀ c ∈ cs, Foreign db c x) → (∀ x ∈ l, Foreign db dt x) →
      ∃ db' l', loop d scan (d.leads d.root p) dt db full (cs ++ l) = some (db', l') ∧
        Effect db db' d (fun i q => ∃ c ∈ cs, Part db d p c i q) ∧
        ∀ x ∈ l', x ∈ full ∨ ∃ n, db.node x = some n ∧ Under db dt n.dir := by
  induction cs with
  | nil =>
    intro db full l hw _ _ _ _ hl
    refine ⟨db, full, ?_, .none fun i q h => ?_, fun x hx => .inl hx⟩
    · cases l with
      | nil => rfl
      | cons x l =>
        obtain ⟨n, hn, hu⟩ := hl x (List.mem_cons_self ..)
        simp only [List.nil_append, loop, hn]
        rw [if_pos]
        rintro rfl
        exact hu .refl
    · obtain ⟨c, hc, _⟩ := h
      cases hc
  | cons c cs ih =>
    intro db full l hw htop hnd hc hf hl
    obtain ⟨n, hn, hdir⟩ := hc c (List.mem_cons_self ..)
    have hnd' := (List.nodup_cons.1 hnd)
    simp only [List.cons_append, loop, hn]
    rw [if_neg (by simpa using hdir), look_eq]
    simp only
    -- the entry itself
    have h1 := Effect.one (d := d) (q := p ++ [n.name]) hn
    generalize hdb₁ : (if decide (n.mtime ≠ d.time (p ++ [n.name])) = true then touch db c (d.time (p ++ [n.name])) else db)
      = db₁ at h1 ⊢
    have hw₁ : Wf db₁ := h1.alike.wf h1.top hw
    -- the entry and what is below it
    have step : ∃ db₂ full₂, Effect db db₂ d (Part db d p c) ∧
        (∀ x ∈ full₂, x ∈ full ∨ ∃ m, db.node x = some m ∧ Under db c m.dir) ∧
        (if (decide (n.mtime ≠ d.time (p ++ [n.name])) || d.dir (p ++ [n.name])) = true then
            match scan db₁ full (d.leads d.root (p ++ [n.name])) c with
            | none => none
            | some (db, full) => loop d scan (d.leads d.root p) dt db full (cs ++ l)
          else loop d scan (d.leads d.root p) dt db₁ full (cs ++ l)) =
          loop d scan (d.leads d.root p) dt db₂ full₂ (cs ++ l) := by
      by_cases ho : (decide (n.mtime ≠ d.time (p ++ [n.name])) || d.dir (p ++ [n.name])) = true
      · rw [if_pos ho]
        obtain ⟨db₂, full₂, he, h2, h3⟩ := hg db₁ full c (p ++ [n.name]) hw₁ (h1.top.trans htop) (by have := hw.down _ _ hn; omega)
          (h1.top ▸ lt_top hw.bounded hn) (fun x hx => h1.alike.foreign (hf x hx c (List.mem_cons_self ..)))
        refine ⟨db₂, full₂, ?_, ?_, by rw [he]⟩
        · refine (h1.trans h2 ?_).congr ?_
          · rintro i q q' ⟨rfl, rfl⟩ hs
            have : ∃ m, db₁.node i = some m ∧ Under db₁ i m.dir := by
              cases hs with
              | child hm hd => exact ⟨_, hm, hd ▸ .refl⟩
              | sub h1 _ _ hm hd => exact ⟨_, hm, by rw [hd]; exact h1.under⟩
            obtain ⟨m, hm, hu⟩ := this
            have h4 := hu.le hw₁
            have h5 := hw₁.down _ _ hm
            omega
          · have hsame : ∀ i, Under db c i → i ≠ c → db₁.node i = db.node i :=
              fun i _ hi => h1.miss i (.inr fun q hq => hi hq.1)
            have hsame' : ∀ i, Under db₁ c i → i ≠ c → db.node i = db₁.node i :=
              fun i hu hi => (hsame i (h1.alike.symm.under hu) hi).symm
            intro i q
            constructor
            · rintro (⟨rfl, rfl⟩ | hs)
              · exact ⟨n, hn, .inl ⟨rfl, rfl⟩⟩
              · refine ⟨n, hn, .inr ⟨?_, seen_congr h1.alike.symm hsame' hw₁ hs⟩⟩
                simp only [Bool.or_eq_true, decide_eq_true_eq] at ho
                exact ho.symm
            · rintro ⟨n', hn', ⟨rfl, rfl⟩ | ⟨_, hs⟩⟩
              · rw [hn] at hn'
                cases hn'
                exact .inl ⟨rfl, rfl⟩
              · rw [hn] at hn'
                cases hn'
                exact .inr (seen_congr h1.alike hsame hw hs)
        · intro x hx
          rcases h3 x hx with h | ⟨m, hm, hu⟩
          · exact .inl h
          · obtain ⟨m', hm', h5, _, _⟩ := h1.alike.symm.to hm
            exact .inr ⟨m', hm', h5 ▸ h1.alike.symm.under hu⟩
      · rw [if_neg ho]
        refine ⟨db₁, full, h1.congr ?_, fun x hx => .inl hx, rfl⟩
        simp only [Bool.or_eq_true, decide_eq_true_eq, not_or] at ho
        intro i q
        constructor
        · rintro ⟨rfl, rfl⟩
          exact ⟨n, hn, .inl ⟨rfl, rfl⟩⟩
        · rintro ⟨n', hn', ⟨rfl, rfl⟩ | ⟨h, _⟩⟩
          · rw [hn] at hn'
            cases hn'
            exact ⟨rfl, rfl⟩
          · rw [hn] at hn'
            cases hn'
            exact absurd h fun h => h.elim ho.2 ho.1
    obtain ⟨db₂, full₂, h2, h3, heq⟩ := step
    have hw₂ : Wf db₂ := h2.alike.wf h2.top hw
    -- entries of the directory are disjoint
    have hdisj : ∀ c' ∈ cs, ∀ i, Under db c i → Under db c' i → False := by
      intro c' hc' i hu hu'
      obtain ⟨m, hm, hmd⟩ := hc c' (List.mem_cons_of_mem _ hc')
      exact Under.disjoint hw hn hm (hdir.trans hmd.symm) (fun h => hnd'.1 (h ▸ hc')) hu hu'
    obtain ⟨db₃, l', he, h4, h5⟩ := ih db₂ full₂ l hw₂ (h2.top.trans htop) hnd'.2
      (by
        intro c' hc'
        obtain ⟨m, hm, hmd⟩ := hc c' (List.mem_cons_of_mem _ hc')
        obtain ⟨m', hm', h6, _, _⟩ := h2.alike.to hm
        exact ⟨m', hm', h6.trans hmd⟩)
      (by
        intro x hx c' hc'
        rcases h3 x hx with h | ⟨m, hm, hu⟩
        · exact h2.alike.foreign (hf x h c' (List.mem_cons_of_mem _ hc'))
        · exact h2.alike.foreign ⟨m, hm, fun hu' => hdisj c' hc' _ hu hu'⟩)
      (fun x hx => h2.alike.foreign (hl x hx))
    refine ⟨db₃, l', Eq.trans heq he, ?_, ?_⟩
    · refine (h2.trans h4 ?_).congr ?_
      · rintro i q q' hp ⟨c', hc', hp'⟩
        exact hdisj c' hc' i hp.under (h2.alike.symm.under hp'.under)
      · have hsame : ∀ c' ∈ cs, ∀ i, Under db c' i → db₂.node i = db.node i :=
          fun c' hc' i hu => h2.miss i (.inr fun q hq => hdisj c' hc' i hq.under hu)
        intro i q
        constructor
        · rintro (h | ⟨c', hc', hp⟩)
          · exact ⟨c, List.mem_cons_self .., h⟩
          · exact ⟨c', List.mem_cons_of_mem _ hc', part_congr h2.alike.symm hw₂
              (fun i hu => (hsame c' hc' i (h2.alike.symm.under hu)).symm) hp⟩
        · rintro ⟨c', hc', hp⟩
          rcases List.mem_cons.1 hc' with rfl | hc'
          · exact .inl hp
          · exact .inr ⟨c', hc', part_congr h2.alike hw (hsame c' hc') hp⟩
    · intro x hx
      rcases h5 x hx with h | ⟨m, hm, hu⟩
      · rcases h3 x h with h | ⟨m, hm, hu⟩
        · exact .inl h
        · exact .inr ⟨m, hm, (Under.sub (hdir ▸ Under.refl) hn).trans hu⟩
      · obtain ⟨m', hm', h6, _, _⟩ := h2.alike.symm.to hm
        exact .inr ⟨m', hm', h6 ▸ h2.alike.symm.under hu⟩

theorem foldl_cons (l l' : List Nat) : l.foldl (fun l i => i :: l) l' = l.reverse ++ l' := by
  induction l generalizing l' with
  | nil => rfl
  | cons x l ih => rw [List.foldl_cons, ih, List.reverse_cons, List.append_assoc]; rfl

theorem scanDir_spec {sort : List Nat → List Nat} (hs : ∀ l, (sort l).Perm l) (fuel : Nat) :
    ∀ db l dt p, Wf db → db.top < fuel + dt → dt < db.top → (∀ x ∈ l, Foreign db dt x) →
    ∃ db' l', scanDir d sort fuel db l (d.leads d.root p) dt = some (db', l') ∧ Effect db db' d (Seen db d dt p) ∧
      ∀ x ∈ l', x ∈ l ∨ ∃ n, db.node x = some n ∧ Under db dt n.dir := by
  induction fuel with
  | zero => intro db l dt p _ h1 h2; omega
  | succ fuel ih =>
    intro db l dt p hw hfuel htop hl
    have hperm : (sort (children db dt)).reverse.Perm (children db dt) := (List.reverse_perm _).trans (hs _)
    have hmem : ∀ c, c ∈ (sort (children db dt)).reverse ↔ ∃ n, db.node c = some n ∧ n.dir = dt :=
      fun c => hperm.mem_iff.trans (mem_children hw)
    have hg : Good d (scanDir d sort fuel) dt db.top := by
      intro db' l' c q hw' ht hlow hc hl'
      exact ih db' l' c q hw' (by omega) hc hl'
    have hsub : ∀ c n, db.node c = some n → n.dir = dt → Under db dt c := fun c n hn hd => .sub (hd ▸ .refl) hn
    obtain ⟨db', l', he, h1, h2⟩ := loop_spec hg p (sort (children db dt)).reverse db
      ((sort (children db dt)).reverse ++ l) l hw rfl (hperm.nodup_iff.2 (nodup_children db dt)) (fun c hc => (hmem c).1 hc)
      (by
        intro x hx c hc
        obtain ⟨n, hn, hd⟩ := (hmem c).1 hc
        rcases List.mem_append.1 hx with hx | hx
        · obtain ⟨m, hm, hmd⟩ := (hmem x).1 hx
          refine ⟨m, hm, fun hu => ?_⟩
          have h3 := hu.le hw
          have h4 := hw.down _ _ hn
          omega
        · obtain ⟨m, hm, hu⟩ := hl x hx
          exact ⟨m, hm, fun hu' => hu ((hsub c n hn hd).trans hu')⟩)
      hl
    refine ⟨db', l', ?_, h1.congr fun i q => ?_, ?_⟩
    · simp only [scanDir]
      rw [foldl_cons, he]
    · rw [seen_iff]
      constructor
      · rintro ⟨c, hc, hp⟩
        obtain ⟨n, hn, hd⟩ := (hmem c).1 hc
        exact ⟨c, n, hn, hd, hp⟩
      · rintro ⟨c, n, hn, hd, hp⟩
        exact ⟨c, (hmem c).2 ⟨n, hn, hd⟩, hp⟩
    · intro x hx
      rcases h2 x hx with h | h
      · rcases List.mem_append.1 h with h | h
        · obtain ⟨m, hm, hmd⟩ := (hmem x).1 h
          exact .inr ⟨m, hm, hmd ▸ .refl⟩
        · exact .inl h
      · exact .inr h

/-- The scan does what it should to the nodes that it sees. -/
theorem scanFullDeps_spec {sort : List Nat → List Nat} (hs : ∀ l, (sort l).Perm l) {db : Db} (hw : Wf db) {slash : Nat}
    (hsl : (db.node slash).isSome) (hr : d.may d.root = true) :
    ∃ db', scanFullDeps d sort true slash db = some db' ∧ Effect db db' d (Seen db d slash []) := by
  obtain ⟨n, hn⟩ := Option.isSome_iff_exists.1 hsl
  obtain ⟨db', l', he, h1, _⟩ := scanDir_spec (d := d) hs (db.top + 1) db [] slash [] hw (by omega)
    (lt_top hw.bounded hn) (by intro x hx; cases hx)
  refine ⟨db', ?_, h1⟩
  unfold scanFullDeps
  rw [if_pos rfl, if_pos hr]
  have : scanDir d sort (db.top + 1) db [] (some d.root) slash = some (db', l') := he
  rw [this]
  rfl

end Tup.External
