import Verif.Variants.Spec

/-! Lemmas about the lists of variants. -/

namespace Tup.Variants

/-- What holds between the programs. -/
structure Inv (db : Db) : Prop where
  dot : db.dir dot = true
  dir : ∀ d, db.file d = true → db.dir d = true
  stale : ∀ d ∈ db.var, d ≠ Variants.dot → db.file d = true ∨ d ∈ db.flag
  known : ∀ d, d ≠ Variants.dot → db.file d = true → d ∈ db.var ∨ d ∈ db.flag
  alone : Variants.dot ∈ db.var → ∀ d ∈ db.var, d = Variants.dot

theorem mem_insert {d e : Nat} {l : List Nat} : e ∈ insert d l ↔ e = d ∨ e ∈ l := by
  unfold insert
  split
  · rename_i h
    constructor
    · exact .inr
    · rintro (rfl | h')
      · exact h
      · exact h'
  · exact List.mem_cons

theorem mem_delete {d e : Nat} {l : List Nat} : e ∈ delete d l ↔ e ∈ l ∧ e ≠ d := by
  unfold delete
  simp

theorem mem_remove {d : Nat} {v : Nat × Bool} {l : Loaded} : v ∈ remove d l ↔ v ∈ l ∧ v.1 ≠ d := by
  unfold remove
  simp

theorem search_some {d : Nat} {b : Bool} {l : Loaded} (h : search d l = some b) : (d, b) ∈ l := by
  unfold search at h
  obtain ⟨v, h1, h2⟩ := Option.map_eq_some_iff.1 h
  have h3 := List.find?_some h1
  have h4 := List.mem_of_find?_eq_some h1
  obtain ⟨x, y⟩ := v
  simp only [decide_eq_true_eq] at h3
  subst h3
  subst h2
  exact h4

theorem search_none {d : Nat} {l : Loaded} (h : search d l = none) : ∀ b, (d, b) ∉ l := by
  unfold search at h
  rw [Option.map_eq_none_iff, List.find?_eq_none] at h
  intro b hb
  simpa using h _ hb

/-- What a scan leaves as it is, and what it may do to the list of variants. -/
structure Scanned (db0 : Db) (l0 : Loaded) (evs : List Event) (s : Db × Loaded) : Prop where
  inv : Inv s.1
  var : s.1.var = db0.var
  nested : s.1.nested = db0.nested
  sub : ∀ v ∈ s.2, v ∈ l0
  kept : ∀ v ∈ l0, v ∈ s.2 ∨ (.mkdir v.1 ∈ evs ∧ v.1 ≠ dot)
  flagged : ∀ v ∈ l0, v ∉ s.2 → s.1.file v.1 = true → v.1 ∈ s.1.flag

theorem unlinked_inv {d : Nat} {db : Db} (h : Inv db) : Inv (unlinked d db) := by
  unfold unlinked
  split
  · refine ⟨h.dot, fun e he => ?_, fun e he hd => ?_, fun e hd he => ?_, h.alone⟩
    · simp only [Bool.and_eq_true] at he
      exact h.dir e he.1
    · show (db.file e && !decide (e = d)) = true ∨ e ∈ insert d db.flag
      rw [mem_insert]
      by_cases hed : e = d
      · exact .inr (.inl hed)
      · rcases h.stale e he hd with hf | hf
        · left; simp [hf, hed]
        · exact .inr (.inr hf)
    · simp only [Bool.and_eq_true] at he
      rcases h.known e hd he.1 with hf | hf
      · exact .inl hf
      · right; exact mem_insert.2 (.inr hf)
  · exact h

theorem unlinked_more {d : Nat} {db : Db} : (unlinked d db).var = db.var ∧ (unlinked d db).nested = db.nested ∧ (unlinked d db).dir = db.dir ∧
    (∀ e, (unlinked d db).file e = true → db.file e = true ∧ e ≠ d) ∧ ∀ e ∈ db.flag, e ∈ (unlinked d db).flag := by
  unfold unlinked
  split
  · refine ⟨rfl, rfl, rfl, fun e he => ?_, fun e he => mem_insert.2 (.inr he)⟩
    simpa using he
  · rename_i hf
    exact ⟨rfl, rfl, rfl, fun e he => ⟨he, by rintro rfl; exact hf he⟩, fun e he => he⟩

theorem event_scanned {db0 : Db} {l0 : Loaded} {evs : List Event} {s : Db × Loaded} {e : Event} (he : e ∈ evs) (h : Scanned db0 l0 evs s) :
    Scanned db0 l0 evs (event e s) := by
  obtain ⟨db, l⟩ := s
  obtain ⟨h1, h2, h3, h4, h5, h6⟩ := h
  simp only at h1 h2 h3 h4 h5 h6
  cases e with
  | write d =>
    simp only [event]
    split
    · rename_i hd
      refine ⟨⟨h1.dot, fun e he => ?_, fun e he hd => ?_, fun e hd he => ?_, h1.alone⟩, h2, h3, h4, h5, fun v hv hn hf => ?_⟩
      · simp only [Bool.or_eq_true, decide_eq_true_eq] at he
        rcases he with he | rfl
        · exact h1.dir e he
        · exact hd
      · show (db.file e || decide (e = d)) = true ∨ e ∈ insert d db.flag
        rcases h1.stale e he hd with hx | hx
        · left; simp at hx ⊢; exact .inl hx
        · right; exact mem_insert.2 (.inr hx)
      · simp only [Bool.or_eq_true, decide_eq_true_eq] at he
        rcases he with he | rfl
        · rcases h1.known e hd he with hx | hx
          · exact .inl hx
          · exact .inr (mem_insert.2 (.inr hx))
        · exact .inr (mem_insert.2 (.inl rfl))
      · simp only [Bool.or_eq_true, decide_eq_true_eq] at hf
        rcases hf with hf | hf
        · exact mem_insert.2 (.inr (h6 v hv hn hf))
        · exact mem_insert.2 (.inl hf)
    · exact ⟨h1, h2, h3, h4, h5, h6⟩
  | unlink d =>
    simp only [event]
    obtain ⟨k1, k2, _, k4, k5⟩ := unlinked_more (d := d) (db := db)
    exact ⟨unlinked_inv h1, k1.trans h2, k2.trans h3, h4, h5, fun v hv hn hf => k5 _ (h6 v hv hn (k4 _ hf).1)⟩
  | mkdir d =>
    simp only [event]
    split
    · exact ⟨h1, h2, h3, h4, h5, h6⟩
    · rename_i hd
      refine ⟨⟨by simp [h1.dot], fun e he => by simp [h1.dir e he], h1.stale, h1.known, h1.alone⟩, h2, h3, fun v hv => h4 v (mem_remove.1 hv).1, fun v hv => ?_,
        fun v hv hn hf => ?_⟩
      · rcases h5 v hv with hx | hx
        · by_cases hvd : v.1 = d
          · right; rw [hvd]; exact ⟨he, by rintro rfl; exact hd h1.dot⟩
          · exact .inl (mem_remove.2 ⟨hx, hvd⟩)
        · exact .inr hx
      · by_cases hvd : v.1 = d
        · have hf : db.file v.1 = true := hf
          rw [hvd] at hf
          exact absurd (h1.dir d hf) hd
        · exact h6 v hv (fun hx => hn (mem_remove.2 ⟨hx, hvd⟩)) hf
  | rmdir d =>
    simp only [event]
    split
    · exact ⟨h1, h2, h3, h4, h5, h6⟩
    · rename_i hd
      obtain ⟨k1, k2, _, k4, k5⟩ := unlinked_more (d := d) (db := db)
      have hi := unlinked_inv (d := d) h1
      refine ⟨⟨?_, fun e he => ?_, hi.stale, hi.known, hi.alone⟩, k1.trans h2, k2.trans h3, h4, h5, fun v hv hn hf => k5 _ (h6 v hv hn (k4 _ hf).1)⟩
      · simp [h1.dot, Ne.symm hd]
      · obtain ⟨he1, he2⟩ := k4 e he
        simp [h1.dir e he1, he2]

theorem scan_scanned {db0 : Db} {l0 : Loaded} {evs : List Event} (h : Inv db0) : Scanned db0 l0 evs (scan evs (db0, l0)) := by
  have key : ∀ (l : List Event) (s : Db × Loaded), (∀ e ∈ l, e ∈ evs) → Scanned db0 l0 evs s → Scanned db0 l0 evs (scan l s) := by
    intro l
    induction l with
    | nil => exact fun s _ h => h
    | cons e l ih => exact fun s hl hs => ih _ (fun e' he' => hl e' (List.mem_cons_of_mem _ he')) (event_scanned (hl e List.mem_cons_self) hs)
  exact key evs _ (fun _ he => he) ⟨h, rfl, rfl, fun _ hv => hv, fun _ hv => .inl hv, fun _ hv hn => absurd hv hn⟩

/-- What the loop has done after the files in `p`. -/
structure Done (db : Db) (l0 : Loaded) (p : List Nat) (t : State) : Prop where
  file : t.db.file = db.file
  nested : t.db.nested = db.nested
  dir : t.db.dir = db.dir
  loaded : ∀ d b, (d, b) ∈ t.loaded ↔ b = true ∧ ((d ∈ p ∧ (db.file d = true ∨ d = dot)) ∨ (d ∉ p ∧ (d, true) ∈ l0))
  var : ∀ d, d ∈ t.db.var ↔ (d ∈ p ∧ (db.file d = true ∨ d = dot)) ∨ (d ∈ db.var ∧ ¬ (d ∈ p ∧ db.file d = false ∧ d ≠ dot ∧ db.nested d = false ∧ (d, true) ∈ l0))
  flag : ∀ d, d ∈ t.db.flag ↔ d ∈ db.flag ∧ d ∉ p
  new : t.new = true ↔ ∃ d ∈ p, d ≠ dot ∧ db.file d = true ∧ (d, true) ∉ l0
  removed : t.removed = true ↔ ∃ d ∈ p, d ≠ dot ∧ db.file d = false ∧ (d, true) ∈ l0
  fresh : ∀ d, d ∈ t.fresh ↔ d ∈ p ∧ (db.file d = true ∨ d = dot) ∧ (d, true) ∉ l0
  gone : ∀ d, d ∈ t.gone ↔ d ∈ p ∧ d ≠ dot ∧ db.file d = false ∧ db.nested d = false ∧ (d, true) ∈ l0

theorem done_start {db : Db} {l0 : Loaded} (hl : ∀ v ∈ l0, v.2 = true) : Done db l0 [] { db := db, loaded := l0 } := by
  refine ⟨rfl, rfl, rfl, fun d b => ?_, fun d => by simp, fun d => by simp, by simp, by simp, fun d => by simp, fun d => by simp⟩
  constructor
  · intro h
    have := hl _ h
    simp only at this
    subst this
    exact ⟨rfl, .inr ⟨by simp, h⟩⟩
  · rintro ⟨rfl, h | h⟩
    · exact absurd h.1 (by simp)
    · exact h.2

theorem process_done {db : Db} {l0 : Loaded} {p : List Nat} {t t' : State} {ok : Nat → Bool} {d : Nat} (hsub : ∀ v ∈ l0, v.1 ∈ db.var) (h : Done db l0 p t)
    (hp : process ok d t = some t') : Done db l0 (p ++ [d]) t' := by
  unfold process at hp
  split at hp
  · cases hp
  split at hp
  · rename_i hc
    simp only [h.file, Bool.and_eq_true, Bool.not_eq_true', decide_eq_true_eq] at hc
    obtain ⟨hf, hd⟩ := hc
    split at hp
    · rename_i b hs
      have hb := search_some hs
      rw [h.loaded] at hb
      have hb' : d ∉ p ∧ (d, true) ∈ l0 := by
        rcases hb.2 with hx | hx
        · rcases hx.2 with hx | hx
          · rw [hf] at hx; cases hx
          · exact absurd hx hd
        · exact hx
      split at hp
      · rename_i hn
        cases hp
        rw [h.nested] at hn
        refine ⟨h.file, h.nested, h.dir, fun e b => ?_, fun e => ?_, fun e => ?_, ?_, ?_, fun e => ?_, fun e => ?_⟩
        · simp only [mem_remove, h.loaded, List.mem_append, List.mem_singleton]
          by_cases he : e = d
          · subst he; simp [hf, hd]
          · simp [he]
        · simp only [h.var, List.mem_append, List.mem_singleton]
          by_cases he : e = d
          · subst he; simp [hf, hd, hn, hb'.1]
          · simp [he]
        · simp only [mem_delete, h.flag, List.mem_append, List.mem_singleton]
          by_cases he : e = d <;> simp [he]
        · simp only [h.new, List.mem_append, List.mem_singleton]
          constructor
          · rintro ⟨e, he, hx⟩; exact ⟨e, .inl he, hx⟩
          · rintro ⟨e, he | rfl, hx⟩
            · exact ⟨e, he, hx⟩
            · rw [hf] at hx; cases hx.2.1
        · simp only [List.mem_append, List.mem_singleton, true_iff]
          exact ⟨d, .inr rfl, hd, hf, hb'.2⟩
        · simp only [h.fresh, List.mem_append, List.mem_singleton]
          by_cases he : e = d
          · subst he; simp [hf, hd]
          · simp [he]
        · simp only [h.gone, List.mem_append, List.mem_singleton]
          by_cases he : e = d
          · subst he; simp [hn]
          · simp [he]
      · rename_i hn
        cases hp
        rw [h.nested] at hn
        have hn : db.nested d = false := by simpa using hn
        refine ⟨h.file, h.nested, h.dir, fun e b => ?_, fun e => ?_, fun e => ?_, ?_, ?_, fun e => ?_, fun e => ?_⟩
        · simp only [mem_remove, h.loaded, List.mem_append, List.mem_singleton]
          by_cases he : e = d
          · subst he; simp [hf, hd]
          · simp [he]
        · simp only [mem_delete, h.var, List.mem_append, List.mem_singleton]
          by_cases he : e = d
          · subst he; simp [hf, hd, hn, hb'.2]
          · simp [he]
        · simp only [mem_delete, h.flag, List.mem_append, List.mem_singleton]
          by_cases he : e = d <;> simp [he]
        · simp only [h.new, List.mem_append, List.mem_singleton]
          constructor
          · rintro ⟨e, he, hx⟩; exact ⟨e, .inl he, hx⟩
          · rintro ⟨e, he | rfl, hx⟩
            · exact ⟨e, he, hx⟩
            · rw [hf] at hx; cases hx.2.1
        · simp only [List.mem_append, List.mem_singleton, true_iff]
          exact ⟨d, .inr rfl, hd, hf, hb'.2⟩
        · simp only [h.fresh, List.mem_append, List.mem_singleton]
          by_cases he : e = d
          · subst he; simp [hf, hd]
          · simp [he]
        · simp only [List.mem_cons, h.gone, List.mem_append, List.mem_singleton]
          by_cases he : e = d
          · subst he; simp [hn, hd, hf, hb'.2]
          · simp [he]
    · rename_i hs
      cases hp
      have hno : d ∉ p → (d, true) ∉ l0 := fun hp' hm => search_none hs true ((h.loaded d true).2 ⟨rfl, .inr ⟨hp', hm⟩⟩)
      have hstill : ∀ {P : Prop}, (d ∉ p → ¬ P) → ((d ∈ p ∨ d = d) ∧ P ↔ d ∈ p ∧ P) := fun {P} hP => by
        constructor
        · rintro ⟨_, hx⟩
          exact ⟨Classical.byContradiction fun hn => hP hn hx, hx⟩
        · rintro ⟨_, hx⟩; exact ⟨.inr rfl, hx⟩
      refine ⟨h.file, h.nested, h.dir, fun e b => ?_, fun e => ?_, fun e => ?_, ?_, ?_, fun e => ?_, fun e => ?_⟩
      · simp only [h.loaded, List.mem_append, List.mem_singleton]
        by_cases he : e = d
        · subst he
          simp only [hf, hd, Bool.false_eq_true, or_self, and_false, or_true, not_true_eq_false, false_and, false_or, iff_false]
          rintro ⟨_, h1, h2⟩
          exact hno h1 h2
        · simp [he]
      · simp only [h.var, List.mem_append, List.mem_singleton]
        by_cases he : e = d
        · subst he
          have := hstill (P := db.file e = false ∧ e ≠ dot ∧ db.nested e = false ∧ (e, true) ∈ l0) (fun hn hx => hno hn hx.2.2.2)
          rw [this]
          simp [hf, hd]
        · simp [he]
      · simp only [mem_delete, h.flag, List.mem_append, List.mem_singleton]
        by_cases he : e = d <;> simp [he]
      · simp only [h.new, List.mem_append, List.mem_singleton]
        constructor
        · rintro ⟨e, he, hx⟩; exact ⟨e, .inl he, hx⟩
        · rintro ⟨e, he | rfl, hx⟩
          · exact ⟨e, he, hx⟩
          · rw [hf] at hx; cases hx.2.1
      · simp only [h.removed, List.mem_append, List.mem_singleton]
        constructor
        · rintro ⟨e, he, hx⟩; exact ⟨e, .inl he, hx⟩
        · rintro ⟨e, he | rfl, hx⟩
          · exact ⟨e, he, hx⟩
          · by_cases hep : e ∈ p
            · exact ⟨e, hep, hx⟩
            · exact absurd hx.2.2 (hno hep)
      · simp only [h.fresh, List.mem_append, List.mem_singleton]
        by_cases he : e = d
        · subst he; simp [hf, hd]
        · simp [he]
      · simp only [h.gone, List.mem_append, List.mem_singleton]
        by_cases he : e = d
        · subst he
          rw [hstill]
          exact fun hn hx => hno hn hx.2.2.2
        · simp [he]
  · rename_i hc
    have hf : db.file d = true ∨ d = dot := by
      simp only [h.file, Bool.and_eq_true, Bool.not_eq_true', decide_eq_true_eq, not_and, Decidable.not_not] at hc
      cases hx : db.file d with
      | true => exact .inl rfl
      | false => exact .inr (hc hx)
    have hnf : ¬ (db.file d = false ∧ d ≠ dot) := by
      rintro ⟨h1, h2⟩
      rcases hf with hf | hf
      · rw [h1] at hf; cases hf
      · exact h2 hf
    split at hp
    · rename_i hs
      cases hp
      have hno : d ∉ p ∧ (d, true) ∉ l0 := by
        have := search_none hs true
        rw [h.loaded] at this
        simp only [true_and, not_or, not_and] at this
        have hp' : d ∉ p := fun hx => hf.elim (this.1 hx).1 (this.1 hx).2
        exact ⟨hp', this.2 hp'⟩
      refine ⟨h.file, h.nested, h.dir, fun e b => ?_, fun e => ?_, fun e => ?_, ?_, ?_, fun e => ?_, fun e => ?_⟩
      · simp only [List.mem_cons, Prod.mk.injEq, h.loaded, List.mem_append, List.mem_singleton]
        by_cases he : e = d
        · subst he; simp [hf, hno.1, hno.2]
        · simp [he]
      · simp only [mem_insert, h.var, List.mem_append, List.mem_singleton]
        by_cases he : e = d
        · subst he; simp [hf]
        · simp [he]
      · simp only [mem_delete, h.flag, List.mem_append, List.mem_singleton]
        by_cases he : e = d <;> simp [he]
      · simp only [Bool.or_eq_true, decide_eq_true_eq, h.new, List.mem_append, List.mem_singleton]
        constructor
        · rintro (⟨e, he, hx⟩ | hd)
          · exact ⟨e, .inl he, hx⟩
          · exact ⟨d, .inr rfl, hd, hf.resolve_right hd, hno.2⟩
        · rintro ⟨e, he | rfl, hx⟩
          · exact .inl ⟨e, he, hx⟩
          · exact .inr hx.1
      · simp only [h.removed, List.mem_append, List.mem_singleton]
        constructor
        · rintro ⟨e, he, hx⟩; exact ⟨e, .inl he, hx⟩
        · rintro ⟨e, he | rfl, hx⟩
          · exact ⟨e, he, hx⟩
          · exact absurd hx.2.2 hno.2
      · simp only [List.mem_cons, h.fresh, List.mem_append, List.mem_singleton]
        by_cases he : e = d
        · subst he; simp [hf, hno.2]
        · simp [he]
      · simp only [h.gone, List.mem_append, List.mem_singleton]
        by_cases he : e = d
        · subst he; simp [hno.2]
        · simp [he]
    · rename_i hs
      cases hp
      have hyes : d ∉ p → (d, true) ∈ l0 := fun hp' => by
        have := (h.loaded d true).1 (search_some hs)
        rcases this.2 with hx | hx
        · exact absurd hx.1 hp'
        · exact hx.2
      have hvar : d ∉ p → d ∈ db.var := fun hp' => hsub _ (hyes hp')
      refine ⟨h.file, h.nested, h.dir, fun e b => ?_, fun e => ?_, fun e => ?_, ?_, ?_, fun e => ?_, fun e => ?_⟩
      · simp only [h.loaded, List.mem_append, List.mem_singleton]
        by_cases he : e = d
        · subst he
          by_cases hep : e ∈ p
          · simp [hep, hf]
          · simp [hep, hf, hyes hep]
        · simp [he]
      · simp only [h.var, List.mem_append, List.mem_singleton]
        by_cases he : e = d
        · subst he
          by_cases hep : e ∈ p
          · simp [hep, hf]
          · simp [hep, hf, hvar hep]
        · simp [he]
      · simp only [mem_delete, h.flag, List.mem_append, List.mem_singleton]
        by_cases he : e = d <;> simp [he]
      · simp only [h.new, List.mem_append, List.mem_singleton]
        constructor
        · rintro ⟨e, he, hx⟩; exact ⟨e, .inl he, hx⟩
        · rintro ⟨e, he | rfl, hx⟩
          · exact ⟨e, he, hx⟩
          · by_cases hep : e ∈ p
            · exact ⟨e, hep, hx⟩
            · exact absurd (hyes hep) hx.2.2
      · simp only [h.removed, List.mem_append, List.mem_singleton]
        constructor
        · rintro ⟨e, he, hx⟩; exact ⟨e, .inl he, hx⟩
        · rintro ⟨e, he | rfl, hx⟩
          · exact ⟨e, he, hx⟩
          · exact absurd ⟨hx.2.1, hx.1⟩ hnf
      · simp only [h.fresh, List.mem_append, List.mem_singleton]
        by_cases he : e = d
        · subst he
          by_cases hep : e ∈ p
          · simp [hep]
          · simp [hep, hyes hep]
        · simp [he]
      · simp only [h.gone, List.mem_append, List.mem_singleton]
        by_cases he : e = d
        · subst he
          constructor
          · rintro ⟨h1, h2⟩; exact ⟨.inl h1, h2⟩
          · rintro ⟨_, h2⟩; exact absurd ⟨h2.2.1, h2.1⟩ hnf
        · simp [he]
    · cases hp

theorem processAll_done {db : Db} {l0 : Loaded} {l p : List Nat} {t t' : State} {ok : Nat → Bool} (hsub : ∀ v ∈ l0, v.1 ∈ db.var) (h : Done db l0 p t)
    (hp : processAll ok l t = some t') : Done db l0 (p ++ l) t' := by
  induction l generalizing p t with
  | nil => cases hp; simpa using h
  | cons d l ih =>
    unfold processAll at hp
    split at hp
    · cases hp
    · rename_i s hs
      have := ih (process_done hsub h hs) hp
      simpa using this

theorem process_some {db : Db} {l0 : Loaded} {p : List Nat} {t : State} {ok : Nat → Bool} {d : Nat} (h : Done db l0 p t) (ho : ok d = true) :
    ∃ t', process ok d t = some t' := by
  unfold process
  rw [if_neg (by simp [ho])]
  split
  · split
    · split <;> exact ⟨_, rfl⟩
    · exact ⟨_, rfl⟩
  · split
    · exact ⟨_, rfl⟩
    · exact ⟨_, rfl⟩
    · rename_i hs
      exact absurd ((h.loaded d false).1 (search_some hs)).1 (by simp)

theorem processAll_some {db : Db} {l0 : Loaded} {l p : List Nat} {t : State} {ok : Nat → Bool} (hsub : ∀ v ∈ l0, v.1 ∈ db.var) (h : Done db l0 p t)
    (ho : ∀ d ∈ l, ok d = true) : ∃ t', processAll ok l t = some t' := by
  induction l generalizing p t with
  | nil => exact ⟨t, rfl⟩
  | cons d l ih =>
    obtain ⟨s, hs⟩ := process_some h (ho d List.mem_cons_self)
    obtain ⟨t', ht⟩ := ih (process_done hsub h hs) (fun e he => ho e (List.mem_cons_of_mem _ he))
    exact ⟨t', by unfold processAll; rw [hs]; exact ht⟩

/-- Some directory other than the top has a `tup.config`. -/
def Some (file : Nat → Bool) : Prop := ∃ d, d ≠ dot ∧ file d = true

/-- What an update has done, in terms of the state after its scan and of the list of variants that this left. -/
structure Final (db : Db) (l0 : Loaded) (r : Result) : Prop where
  file : r.db.file = db.file
  dir : r.db.dir = db.dir
  nested : r.db.nested = db.nested
  flag : r.db.flag = []
  var : ∀ d, d ≠ dot → (d ∈ r.db.var ↔ db.file d = true)
  top : dot ∈ r.db.var ↔ ¬ Some db.file
  loaded : ∀ d b, d ≠ dot → ((d, b) ∈ r.loaded ↔ b = true ∧ db.file d = true)
  root : ∀ b, (dot, b) ∈ r.loaded ↔ (b = true ↔ ¬ Some db.file)
  deleteInTree : r.deleteInTree = true ↔ dot ∈ db.var ∧ Some db.file
  reparse : r.reparse = true ↔ (¬ ∃ d, d ≠ dot ∧ (d, true) ∈ l0 ∧ db.file d = true) ∧ ∃ d, d ≠ dot ∧ (d, true) ∈ l0 ∧ db.file d = false
  duplicated : ∀ d, d ∈ r.duplicated ↔ d ≠ dot ∧ db.file d = true ∧ (d, true) ∉ l0
  gone : ∀ d, d ∈ r.gone ↔ d ≠ dot ∧ db.file d = false ∧ db.nested d = false ∧ (d, true) ∈ l0

/-- The list of variants after the scan of a careful user. -/
structure Start (db : Db) (l0 : Loaded) : Prop where
  inv : Inv db
  enabled : ∀ v ∈ l0, v.2 = true
  sub : ∀ v ∈ l0, v.1 ∈ db.var
  kept : ∀ d ∈ db.var, (d, true) ∈ l0 ∨ (d ≠ dot ∧ db.file d = true ∧ d ∈ db.flag)
  nested : ∀ d ∈ db.var, db.nested d = true → db.file d = true

theorem inUse_dot {file : Nat → Bool} {l : Loaded} (hl : ∀ v ∈ l, v.1 = dot) : (inUse file l).1 = false ∧ ((inUse file l).2 = true ↔ l ≠ []) := by
  cases l with
  | nil => simp [inUse]
  | cons v l =>
    obtain ⟨d, b⟩ := v
    have := hl _ List.mem_cons_self
    simp only at this
    simp [inUse, this]

theorem inUse_no {file : Nat → Bool} {l : Loaded} (hl : ∀ v ∈ l, v.1 ≠ dot) : (inUse file l).2 = false ∧ ((inUse file l).1 = true ↔ ∃ v ∈ l, file v.1 = true) := by
  induction l with
  | nil => simp [inUse]
  | cons v l ih =>
    obtain ⟨d, b⟩ := v
    have h1 := hl _ List.mem_cons_self
    simp only at h1
    have h2 := ih (fun v hv => hl v (List.mem_cons_of_mem _ hv))
    unfold inUse
    rw [if_neg h1]
    split
    · rename_i hf
      simp [hf]
    · rename_i hf
      simp [hf, h2]

theorem search_top {l : Loaded} (h : search dot l ≠ none) : ∃ b, (dot, b) ∈ l := by
  cases hs : search dot l with
  | none => exact absurd hs h
  | some b => exact ⟨b, search_some hs⟩

theorem config_final {db : Db} {l0 : Loaded} {ord : List Nat → List Nat} {ok : Nat → Bool} {r : Result} (hs : Start db l0) (ho : ∀ l, (ord l).Perm l)
    (h : config ord ok (db, l0) = some r) : Final db l0 r := by
  unfold config at h
  simp only at h
  split at h
  · cases h
  rename_i t ht
  cases h
  have hd := processAll_done hs.sub (done_start hs.enabled) ht
  rw [List.nil_append] at hd
  have hp : ∀ d, d ∈ ord db.flag ↔ d ∈ db.flag := fun d => (ho _).mem_iff
  have n0 : t.db.flag = [] := by
    rw [List.eq_nil_iff_forall_not_mem]
    intro d hx
    rw [hd.flag, hp] at hx
    exact hx.2 hx.1
  have n1 : ∀ d b, d ≠ dot → ((d, b) ∈ t.loaded ↔ b = true ∧ db.file d = true) := by
    intro d b hdd
    rw [hd.loaded]
    simp only [hdd, or_false, hp]
    refine and_congr_right fun _ => ⟨?_, fun hf => ?_⟩
    · rintro (⟨_, hf⟩ | ⟨hn, hl⟩)
      · exact hf
      · exact (hs.inv.stale d (hs.sub _ hl) hdd).resolve_right hn
    · by_cases hfl : d ∈ db.flag
      · exact .inl ⟨hfl, hf⟩
      · refine .inr ⟨hfl, ?_⟩
        rcases hs.kept d ((hs.inv.known d hdd hf).resolve_right hfl) with hx | hx
        · exact hx
        · exact absurd hx.2.2 hfl
  have n2 : ∀ d, d ≠ dot → (d ∈ t.db.var ↔ db.file d = true) := by
    intro d hdd
    rw [hd.var]
    simp only [hdd, or_false, hp]
    constructor
    · rintro (⟨_, hf⟩ | ⟨hv, hn⟩)
      · exact hf
      · cases hf : db.file d with
        | true => rfl
        | false =>
          exfalso
          apply hn
          refine ⟨(hs.inv.stale d hv hdd).resolve_left (by simp [hf]), hf, hdd, ?_, ?_⟩
          · cases hnn : db.nested d with
            | false => rfl
            | true => rw [hs.nested d hv hnn] at hf; cases hf
          · rcases hs.kept d hv with hx | hx
            · exact hx
            · rw [hx.2.1] at hf; cases hf
    · intro hf
      rcases hs.inv.known d hdd hf with hv | hfl
      · exact .inr ⟨hv, by simp [hf]⟩
      · exact .inl ⟨hfl, hf⟩
  have hdot : dot ∈ db.var ↔ (dot, true) ∈ l0 := ⟨fun hv => (hs.kept dot hv).resolve_right (fun hx => hx.1 rfl), fun hl => hs.sub _ hl⟩
  have n3 : ∀ b, (dot, b) ∈ t.loaded ↔ b = true ∧ (dot ∈ db.flag ∨ dot ∈ db.var) := by
    intro b
    rw [hd.loaded, hp, hdot]
    by_cases hx : dot ∈ db.flag <;> simp [hx]
  have n4 : dot ∈ t.db.var ↔ dot ∈ db.flag ∨ dot ∈ db.var := by
    rw [hd.var, hp]
    simp
  -- the two cases of what was in use
  have hcase : (dot ∈ db.var ∧ (inUse db.file l0).1 = false ∧ (inUse db.file l0).2 = true ∧ ∀ d b, d ≠ dot → (d, b) ∉ l0) ∨
      (dot ∉ db.var ∧ (inUse db.file l0).2 = false ∧ ((inUse db.file l0).1 = true ↔ ∃ d, d ≠ dot ∧ (d, true) ∈ l0 ∧ db.file d = true)) := by
    by_cases hv : dot ∈ db.var
    · have ha : ∀ v ∈ l0, v.1 = dot := fun v hl => hs.inv.alone hv _ (hs.sub v hl)
      have hu := inUse_dot (file := db.file) ha
      exact .inl ⟨hv, hu.1, hu.2.2 (List.ne_nil_of_mem (hdot.1 hv)), fun d b hdd hx => hdd (ha _ hx)⟩
    · have ha : ∀ v ∈ l0, v.1 ≠ dot := fun v hl he => hv (he ▸ hs.sub v hl)
      have hu := inUse_no (file := db.file) ha
      refine .inr ⟨hv, hu.1, hu.2.trans ⟨?_, ?_⟩⟩
      · rintro ⟨⟨d, b⟩, hx, hf⟩
        have := hs.enabled _ hx
        simp only at this
        subst this
        exact ⟨d, ha _ hx, hx, hf⟩
      · rintro ⟨d, _, hx, hf⟩
        exact ⟨(d, true), hx, hf⟩
  have hnew : t.new = true ↔ ∃ d, d ≠ dot ∧ db.file d = true ∧ (d, true) ∉ l0 := by
    rw [hd.new]
    constructor
    · rintro ⟨d, _, hx⟩; exact ⟨d, hx⟩
    · rintro ⟨d, hdd, hf, hn⟩
      refine ⟨d, (hp d).2 ?_, hdd, hf, hn⟩
      rcases hs.inv.known d hdd hf with hv | hfl
      · rcases hs.kept d hv with hx | hx
        · exact absurd hx hn
        · exact hx.2.2
      · exact hfl
  have hrem : t.removed = true ↔ ∃ d, d ≠ dot ∧ (d, true) ∈ l0 ∧ db.file d = false := by
    rw [hd.removed]
    constructor
    · rintro ⟨d, _, h1, h2, h3⟩; exact ⟨d, h1, h3, h2⟩
    · rintro ⟨d, hdd, hl, hf⟩
      exact ⟨d, (hp d).2 ((hs.inv.stale d (hs.sub _ hl) hdd).resolve_left (by simp [hf])), hdd, hf, hl⟩
  have husing : ((inUse db.file l0).1 || t.new) = true ↔ Some db.file := by
    rw [Bool.or_eq_true, hnew]
    rcases hcase with ⟨h1, h2, h3, h4⟩ | ⟨h1, h2, h3⟩
    · rw [h2]
      constructor
      · rintro (hx | ⟨d, hdd, hf, _⟩)
        · cases hx
        · exact ⟨d, hdd, hf⟩
      · rintro ⟨d, hdd, hf⟩
        exact .inr ⟨d, hdd, hf, h4 d true hdd⟩
    · rw [h3]
      constructor
      · rintro (⟨d, hdd, _, hf⟩ | ⟨d, hdd, hf, _⟩) <;> exact ⟨d, hdd, hf⟩
      · rintro ⟨d, hdd, hf⟩
        by_cases hl : (d, true) ∈ l0
        · exact .inl ⟨d, hdd, hl, hf⟩
        · exact .inr ⟨d, hdd, hf, hl⟩
  have hrep : (!(inUse db.file l0).1 && t.removed) = true ↔
      (¬ ∃ d, d ≠ dot ∧ (d, true) ∈ l0 ∧ db.file d = true) ∧ ∃ d, d ≠ dot ∧ (d, true) ∈ l0 ∧ db.file d = false := by
    rw [Bool.and_eq_true, hrem]
    refine and_congr_left fun hx => ?_
    rcases hcase with ⟨h1, h2, h3, h4⟩ | ⟨h1, h2, h3⟩
    · obtain ⟨d, hdd, hl, _⟩ := hx
      exact absurd hl (h4 d true hdd)
    · rw [← h3]
      simp
  have hdel : ((inUse db.file l0).2 && t.new) = true ↔ dot ∈ db.var ∧ Some db.file := by
    rw [Bool.and_eq_true, ← husing]
    rcases hcase with ⟨h1, h2, h3, h4⟩ | ⟨h1, h2, h3⟩
    · simp [h1, h2, h3]
    · simp [h1, h2]
  have hdup : ∀ d, d ∈ (t.fresh.filter fun d => decide (d ≠ dot)) ↔ d ≠ dot ∧ db.file d = true ∧ (d, true) ∉ l0 := by
    intro d
    rw [List.mem_filter, decide_eq_true_eq, hd.fresh, hp]
    constructor
    · rintro ⟨⟨_, h2, h3⟩, h4⟩
      exact ⟨h4, h2.resolve_right h4, h3⟩
    · rintro ⟨hdd, hf, hn⟩
      refine ⟨⟨?_, .inl hf, hn⟩, hdd⟩
      rcases hs.inv.known d hdd hf with hv | hfl
      · rcases hs.kept d hv with hx | hx
        · exact absurd hx hn
        · exact hx.2.2
      · exact hfl
  have hgone : ∀ d, d ∈ t.gone ↔ d ≠ dot ∧ db.file d = false ∧ db.nested d = false ∧ (d, true) ∈ l0 := by
    intro d
    rw [hd.gone, hp]
    constructor
    · rintro ⟨_, hx⟩; exact hx
    · intro hx
      exact ⟨(hs.inv.stale d (hs.sub _ hx.2.2.2) hx.1).resolve_left (by simp [hx.2.1]), hx⟩
  unfold conclude
  simp only
  split
  · rename_i hsn
    have hnot : dot ∉ db.flag ∧ dot ∉ db.var := by
      have := search_none hsn true
      rw [n3] at this
      simpa using this
    have hempty : t.loaded.isEmpty = true ↔ ¬ Some db.file := by
      rw [List.isEmpty_iff]
      constructor
      · rintro he ⟨d, hdd, hf⟩
        have := (n1 d true hdd).2 ⟨rfl, hf⟩
        rw [he] at this
        cases this
      · intro hno
        rw [List.eq_nil_iff_forall_not_mem]
        rintro ⟨d, b⟩ hx
        by_cases hdd : d = dot
        · subst hdd
          rw [n3] at hx
          exact hx.2.elim hnot.1 hnot.2
        · exact hno ⟨d, hdd, ((n1 d b hdd).1 hx).2⟩
    refine ⟨?_, ?_, ?_, ?_, fun d hdd => ?_, ?_, fun d b hdd => ?_, fun b => ?_, ?_, hrep, hdup, hgone⟩
    · split <;> exact hd.file
    · split <;> exact hd.dir
    · split <;> exact hd.nested
    · split <;> exact n0
    · rw [← n2 d hdd]
      split
      · simp only [mem_insert, hdd, false_or]
      · exact Iff.rfl
    · rw [← hempty]
      split
      · rename_i he
        simp only [mem_insert, true_or, he]
      · rename_i he
        simp [n4, hnot, he]
    · rw [← n1 d b hdd]
      simp [hdd]
    · rw [← hempty]
      simp only [List.mem_cons, Prod.mk.injEq, true_and, n3, hnot, or_self, and_false, or_false]
      cases b <;> cases t.loaded.isEmpty <;> simp
    · simp [hnot.2]
  · rename_i b hsm
    have htop : dot ∈ db.flag ∨ dot ∈ db.var := ((n3 b).1 (search_some hsm)).2
    split
    · rename_i hu
      rw [husing] at hu
      refine ⟨hd.file, hd.dir, hd.nested, n0, fun d hdd => ?_, ?_, fun d b hdd => ?_, fun b => ?_, hdel, hrep, hdup, hgone⟩
      · rw [← n2 d hdd]
        simp only [mem_delete, hdd, ne_eq, not_false_eq_true, and_true]
      · simp [mem_delete, hu]
      · rw [← n1 d b hdd]
        simp only [List.mem_map]
        constructor
        · rintro ⟨⟨e, c⟩, hx, he⟩
          simp only at he
          split at he
          · cases he; exact absurd rfl hdd
          · cases he; exact hx
        · intro hx
          exact ⟨(d, b), hx, by simp [hdd]⟩
      · simp only [List.mem_map, hu, not_true_eq_false, iff_false, Bool.not_eq_true]
        constructor
        · rintro ⟨⟨e, c⟩, hx, he⟩
          simp only at he
          split at he
          · cases he; rfl
          · rename_i hne
            cases he
            exact absurd rfl hne
        · rintro rfl
          exact ⟨(dot, true), (n3 true).2 ⟨rfl, htop⟩, by simp⟩
    · rename_i hu
      rw [husing] at hu
      refine ⟨hd.file, hd.dir, hd.nested, n0, n2, ?_, n1, fun b => ?_, hdel, hrep, hdup, hgone⟩
      · rw [n4]; simp [hu, htop]
      · rw [n3]; simp [hu, htop]

/-- The state after the scan of a careful user. -/
theorem scan_start {db : Db} {ord : List Nat → List Nat} {evs : List Event} (h : Inv db) (ho : ∀ l, (ord l).Perm l)
    (hc : Careful db (scan evs (db, load ord db)).1 evs) : Start (scan evs (db, load ord db)).1 (scan evs (db, load ord db)).2 := by
  have hs := scan_scanned (l0 := load ord db) (evs := evs) h
  have hload : ∀ v, v ∈ load ord db ↔ v.1 ∈ db.var ∧ v.2 = true := by
    rintro ⟨d, b⟩
    unfold load
    rw [List.mem_map]
    constructor
    · rintro ⟨e, he, hx⟩
      cases hx
      exact ⟨(ho _).mem_iff.1 he, rfl⟩
    · rintro ⟨h1, h2⟩
      simp only at h1 h2
      subst h2
      exact ⟨d, (ho _).mem_iff.2 h1, rfl⟩
  refine ⟨hs.inv, fun v hv => ((hload v).1 (hs.sub v hv)).2, fun v hv => ?_, fun d hv => ?_, fun d hv hn => ?_⟩
  · rw [hs.var]
    exact ((hload v).1 (hs.sub v hv)).1
  · rw [hs.var] at hv
    have hl := (hload (d, true)).2 ⟨hv, rfl⟩
    by_cases hx : (d, true) ∈ (scan evs (db, load ord db)).2
    · exact .inl hx
    · right
      rcases hs.kept _ hl with hk | hk
      · exact absurd hk hx
      · have hf := hc.again d hv hk.1
        exact ⟨hk.2, hf, hs.flagged _ hl hx hf⟩
  · rw [hs.var] at hv
    rw [hs.nested] at hn
    exact hc.nested d hv hn

theorem final_inv {db : Db} {l0 : Loaded} {r : Result} (hs : Start db l0) (h : Final db l0 r) : Inv r.db := by
  refine ⟨?_, fun d hf => ?_, fun d hv hdd => .inl ?_, fun d hdd hf => .inl ?_, fun hv d hd => ?_⟩
  · rw [h.dir]; exact hs.inv.dot
  · rw [h.file] at hf; rw [h.dir]; exact hs.inv.dir d hf
  · rw [h.file]; exact (h.var d hdd).1 hv
  · rw [h.file] at hf; exact (h.var d hdd).2 hf
  · refine Classical.byContradiction fun hdd => h.top.1 hv ⟨d, hdd, (h.var d hdd).1 hd⟩

theorem reach_inv {db : Db} (h : Reach db) : Inv db := by
  induction h with
  | init h => exact ⟨h.dot, h.dir, fun d hv => by rw [h.var] at hv; (exact absurd hv (by simp)), fun d _ hf => .inr (h.file d hf), fun hv => by rw [h.var] at hv; (exact absurd hv (by simp))⟩
  | scan ord evs _ ho ih => exact (scan_scanned ih).inv
  | update _ ho ho' hc hu ih =>
    have hs := scan_start ih ho hc
    exact final_inv hs (config_final hs ho' hu)

end Tup.Variants
