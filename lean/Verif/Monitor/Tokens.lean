import Verif.Monitor.Lemmas

/-!
The invariant on the tokens of one file, and that it survives what happens to them.
-/

namespace Tup.Monitor

/-- Whether the file is known to be gone after some tokens: they end with a removal, or there are none and it was gone. -/
def gone : Bool → List Tok → Bool
  | p, [] => p
  | _, .del :: l => gone true l
  | _, .away :: l => gone true l
  | _, _ :: l => gone false l

/-- Files are created only where they are known to be gone. -/
def OkNew : Bool → List Tok → Prop
  | _, [] => True
  | p, .new :: l => p = true ∧ OkNew false l
  | _, .del :: l => OkNew true l
  | _, .away :: l => OkNew true l
  | _, _ :: l => OkNew false l

/-- No file is removed after it was moved here. -/
def Kept : Bool → List Tok → Prop
  | _, [] => True
  | _, .into :: l => Kept true l
  | b, .del :: l => b = false ∧ Kept b l
  | b, .away :: l => b = false ∧ Kept b l
  | b, _ :: l => Kept b l

/-- What the queue of the monitor looks like: nothing new after a removal that can be cancelled, and no removal after
something new. -/
def Shape : Bool → Bool → List Tok → Prop
  | _, _, [] => True
  | n, d, .new :: l => n = false ∧ d = false ∧ Shape true d l
  | _, d, .into :: l => d = false ∧ Shape true d l
  | n, _, .del :: l => n = false ∧ Shape n true l
  | n, d, .away :: l => n = false ∧ Shape n d l
  | n, d, .sync :: l => Shape n d l

theorem gone_mono (l : List Tok) {p : Bool} (h : gone false l = true) : gone p l = true := by
  cases l with
  | nil => cases h
  | cons t l => cases t <;> exact h

theorem okNew_mono (l : List Tok) {p : Bool} (h : OkNew false l) : OkNew p l := by
  cases l with
  | nil => trivial
  | cons t l => cases t <;> first | exact h | (cases h.1; done)

theorem kept_mono (l : List Tok) {b : Bool} (h : Kept b l) : Kept false l := by
  induction l with
  | nil => trivial
  | cons t l ih => cases t <;> first | exact ih h | exact h | exact ⟨rfl, ih h.2⟩

theorem gone_append (p : Bool) (l l' : List Tok) : gone p (l ++ l') = gone (gone p l) l' := by
  induction l generalizing p with
  | nil => rfl
  | cons t l ih => cases t <;> exact ih _

theorem okNew_append (p : Bool) (l l' : List Tok) : OkNew p (l ++ l') ↔ OkNew p l ∧ OkNew (gone p l) l' := by
  induction l generalizing p with
  | nil => exact ⟨fun h => ⟨trivial, h⟩, fun h => h.2⟩
  | cons t l ih =>
    cases t <;> simp only [List.cons_append, OkNew, gone, ih, and_assoc]

theorem kept_append (b : Bool) (l l' : List Tok) :
    Kept b (l ++ l') ↔ Kept b l ∧ Kept (b || decide (.into ∈ l)) l' := by
  induction l generalizing b with
  | nil => simp [Kept]
  | cons t l ih => cases t <;> simp [Kept, ih, and_assoc]

theorem shape_append (n d : Bool) (l l' : List Tok) :
    Shape n d (l ++ l') ↔ Shape n d l ∧
      Shape (n || decide (.new ∈ l ∨ .into ∈ l)) (d || decide (.del ∈ l)) l' := by
  induction l generalizing n d with
  | nil => simp [Shape]
  | cons t l ih => cases t <;> simp [Shape, ih, and_assoc]

theorem gone_will {d p r : Bool} (l : List Tok) (hp : p = true → r = false) (h : gone p l = true) : will d r l = false := by
  induction l generalizing p r with
  | nil => exact hp h
  | cons t l ih =>
    cases t
    · exact ih (p := false) (fun h => by cases h) h
    · exact ih (p := false) (fun h => by cases h) h
    · exact ih (p := false) (fun h => by cases h) h
    · exact ih (p := true) (fun _ => rfl) h
    · exact ih (p := true) (fun _ => rfl) h

theorem gone_noNew {p n d : Bool} (l : List Tok) (hs : Shape n d l) (hp : n = true → p = false) (h : gone p l = true) :
    n = false ∧ .new ∉ l ∧ .into ∉ l := by
  induction l generalizing p n d with
  | nil =>
    refine ⟨?_, by simp, by simp⟩
    cases n
    · rfl
    · exact absurd (hp rfl) (by rw [show p = true from h]; decide)
  | cons t l ih =>
    cases t
    · have := ih (p := false) hs.2.2 (fun _ => rfl) h
      exact absurd this.1 (by decide)
    · have := ih (p := false) hs.2 (fun _ => rfl) h
      exact absurd this.1 (by decide)
    · have := ih (p := false) hs (fun _ => rfl) h
      exact ⟨this.1, by simp [this.2.1], by simp [this.2.2]⟩
    · have := ih (p := true) hs.2 (fun h => by rw [hs.1] at h; cases h) h
      exact ⟨this.1, by simp [this.2.1], by simp [this.2.2]⟩
    · have := ih (p := true) hs.2 (fun h => by rw [hs.1] at h; cases h) h
      exact ⟨this.1, by simp [this.2.1], by simp [this.2.2]⟩

theorem shape_late {n d : Bool} (l : List Tok) (h : Shape n d l) : Late d l := by
  induction l generalizing n d with
  | nil => trivial
  | cons t l ih => cases t <;> first | exact ih h | exact ih h.2.2 | exact ⟨h.1, ih h.2⟩ | exact ih h.2

theorem okNew_of {p : Bool} {l : List Tok} (h : .new ∉ l) : OkNew p l := by
  induction l generalizing p with
  | nil => trivial
  | cons t l ih =>
    have := fun q => @ih q (fun h' => h (List.mem_cons_of_mem _ h'))
    cases t
    · exact absurd List.mem_cons_self h
    all_goals exact this _

theorem shape_of {d : Bool} {l : List Tok} (h : .new ∉ l) (h' : .into ∉ l) : Shape false d l := by
  induction l generalizing d with
  | nil => trivial
  | cons t l ih =>
    have := fun q => @ih q (fun h2 => h (List.mem_cons_of_mem _ h2)) (fun h2 => h' (List.mem_cons_of_mem _ h2))
    cases t
    · exact absurd List.mem_cons_self h
    · exact absurd List.mem_cons_self h'
    · exact this _
    · exact ⟨rfl, this _⟩
    · exact ⟨rfl, this _⟩

theorem kept_of {l : List Tok} (h' : .into ∉ l) : Kept false l := by
  induction l with
  | nil => trivial
  | cons t l ih =>
    have := ih (fun h2 => h' (List.mem_cons_of_mem _ h2))
    cases t
    · exact this
    · exact absurd List.mem_cons_self h'
    · exact this
    · exact ⟨rfl, this⟩
    · exact ⟨rfl, this⟩

theorem shape_mono {n d n' d' : Bool} {l : List Tok} (h : Shape n d l) (hn : n' = true → n = true := by simp)
    (hd : d' = true → d = true := by simp) : Shape n' d' l := by
  have neg : ∀ {a b : Bool}, (b = true → a = true) → a = false → b = false := by
    intro a b h h'
    cases b
    · rfl
    · rw [h'] at h; exact (h rfl).symm
  induction l generalizing n d n' d' with
  | nil => trivial
  | cons t l ih =>
    cases t
    · exact ⟨neg hn h.1, neg hd h.2.1, ih h.2.2 id hd⟩
    · exact ⟨neg hd h.1, ih h.2 id hd⟩
    · exact ih h hn hd
    · exact ⟨neg hn h.1, ih h.2 hn id⟩
    · exact ⟨neg hn h.1, ih h.2 hn hd⟩

/-- The invariant on the tokens of a file: `d` is whether it exists, `r` whether it is recorded, `m` are the tokens of
the monitor's queue and `k` those of the events that it has not read. -/
structure Tokens (d r : Bool) (m k : List Tok) : Prop where
  here : d = true → will true r (m ++ k) = true
  gone : d = false → gone (!r) (m ++ k) = true
  new : OkNew (!r) (m ++ k)
  kept : Kept false (m ++ k)
  shape : Shape false false m

theorem mem_afterNew {b : Bool} {l : List Tok} {t : Tok} (h : t ∈ afterNew b l) : t ∈ l := by
  induction l generalizing b with
  | nil => exact h
  | cons a l ih =>
    cases a <;> simp only [afterNew] at h
    all_goals first
      | exact List.mem_cons_of_mem _ (ih h)
      | (split at h
         · exact List.mem_cons_of_mem _ (ih h)
         · rcases List.mem_cons.1 h with rfl | h
           · exact List.mem_cons_self
           · exact List.mem_cons_of_mem _ (ih h))
      | (rcases List.mem_cons.1 h with rfl | h
         · exact List.mem_cons_self
         · exact List.mem_cons_of_mem _ (ih h))

theorem afterNew_noDel {b : Bool} {l : List Tok} (h : .del ∉ l) (hb : b = false) : afterNew b l = l := by
  subst hb
  induction l with
  | nil => rfl
  | cons a l ih =>
    have := ih (fun h' => h (List.mem_cons_of_mem _ h'))
    cases a
    · simp [afterNew, this]
    · simp [afterNew, this]
    · simp [afterNew, this]
    · exact absurd List.mem_cons_self h
    · simp [afterNew, this]

theorem afterDel_plain {l : List Tok} (h : .new ∉ l) (h' : .into ∉ l) : afterDel false l = l := by
  induction l with
  | nil => rfl
  | cons a l ih =>
    have := ih (fun h2 => h (List.mem_cons_of_mem _ h2)) (fun h2 => h' (List.mem_cons_of_mem _ h2))
    cases a
    · exact absurd List.mem_cons_self h
    · exact absurd List.mem_cons_self h'
    · simp [afterDel, this]
    · simp [afterDel, this]
    · simp [afterDel, this]

theorem afterDel_syncs {l : List Tok} {d : Bool} (h : Shape true d l) (hi : .into ∉ l) : afterDel true l = [] := by
  induction l with
  | nil => rfl
  | cons a l ih =>
    have hi' : .into ∉ l := fun h2 => hi (List.mem_cons_of_mem _ h2)
    cases a
    · exact absurd h.1 (by decide)
    · exact absurd List.mem_cons_self hi
    · simp [afterDel, ih h hi']
    · exact absurd h.1 (by decide)
    · exact absurd h.1 (by decide)

theorem afterDel_new {n d : Bool} {l : List Tok} (h : Shape n d l) (hi : .into ∉ l) (hn : .new ∈ l) :
    ∃ b, l = afterDel false l ++ .new :: b ∧ .new ∉ afterDel false l ∧ .into ∉ afterDel false l := by
  induction l generalizing n d with
  | nil => cases hn
  | cons a l ih =>
    have hi' : .into ∉ l := fun h2 => hi (List.mem_cons_of_mem _ h2)
    have hn' : a ≠ .new → .new ∈ l := fun h => (List.mem_cons.1 hn).resolve_left (fun h' => h h'.symm)
    cases a
    · refine ⟨l, ?_⟩
      simp [afterDel, afterDel_syncs h.2.2 hi']
    · exact absurd List.mem_cons_self hi
    · obtain ⟨b, h1, h2, h3⟩ := ih h hi' (hn' (by decide))
      refine ⟨b, ?_⟩
      simp only [afterDel, Bool.false_eq_true, if_false, List.cons_append, List.mem_cons, reduceCtorEq, false_or]
      exact ⟨congrArg _ h1, h2, h3⟩
    · obtain ⟨b, h1, h2, h3⟩ := ih h.2 hi' (hn' (by decide))
      refine ⟨b, ?_⟩
      simp only [afterDel, Bool.false_eq_true, if_false, List.cons_append, List.mem_cons, reduceCtorEq, false_or]
      exact ⟨congrArg _ h1, h2, h3⟩
    · obtain ⟨b, h1, h2, h3⟩ := ih h.2 hi' (hn' (by decide))
      refine ⟨b, ?_⟩
      simp only [afterDel, List.cons_append, List.mem_cons, reduceCtorEq, false_or]
      exact ⟨congrArg _ h1, h2, h3⟩

theorem not_true {r : Bool} : (!r) = true → r = false := by cases r <;> simp

/-- While a removal is waiting to be read, no event for a move to the file is in the queue. -/
theorem Tokens.noInto {d r : Bool} {m k : List Tok} (h : Tokens d r m (.del :: k)) : .into ∉ m := by
  have := (kept_append false m _).1 h.kept
  intro hi
  have h2 := this.2.1
  rw [Bool.false_or, decide_eq_true hi] at h2
  cases h2

/-- A removal is read and cancels the creation. -/
theorem Tokens.cancel {d r : Bool} {m k : List Tok} (h : Tokens d r m (.del :: k)) (hn : .new ∈ m) :
    Tokens d r (afterDel false m) k := by
  have hi := h.noInto
  obtain ⟨b, he, hn', hi'⟩ := afterDel_new h.shape hi hn
  have hk := (kept_append false m _).1 h.kept
  have ho := (okNew_append (!r) m _).1 h.new
  have hon := ho.1
  rw [he, okNew_append] at hon
  have hg := hon.2.1
  refine ⟨fun hd => ?_, fun hd => ?_, ?_, ?_, shape_of hn' hi'⟩
  · have := h.here hd
    rw [will_append] at this
    rw [will_append, gone_will _ not_true hg]
    exact this
  · have := h.gone hd
    rw [gone_append] at this
    rw [gone_append, hg]
    exact this
  · rw [okNew_append, hg]
    exact ⟨okNew_of hn', ho.2⟩
  · rw [kept_append]
    refine ⟨kept_of hi', ?_⟩
    rw [Bool.false_or, decide_eq_false hi']
    have := hk.2.2
    rw [Bool.false_or, decide_eq_false hi] at this
    exact this

/-- A removal is read and goes into the queue. -/
theorem Tokens.readDel {d r : Bool} {m k : List Tok} (h : Tokens d r m (.del :: k)) (hn : .new ∉ m) (t : Tok)
    (ht : t = .del ∨ t = .away) : Tokens d r (m ++ [t]) k := by
  have hi := h.noInto
  have hs : Shape false false (m ++ [t]) := by
    apply shape_of
    · intro h'; rcases List.mem_append.1 h' with h' | h'
      · exact hn h'
      · rcases ht with rfl | rfl <;> simp at h'
    · intro h'; rcases List.mem_append.1 h' with h' | h'
      · exact hi h'
      · rcases ht with rfl | rfl <;> simp at h'
  have e : m ++ [t] ++ k = m ++ t :: k := by simp
  have h1 : ∀ r, will true r (t :: k) = will true r (.del :: k) := by rcases ht with rfl | rfl <;> intro r <;> rfl
  have h2 : ∀ p, Tup.Monitor.gone p (t :: k) = Tup.Monitor.gone p (.del :: k) := by
    rcases ht with rfl | rfl <;> intro r <;> rfl
  have h3 : ∀ p, OkNew p (.del :: k) → OkNew p (t :: k) := by rcases ht with rfl | rfl <;> intro r <;> exact id
  have h4 : ∀ p, Kept p (.del :: k) → Kept p (t :: k) := by rcases ht with rfl | rfl <;> intro r <;> exact id
  refine ⟨fun hd => ?_, fun hd => ?_, ?_, ?_, hs⟩ <;> rw [e]
  · have := h.here hd; rw [will_append] at this ⊢; rw [h1]; exact this
  · have := h.gone hd; rw [gone_append] at this ⊢; rw [h2]; exact this
  · have := h.new; rw [okNew_append] at this ⊢; exact ⟨this.1, h3 _ this.2⟩
  · have := h.kept; rw [kept_append] at this ⊢; exact ⟨this.1, h4 _ this.2⟩

/-- The last removal in the queue becomes part of a move. -/
theorem Tokens.claim {d r : Bool} {m k : List Tok} (h : Tokens d r (m ++ [.del]) k) : Tokens d r (m ++ [.away]) k := by
  have hs := (shape_append _ _ _ _).1 h.shape
  refine ⟨fun hd => ?_, fun hd => ?_, ?_, ?_, ?_⟩
  · have := h.here hd; simp only [will_append] at this ⊢; exact this
  · have := h.gone hd; simp only [gone_append] at this ⊢; exact this
  · have := h.new; simp only [okNew_append, gone_append] at this ⊢; exact this
  · have := h.kept; rw [List.append_assoc, kept_append] at this ⊢; exact this
  · exact (shape_append _ _ _ _).2 ⟨hs.1, hs.2.1, trivial⟩

theorem noDel_noNew {n d : Bool} {l : List Tok} (h : Shape n d l) (hd : .del ∈ l) : n = false ∧ .new ∉ l ∧ .into ∉ l := by
  induction l generalizing n d with
  | nil => cases hd
  | cons a l ih =>
    have hd' : a ≠ .del → .del ∈ l := fun h => (List.mem_cons.1 hd).resolve_left (fun h' => h h'.symm)
    cases a
    · exact absurd (ih h.2.2 (hd' (by decide))).1 (by decide)
    · exact absurd (ih h.2 (hd' (by decide))).1 (by decide)
    · obtain ⟨h1, h2, h3⟩ := ih h (hd' (by decide)); exact ⟨h1, by simp [h2], by simp [h3]⟩
    · have : ∀ {n} {l : List Tok}, n = false → Shape n true l → .new ∉ l ∧ .into ∉ l := by
        intro n l
        induction l generalizing n with
        | nil => simp
        | cons a l ih =>
          intro hn h
          cases a
          · exact absurd h.2.1 (by decide)
          · exact absurd h.1 (by decide)
          · have := ih hn h; simp [this]
          · have := ih hn h.2; simp [this]
          · have := ih hn h.2; simp [this]
      have := this h.1 h.2
      exact ⟨h.1, by simp [this], by simp [this]⟩
    · obtain ⟨h1, h2, h3⟩ := ih h.2 (hd' (by decide)); exact ⟨h1, by simp [h2], by simp [h3]⟩

/-- A new file is read where a removal is in the queue: that becomes a modification. -/
theorem Tokens.convert {d r : Bool} {m k : List Tok} {t : Tok} (h : Tokens d r m (t :: k)) (ht : t = .new ∨ t = .into)
    (hd : .del ∈ m) : Tokens d r (afterNew false m ++ [.sync]) k := by
  obtain ⟨-, hn, hi⟩ := noDel_noNew h.shape hd
  have hn' : .new ∉ afterNew false m := fun h => hn (mem_afterNew h)
  have hi' : .into ∉ afterNew false m := fun h => hi (mem_afterNew h)
  have e : afterNew false m ++ [.sync] ++ k = afterNew false m ++ .sync :: k := by simp
  have hi2 : .into ∉ afterNew false m ++ [Tok.sync] := by simp [hi']
  have hn2 : .new ∉ afterNew false m ++ [Tok.sync] := by simp [hn']
  refine ⟨fun hd => ?_, fun hd => ?_, ?_, ?_, shape_of hn2 hi2⟩
  · have := h.here hd
    rw [will_append] at this
    rw [e, will_append]
    rcases ht with rfl | rfl
    · simp only [will, Tok.act, Bool.or_true] at this ⊢; exact this
    · exact this
  · have := h.gone hd
    rw [gone_append] at this
    rw [e, gone_append]
    rcases ht with rfl | rfl <;> exact this
  · have := h.new
    rw [okNew_append] at this
    rw [e, okNew_append]
    refine ⟨okNew_of hn', ?_⟩
    rcases ht with rfl | rfl
    · exact this.2.2
    · exact this.2
  · have := h.kept
    rw [kept_append] at this
    rw [e, kept_append]
    refine ⟨kept_of hi', ?_⟩
    rw [Bool.false_or, decide_eq_false hi']
    rcases ht with rfl | rfl <;> exact kept_mono _ this.2

/-- A new file is read and goes into the queue. -/
theorem Tokens.readNew {d r : Bool} {m k : List Tok} {t : Tok} (h : Tokens d r m (t :: k)) (ht : t = .new ∨ t = .into)
    (hd : .del ∉ m) : Tokens d r (m ++ [t]) k := by
  have e : m ++ [t] ++ k = m ++ t :: k := by simp
  refine ⟨fun hd => e ▸ h.here hd, fun hd => e ▸ h.gone hd, e ▸ h.new, e ▸ h.kept, ?_⟩
  rw [shape_append]
  refine ⟨h.shape, ?_⟩
  rw [Bool.false_or, Bool.false_or, decide_eq_false hd]
  rcases ht with rfl | rfl
  · have hg := ((okNew_append _ _ _).1 h.new).2.1
    obtain ⟨-, hn, hi⟩ := gone_noNew m h.shape (fun h => by cases h) hg
    refine ⟨decide_eq_false ?_, rfl, trivial⟩
    rintro (h | h)
    · exact hn h
    · exact hi h
  · exact ⟨rfl, trivial⟩

/-- A modification is read and goes into the queue. -/
theorem Tokens.readSync {d r : Bool} {m k : List Tok} (h : Tokens d r m (.sync :: k)) : Tokens d r (m ++ [.sync]) k := by
  have e : m ++ [.sync] ++ k = m ++ .sync :: k := by simp
  refine ⟨fun hd => e ▸ h.here hd, fun hd => e ▸ h.gone hd, e ▸ h.new, e ▸ h.kept, ?_⟩
  rw [shape_append]
  exact ⟨h.shape, trivial⟩

/-- An event like the last one is dropped. -/
theorem Tokens.again {d r : Bool} {m k : List Tok} {t : Tok} (h : Tokens d r (m ++ [t]) (t :: k)) :
    Tokens d r (m ++ [t]) k := by
  refine ⟨fun hd => ?_, fun hd => ?_, ?_, ?_, h.shape⟩
  · have := h.here hd
    simp only [will_append, will] at this ⊢
    cases t <;> simpa [Tok.act] using this
  · have := h.gone hd
    simp only [gone_append] at this ⊢
    cases t <;> exact this
  · have := h.new
    simp only [okNew_append, gone_append] at this ⊢
    refine ⟨this.1, ?_⟩
    cases t
    · exact absurd (show false = true from this.2.1) (by decide)
    · exact this.2
    · exact this.2
    · exact this.2
    · exact this.2
  · have := h.kept
    rw [kept_append] at this ⊢
    refine ⟨this.1, ?_⟩
    have h2 := this.2
    cases t <;> simp [Kept] at h2 ⊢ <;> first | exact h2 | exact h2.2

/-- The first event of the queue is dealt with. -/
theorem Tokens.handle {d r : Bool} {m k : List Tok} {t : Tok} (h : Tokens d r (t :: m) k) : Tokens d (t.act r d) m k := by
  have hs := h.shape
  have hn := h.new
  have hk := h.kept
  refine ⟨fun hd => ?_, fun hd => ?_, ?_, ?_, ?_⟩
  · have := h.here hd; subst hd; exact this
  · have := h.gone hd
    subst hd
    cases t
    · exact gone_mono _ this
    · exact gone_mono _ this
    · exact gone_mono _ this
    · exact this
    · exact this
  · cases t
    · exact okNew_mono _ hn.2
    · exact okNew_mono _ hn
    · exact okNew_mono _ hn
    · exact hn
    · exact hn
  · cases t
    · exact hk
    · exact kept_mono _ hk
    · exact hk
    · exact hk.2
    · exact hk.2
  · cases t
    · exact shape_mono hs.2.2
    · exact shape_mono hs.2
    · exact hs
    · exact shape_mono hs.2
    · exact hs.2

end Tup.Monitor
