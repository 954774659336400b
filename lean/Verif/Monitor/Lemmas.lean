import Verif.Monitor.Model

/-!
What the waiting events will do to the record of one file, as a list of tokens, and what the cancelling of events does
to that list.
-/

namespace Tup.Monitor

/-- What an event does to the record of one file: `new` adds it if it exists, `into` and `sync` make the record agree
with what exists, `del` and `away` remove it.  `into` is from an event for a file that was moved here, `away` from one
for a file that was moved from here to another watched place. -/
inductive Tok where
  | new | into | sync | del | away
deriving DecidableEq

def Tok.act : Tok → Bool → Bool → Bool
  | .new, r, d => r || d
  | .into, _, d => d
  | .sync, _, d => d
  | .del, _, _ => false
  | .away, _, _ => false

/-- The record after some tokens, if the file goes on existing or not existing (`d`). -/
def will (d : Bool) : Bool → List Tok → Bool
  | r, [] => r
  | r, t :: l => will d (t.act r d) l

theorem will_append (d r : Bool) (l l' : List Tok) : will d r (l ++ l') = will d (will d r l) l' := by
  induction l generalizing r with
  | nil => rfl
  | cons t l ih => exact ih _

/-- The token of an event on the file `x`. -/
def evTok (x : File) (e : Event) : List Tok :=
  if e.file = x then
    match e.mask with
    | .none => []
    | .create => [.new]
    | .movedTo => [.into]
    | .modify => [.sync]
    | .attrib => [.sync]
    | .delete => [.del]
    | .movedFrom => [.del]
  else []

def srcTok (x : File) (m : Queued) : List Tok :=
  if m.ev.mask = .movedTo ∧ m.src = some x then [.away] else []

def quTok (x : File) (m : Queued) : List Tok := evTok x m.ev ++ srcTok x m

def quToks (x : File) (q : List Queued) : List Tok := q.flatMap (quTok x)
def evToks (x : File) (k : List Event) : List Tok := k.flatMap (evTok x)

@[simp] theorem quToks_nil (x : File) : quToks x [] = [] := rfl
@[simp] theorem evToks_nil (x : File) : evToks x [] = [] := rfl
theorem quToks_cons (x : File) (m : Queued) (q : List Queued) : quToks x (m :: q) = quTok x m ++ quToks x q := rfl
theorem evToks_cons (x : File) (m : Event) (q : List Event) : evToks x (m :: q) = evTok x m ++ evToks x q := rfl
theorem quToks_append (x : File) (q q' : List Queued) : quToks x (q ++ q') = quToks x q ++ quToks x q' := by
  simp [quToks]
theorem evToks_append (x : File) (q q' : List Event) : evToks x (q ++ q') = evToks x q ++ evToks x q' := by
  simp [evToks]

/-! ## The loop on tokens -/

/-- The loop for a deletion. -/
def afterDel (both : Bool) : List Tok → List Tok
  | [] => []
  | .new :: l => afterDel true l
  | .into :: l => afterDel true l
  | .away :: l => .away :: afterDel both l
  | t :: l => if both then afterDel both l else t :: afterDel both l

/-- The loop for a new file. -/
def afterNew (both : Bool) : List Tok → List Tok
  | [] => []
  | .away :: l => .away :: afterNew both l
  | .del :: l => afterNew true l
  | t :: l => if both then afterNew both l else t :: afterNew both l

/-- An event that comes from a move has a source that is another file. -/
def SrcOk (m : Queued) : Prop := ∀ f, m.src = some f → f ≠ m.ev.file

theorem quTok_cancel (x : File) (m : Queued) : quTok x m.cancel = [] := by
  by_cases h : m.cancel.ev.file = x
  · rw [quTok, evTok, if_pos h]; rfl
  · rw [quTok, evTok, if_neg h]; rfl

theorem quTok_own {x : File} {m : Queued} (h : m.ev.file = x) (hs : SrcOk m) : quTok x m = evTok x m.ev := by
  rw [quTok, srcTok, if_neg, List.append_nil]
  rintro ⟨-, h'⟩
  exact hs x h' h.symm

theorem quTok_other {x : File} {m : Queued} (h : m.ev.file ≠ x) : quTok x m = srcTok x m := by
  rw [quTok, evTok, if_neg h, List.nil_append]

theorem srcTok_cases (x : File) (m : Queued) : srcTok x m = [] ∨ srcTok x m = [.away] := by
  rw [srcTok]; split
  · exact Or.inr rfl
  · exact Or.inl rfl

theorem loop_del {x : File} {e : Event} (hx : e.file = x) (he : e.mask.isDel = true) (q : List Queued)
    (hs : ∀ m ∈ q, SrcOk m) (both drop : Bool) :
    quToks x (ephemeralLoop e both drop q).1 = afterDel both (quToks x q) ∧ (ephemeralLoop e both drop q).2.1 = e ∧
      ((ephemeralLoop e both drop q).2.2 = true ↔ drop = true ∨ .new ∈ quToks x q ∨ .into ∈ quToks x q) := by
  have hn : e.mask.isNew = false := by cases h : e.mask <;> simp_all [Mask.isNew, Mask.isDel]
  induction q generalizing both drop with
  | nil => exact ⟨rfl, rfl, by simp [ephemeralLoop]⟩
  | cons m q ih =>
    have ih := ih (fun m hm => hs m (List.mem_cons_of_mem _ hm))
    have hm := hs m List.mem_cons_self
    rw [ephemeralLoop]
    by_cases hf : m.ev.file = e.file
    · have hq := quTok_own (hf.trans hx) hm
      rw [if_pos hf, he, hn, quToks_cons, hq]
      have hfx := hf.trans hx
      cases hmask : m.ev.mask <;> cases both <;>
        simp only [Mask.isNew, Mask.isDel, Bool.and_true, Bool.and_false, Bool.false_and, if_true, Bool.false_eq_true, if_false,
          quToks_cons, quTok_cancel, hq, evTok, hfx, hmask, List.nil_append, List.cons_append, afterDel, ih, true_and,
          List.mem_cons, reduceCtorEq, false_or, true_or, or_true, iff_true] <;> trivial
    · rw [if_neg hf, quToks_cons, quToks_cons, quTok_other (fun h => hf (h.trans hx.symm))]
      rcases srcTok_cases x m with h | h <;>
        simp only [h, List.nil_append, List.cons_append, afterDel, ih, List.mem_cons, reduceCtorEq, false_or, true_and]

theorem loop_new {x : File} {e : Event} (hx : e.file = x) (q : List Queued) (hs : ∀ m ∈ q, SrcOk m) (both drop : Bool)
    (he : e.mask.isNew = true ∧ both = false ∨ e.mask = .modify ∧ both = true) :
    quToks x (ephemeralLoop e both drop q).1 = afterNew both (quToks x q) ∧
      (ephemeralLoop e both drop q).2.1 = (if .del ∈ quToks x q then { e with mask := .modify } else e) ∧
      (ephemeralLoop e both drop q).2.2 = drop := by
  induction q generalizing e both with
  | nil => exact ⟨rfl, by simp [ephemeralLoop], rfl⟩
  | cons m q ih =>
    have hsq : ∀ m ∈ q, SrcOk m := fun m hm => hs m (List.mem_cons_of_mem _ hm)
    have ih1 := ih hx hsq both he
    have ih2 := @ih { e with mask := .modify } hx hsq true (.inr ⟨rfl, rfl⟩)
    have hm := hs m List.mem_cons_self
    have hn : e.mask.isDel = false := by cases h : e.mask <;> simp_all [Mask.isNew, Mask.isDel]
    rw [ephemeralLoop]
    by_cases hf : m.ev.file = e.file
    · have hq := quTok_own (hf.trans hx) hm
      rw [if_pos hf, hn, quToks_cons, hq]
      have hfx := hf.trans hx
      rcases he with ⟨he, rfl⟩ | ⟨he, rfl⟩
      · rw [he]
        cases hmask : m.ev.mask <;>
        simp only [Mask.isNew, Mask.isDel, Bool.and_true, Bool.and_false, Bool.false_and, if_true, Bool.false_eq_true, if_false,
          quToks_cons, quTok_cancel, hq, evTok, hfx, hmask, List.nil_append, List.cons_append, afterNew, ih1, ih2, true_and,
          List.mem_cons, reduceCtorEq, false_or, true_or, or_true, iff_true, ite_self, and_self]
      · have e1 : { e with mask := .modify } = e := by cases e; simp_all
        have hN : e.mask.isNew = false := by rw [he]; rfl
        rw [hN]
        cases hmask : m.ev.mask <;>
        simp only [Mask.isNew, Mask.isDel, Bool.and_true, Bool.and_false, Bool.false_and, if_true, Bool.false_eq_true, if_false,
          quToks_cons, quTok_cancel, hq, evTok, hfx, hmask, List.nil_append, List.cons_append, afterNew, ih1, e1, true_and,
          List.mem_cons, reduceCtorEq, false_or, true_or, or_true, iff_true, ite_self, and_self]
    · rw [if_neg hf, quToks_cons, quToks_cons, quTok_other (fun h => hf (h.trans hx.symm))]
      rcases srcTok_cases x m with h | h <;>
        simp only [h, List.nil_append, List.cons_append, afterNew, ih1, List.mem_cons, reduceCtorEq, false_or, true_and, and_self]

/-! ## The other files -/

/-- Some tokens `away` are left out. -/
inductive Thin : List Tok → List Tok → Prop
  | nil : Thin [] []
  | keep (t : Tok) {l l' : List Tok} : Thin l l' → Thin (t :: l) (t :: l')
  | drop {l l' : List Tok} : Thin l l' → Thin l (.away :: l')

theorem Thin.refl : ∀ l : List Tok, Thin l l
  | [] => .nil
  | t :: l => .keep t (Thin.refl l)

theorem Thin.append {l l' m m' : List Tok} (h : Thin l l') (h' : Thin m m') : Thin (l ++ m) (l' ++ m') := by
  induction h with
  | nil => exact h'
  | keep t _ ih => exact .keep t ih
  | drop _ ih => exact .drop ih

theorem act_mono (t : Tok) {r r' : Bool} (h : r = true → r' = true) (d : Bool) :
    t.act r d = true → t.act r' d = true := by
  cases t <;> cases r <;> cases r' <;> cases d <;> simp_all [Tok.act]

theorem will_mono (d : Bool) (l : List Tok) {r r' : Bool} (h : r = true → r' = true) :
    will d r l = true → will d r' l = true := by
  induction l generalizing r r' with
  | nil => exact h
  | cons t l ih => exact ih (act_mono t h d)

theorem Thin.will {d : Bool} {l l' : List Tok} (h : Thin l l') {r r' : Bool} (hr : r' = true → r = true) :
    will d r' l' = true → will d r l = true := by
  induction h generalizing r r' with
  | nil => exact hr
  | keep t _ ih => exact ih (act_mono t hr d)
  | drop _ ih => exact ih (fun h => by cases h)

theorem loop_thin {x : File} {e : Event} (hx : e.file ≠ x) (q : List Queued) (both drop : Bool) :
    Thin (quToks x (ephemeralLoop e both drop q).1) (quToks x q) := by
  induction q generalizing e both drop with
  | nil => exact .nil
  | cons m q ih =>
    have hm : m.ev.file = e.file → Thin (quTok x m.cancel) (quTok x m) := by
      intro h
      rw [quTok_cancel, quTok_other (fun h' => hx (h.symm.trans h'))]
      rcases srcTok_cases x m with h | h <;> rw [h]
      · exact .nil
      · exact .drop .nil
    rw [ephemeralLoop, quToks_cons]
    split
    · rename_i hf
      split
      · exact (hm hf).append (ih hx _ _)
      · split
        · exact (hm hf).append (ih (e := { e with mask := .modify }) hx _ _)
        · split
          · exact (hm hf).append (ih hx _ _)
          · exact (Thin.refl _).append (ih hx _ _)
    · exact (Thin.refl _).append (ih hx _ _)

/-- After a token `del` there is no token `into`. -/
def Late : Bool → List Tok → Prop
  | _, [] => True
  | d, .into :: l => d = false ∧ Late d l
  | _, .del :: l => Late true l
  | d, _ :: l => Late d l

theorem quTok_noInto {x y : File} {m : Queued} (h : m.ev.file = y) (hs : SrcOk m) (hi : .into ∉ quTok y m) : srcTok x m = [] := by
  rw [srcTok, if_neg]
  rintro ⟨hm, -⟩
  apply hi
  rw [quTok_own h hs, evTok, if_pos h, hm]
  exact List.mem_singleton.2 rfl

theorem loop_keeps {x y : File} {e : Event} (hy : e.file = y) (hx : y ≠ x) (q : List Queued) (hs : ∀ m ∈ q, SrcOk m)
    (both drop : Bool)
    (h : e.mask.isDel = true ∧ .into ∉ quToks y q ∨ e.mask.isNew = true ∧ both = false ∧ Late false (quToks y q) ∨
      e.mask = .modify ∧ Late true (quToks y q)) :
    quToks x (ephemeralLoop e both drop q).1 = quToks x q := by
  induction q generalizing e both drop with
  | nil => rfl
  | cons m q ih =>
    have hsq : ∀ m ∈ q, SrcOk m := fun m hm => hs m (List.mem_cons_of_mem _ hm)
    have hm := hs m List.mem_cons_self
    rw [ephemeralLoop, quToks_cons]
    rw [quToks_cons] at h
    by_cases hf : m.ev.file = e.file
    · have hfy := hf.trans hy
      have hq := quTok_own hfy hm
      have hc : .into ∉ quTok y m → quTok x m.cancel = quTok x m := by
        intro hi
        rw [quTok_cancel, quTok_other (fun h' => hx (hfy.symm.trans h')), quTok_noInto hfy hm hi]
      rw [if_pos hf]
      rcases h with ⟨he, hi⟩ | ⟨he, rfl, hl⟩ | ⟨he, hl⟩
      · have hi1 : .into ∉ quTok y m := fun h => hi (List.mem_append_left _ h)
        have hi2 : .into ∉ quToks y q := fun h => hi (List.mem_append_right _ h)
        have hn : e.mask.isNew = false := by cases h : e.mask <;> simp_all [Mask.isNew, Mask.isDel]
        rw [hn, Bool.and_false, if_neg (show ¬ false = true by decide)]
        have hc := hc hi1
        split
        · rw [quToks_cons, hc, ih hy hsq _ _ (.inl ⟨he, hi2⟩)]
        · split
          · rw [quToks_cons, hc, ih hy hsq _ _ (.inl ⟨he, hi2⟩)]
          · rw [quToks_cons, ih hy hsq _ _ (.inl ⟨he, hi2⟩)]
      · have hn : e.mask.isDel = false := by cases h : e.mask <;> simp_all [Mask.isNew, Mask.isDel]
        rw [hn, he, Bool.and_false, if_neg (show ¬ false = true by decide), Bool.and_true]
        rw [hq, evTok, if_pos hfy] at hl
        cases hd : m.ev.mask.isDel
        · rw [if_neg (show ¬ false = true by decide), if_neg (show ¬ false = true by decide), quToks_cons,
            ih hy hsq _ _ (.inr (.inl ⟨he, rfl, ?_⟩))]
          cases hk : m.ev.mask <;> rw [hk] at hl hd <;> first | exact hl | exact hl.2 | (cases hd; done)
        · rw [if_pos rfl, quToks_cons, ih (e := { e with mask := .modify }) hy hsq _ _ (.inr (.inr ⟨rfl, ?_⟩)), hc ?_]
          · rw [hq, evTok, if_pos hfy]
            cases hk : m.ev.mask <;> rw [hk] at hd <;> first | (cases hd; done) | (simp; done)
          · cases hk : m.ev.mask <;> rw [hk] at hl hd <;> first | exact hl | (cases hd; done)
      · have hn : e.mask.isDel = false := by rw [he]; rfl
        have hn' : e.mask.isNew = false := by rw [he]; rfl
        rw [hq, evTok, if_pos hfy] at hl
        have hi : .into ∉ quTok y m := by
          rw [hq, evTok, if_pos hfy]
          cases hk : m.ev.mask <;> rw [hk] at hl <;> first | (simp; done) | exact absurd hl.1 (by decide)
        have hl' : Late true (quToks y q) := by
          cases hk : m.ev.mask <;> rw [hk] at hl <;> first | exact hl | exact hl.2
        rw [hn, hn', Bool.and_false, Bool.and_false, if_neg (show ¬ false = true by decide), if_neg (show ¬ false = true by decide)]
        split
        · rw [quToks_cons, hc hi, ih hy hsq _ _ (.inr (.inr ⟨he, hl'⟩))]
        · rw [quToks_cons, ih hy hsq _ _ (.inr (.inr ⟨he, hl'⟩))]
    · rw [if_neg hf, quToks_cons]
      rw [quTok_other (fun h' => hf (h'.trans hy.symm))] at h
      rw [ih hy hsq _ _ ?_]
      rcases srcTok_cases y m with h' | h' <;> rw [h'] at h
      · exact h
      · rcases h with ⟨he, hi⟩ | ⟨he, hb, hl⟩ | ⟨he, hl⟩
        · exact .inl ⟨he, fun h => hi (List.mem_cons_of_mem _ h)⟩
        · exact .inr (.inl ⟨he, hb, hl⟩)
        · exact .inr (.inr ⟨he, hl⟩)

end Tup.Monitor
