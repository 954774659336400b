import Verif.Monitor.Wf
import Verif.Monitor.Spec

/-! What is waiting for each file, from one step to the next. -/

namespace Tup.Monitor

/-- The files that exist will be recorded. -/
def Here (s : State) : Prop :=
  ∀ x, s.disk x = true → will true (s.recorded x) (quToks x s.queue ++ evToks x s.kernel) = true

/-- The record of every file will be right. -/
def Right (s : State) : Prop := ∀ x, Tokens (s.disk x) (s.recorded x) (quToks x s.queue) (evToks x s.kernel)

theorem quToks_enqueue (x : File) (q : List Queued) (i : Nat) (e : Event) : quToks x (q ++ [⟨i, e, none⟩]) = quToks x q ++ evTok x e := by
  rw [quToks_append, quToks_cons, quToks_nil, List.append_nil, quTok, srcTok, if_neg, List.append_nil]
  rintro ⟨-, h⟩
  cases h

theorem quToks_cancelled (x : File) (q : List Queued) (m : Queued) : quToks x (q ++ [m.cancel]) = quToks x q := by
  rw [quToks_append, quToks_cons, quToks_nil, List.append_nil, quTok_cancel, List.append_nil]

theorem evTok_other {x : File} {e : Event} (h : e.file ≠ x) : evTok x e = [] := if_neg h

theorem evTok_del {x : File} {e : Event} (h : e.file = x) (hd : e.mask.isDel = true) : evTok x e = [.del] := by
  rw [evTok, if_pos h]
  cases hk : e.mask <;> rw [hk] at hd <;> first | (cases hd; done) | rfl

theorem evTok_new {x : File} {e : Event} (h : e.file = x) (hd : e.mask.isNew = true) :
    ∃ t, evTok x e = [t] ∧ (t = .new ∨ t = .into) := by
  rw [evTok, if_pos h]
  cases hk : e.mask <;> rw [hk] at hd <;> first | (cases hd; done) | exact ⟨_, rfl, .inl rfl⟩ | exact ⟨_, rfl, .inr rfl⟩

theorem evTok_cases (x : File) (e : Event) : evTok x e = [] ∨ ∃ t, evTok x e = [t] := by
  rw [evTok]
  split
  · cases e.mask <;> simp
  · exact .inl rfl

/-- The tokens of the event that is cancelled and of the one that claims it. -/
theorem quToks_claim (x : File) (q : List Queued) (m : Queued) (i : Nat) (e : Event) (he : e.mask = .movedTo)
    (hm : m.ev.mask = .movedFrom) (hs : SrcOk m) (hf : m.ev.file ≠ e.file) :
    (x = m.ev.file → quToks x (q ++ [m]) = quToks x q ++ [.del] ∧ evTok x e = [] ∧
      quToks x (q ++ [m.cancel] ++ [⟨i, e, some m.ev.file⟩]) = quToks x q ++ [.away]) ∧
    (x ≠ m.ev.file → quToks x (q ++ [m]) = quToks x q ∧
      quToks x (q ++ [m.cancel] ++ [⟨i, e, some m.ev.file⟩]) = quToks x q ++ evTok x e) := by
  have h0 : srcTok x m = [] := by rw [srcTok, if_neg]; rintro ⟨h, -⟩; rw [hm] at h; cases h
  constructor
  · intro hx
    have h1 : evTok x e = [] := evTok_other (fun h => hf (hx.symm.trans h.symm))
    refine ⟨?_, h1, ?_⟩
    · rw [quToks_append, quToks_cons, quToks_nil, List.append_nil, quTok, h0, List.append_nil, evTok_del hx.symm (by rw [hm]; rfl)]
    · rw [quToks_append, quToks_cancelled, quToks_cons, quToks_nil, List.append_nil, quTok, h1, srcTok,
        if_pos ⟨he, by rw [hx]⟩, List.nil_append]
  · intro hx
    refine ⟨?_, ?_⟩
    · rw [quToks_append, quToks_cons, quToks_nil, List.append_nil, quTok, h0, List.append_nil, evTok_other (Ne.symm hx),
        List.append_nil]
    · rw [quToks_append, quToks_cancelled, quToks_cons, quToks_nil, List.append_nil, quTok, srcTok, if_neg, List.append_nil]
      rintro ⟨-, h⟩
      exact hx (Option.some.inj h).symm

/-! ## Every file that exists will be recorded -/

theorem Here.read {s s' : State} {e : Event} {k : List Event} (hw : Wf s) (h : Here s) (hk : s.kernel = e :: k)
    (hr : Read { s with kernel := k } e s') : Here s' := by
  have h' : ∀ x, s.disk x = true →
      will true (will true (s.recorded x) (quToks x s.queue)) (evTok x e ++ evToks x k) = true := by
    intro x hx
    have := h x hx
    rwa [hk, evToks_cons, will_append] at this
  cases hr with
  | again hq hm =>
    rename_i q m
    intro x hx
    have := h' x hx
    have hq : s.queue = q ++ [m] := hq
    show will true _ (quToks x s.queue ++ evToks x k) = true
    rw [will_append]
    rw [will_append] at this
    by_cases hf : e.file = x
    · have hs := hw.src m (by rw [hq]; simp)
      rw [hq, quToks_append, quToks_cons, quToks_nil, List.append_nil, quTok_own (by rw [hm]; exact hf) hs, hm, will_append] at this ⊢
      rcases evTok_cases x e with ht | ⟨t, ht⟩ <;> rw [ht] at this ⊢
      · exact this
      · simp only [will] at this ⊢
        cases t <;> simpa [Tok.act] using this
    · rw [evTok_other hf] at this
      exact this
  | cancel hd hn hq =>
    intro x hx
    have := h' x hx
    show will true _ (quToks x _ ++ evToks x k) = true
    subst hq
    rw [will_append]
    by_cases hf : e.file = x
    · rw [evTok_del hf hd] at this
      exact will_mono _ _ (fun h => by cases h) this
    · rw [evTok_other hf] at this
      rw [← will_append]
      have h2 := h x hx
      rw [hk, evToks_cons, evTok_other hf] at h2
      exact ((loop_thin hf s.queue false false).append (Thin.refl _)).will id h2
  | del hd hn hi =>
    intro x hx
    have := h' x hx
    show will true _ (quToks x (s.queue ++ [_]) ++ evToks x k) = true
    rw [quToks_enqueue, List.append_assoc, will_append]
    exact this
  | new hn hd =>
    intro x hx
    have := h' x hx
    show will true _ (quToks x (s.queue ++ [_]) ++ evToks x k) = true
    rw [quToks_enqueue, List.append_assoc, will_append]
    exact this
  | other hn hd =>
    intro x hx
    have := h' x hx
    show will true _ (quToks x (s.queue ++ [_]) ++ evToks x k) = true
    rw [quToks_enqueue, List.append_assoc, will_append]
    exact this
  | convert hn hd hq =>
    intro x hx
    have := h' x hx
    subst hq
    show will true _ (quToks x (_ ++ [_]) ++ evToks x k) = true
    rw [quToks_enqueue, List.append_assoc, will_append]
    by_cases hf : e.file = x
    · obtain ⟨t, ht, hc⟩ := evTok_new hf hn
      rw [ht] at this
      rw [show evTok x { e with mask := .modify } = [.sync] from if_pos hf]
      rcases hc with rfl | rfl
      · simp only [List.cons_append, List.nil_append, will, Tok.act, Bool.or_true] at this ⊢
        exact this
      · exact this
    · rw [show evTok x { e with mask := .modify } = [] from if_neg hf, ← will_append]
      have h2 := h x hx
      rw [hk, evToks_cons, evTok_other hf] at h2
      exact ((loop_thin hf s.queue false false).append (Thin.refl _)).will id h2
  | claim hn hd hq hm hf =>
    rename_i q m
    intro x hx
    have := h' x hx
    have hq : s.queue = q ++ [m] := hq
    have hs := hw.src m (by rw [hq]; simp)
    obtain ⟨h1, h2⟩ := quToks_claim x q m s.next e hn hm hs hf
    show will true _ (quToks x (q ++ [m.cancel] ++ [_]) ++ evToks x k) = true
    by_cases hxm : x = m.ev.file
    · obtain ⟨h1, h2, h3⟩ := h1 hxm
      rw [hq, h1, h2] at this
      rw [h3]
      simp only [will_append] at this ⊢
      exact this
    · obtain ⟨h1, h2⟩ := h2 hxm
      rw [hq, h1] at this
      rw [h2, List.append_assoc, will_append]
      exact this

/-- What handling an event does to the record of a file. -/
theorem handle_recorded (s : State) (m : Queued) (hs : SrcOk m) (x : File) :
    (s.handle m).recorded x = will (s.disk x) (s.recorded x) (quTok x m) ∧ (s.handle m).disk = s.disk ∧
      (s.handle m).kernel = s.kernel ∧ (s.handle m).queue = s.queue := by
  by_cases hf : m.ev.file = x
  · have hq := quTok_own hf hs
    rw [hq, evTok, if_pos hf]
    subst hf
    cases hm : m.ev.mask <;> cases hsrc : m.src <;> simp only [State.handle, hm, hsrc, State.watchPath]
    case movedTo.some f =>
      have := hs f hsrc
      simp [State.fileMod, State.fileDel, set, will, Tok.act, Ne.symm this]
    all_goals by_cases hd : s.disk m.ev.file = true <;> by_cases hr : s.recorded m.ev.file = true <;>
      simp [State.fileMod, State.fileDel, set, will, Tok.act, hd, hr]
  · rw [quTok_other hf, srcTok]
    have hf' : ¬ x = m.ev.file := fun h => hf h.symm
    cases hm : m.ev.mask <;> cases hsrc : m.src <;> simp only [State.handle, hm, hsrc, State.watchPath]
    case movedTo.some f =>
      by_cases hx : f = x
      · subst hx
        simp [State.fileMod, State.fileDel, set, will, Tok.act]
      · have : ¬ x = f := fun h => hx h.symm
        simp [State.fileMod, State.fileDel, set, will, hx, this, hf']
    all_goals by_cases hd : s.disk m.ev.file = true <;> by_cases hr : s.recorded m.ev.file = true <;>
      simp [State.fileMod, State.fileDel, set, will, hd, hr, hf']

theorem Here.next {s : State} {m : Queued} {q : List Queued} (hw : Wf s) (h : Here s) (hq : s.queue = m :: q) :
    Here ({ s with queue := q }.handle m) := by
  intro x hx
  have hs := hw.src m (by rw [hq]; exact List.mem_cons_self)
  obtain ⟨h1, h2, h3, h4⟩ := handle_recorded { s with queue := q } m hs x
  rw [h2] at hx
  rw [h1, h3, h4]
  have := h x hx
  rw [hq, quToks_cons, List.append_assoc, will_append] at this
  have hx' : ({ s with queue := q } : State).disk x = true := hx
  rw [hx']
  exact this

theorem will_emit {x : File} {k : List Event} {e : Event} {r : Bool} {l : List Tok} (hf : e.file ≠ x) :
    will true r (l ++ evToks x (emit k e)) = will true r (l ++ evToks x k) := by
  rcases emit_cases k e with h | ⟨h, -⟩ <;> rw [h]
  rw [evToks_append, evToks_cons, evTok_other hf]
  simp

theorem evToks_emit (x : File) (k : List Event) (e : Event) : ∃ l, evToks x (emit k e) = l ++ evTok x e := by
  rcases emit_cases k e with h | ⟨h, k', h'⟩ <;> rw [h]
  · exact ⟨_, by rw [evToks_append, evToks_cons, evToks_nil, List.append_nil]⟩
  · rw [h']
    exact ⟨_, by rw [evToks_append, evToks_cons, evToks_nil, List.append_nil]⟩

theorem will_ends {r : Bool} {l : List Tok} {t : Tok} (ht : t = .new ∨ t = .into ∨ t = .sync) : will true r (l ++ [t]) = true := by
  rw [will_append]
  rcases ht with rfl | rfl | rfl <;> simp [will, Tok.act]

theorem will_emit_own {x : File} {k : List Event} {e : Event} {r : Bool} {l : List Tok} {t : Tok} (ht : evTok x e = [t])
    (hc : t = .new ∨ t = .into ∨ t = .sync) : will true r (l ++ evToks x (emit k e)) = true := by
  obtain ⟨l', h⟩ := evToks_emit x k e
  rw [h, ht, ← List.append_assoc]
  exact will_ends hc

theorem Here.op {s : State} (h : Here s) (o : Op) : Here (s.op o) := by
  cases o <;> simp only [State.op]
  case create f =>
    split
    · exact h
    · intro x hx
      by_cases hf : f = x
      · exact will_emit_own (if_pos hf) (.inl rfl)
      · simp only [set, if_neg (Ne.symm hf)] at hx
        exact (will_emit hf).trans (h x hx)
  case write f =>
    split
    · intro x hx
      by_cases hf : f = x
      · exact will_emit_own (if_pos hf) (.inr (.inr rfl))
      · exact (will_emit hf).trans (h x hx)
    · exact h
  case touch f =>
    split
    · intro x hx
      by_cases hf : f = x
      · exact will_emit_own (if_pos hf) (.inr (.inr rfl))
      · exact (will_emit hf).trans (h x hx)
    · exact h
  case remove f =>
    split
    · intro x hx
      by_cases hf : f = x
      · simp only [set, if_pos hf.symm] at hx
        cases hx
      · simp only [set, if_neg (Ne.symm hf)] at hx
        exact (will_emit hf).trans (h x hx)
    · exact h
  case rename f g =>
    split
    · intro x hx
      by_cases hg : g = x
      · exact will_emit_own (if_pos hg) (.inr (.inl rfl))
      · simp only [set, if_neg (Ne.symm hg)] at hx
        by_cases hf : f = x
        · rw [if_pos hf.symm] at hx
          cases hx
        · rw [if_neg (Ne.symm hf)] at hx
          exact ((will_emit hg).trans (will_emit hf)).trans (h x hx)
    · exact h
  case moveOut f =>
    split
    · intro x hx
      by_cases hf : f = x
      · simp only [set, if_pos hf.symm] at hx
        cases hx
      · simp only [set, if_neg (Ne.symm hf)] at hx
        exact (will_emit hf).trans (h x hx)
    · exact h
  case moveIn f =>
    intro x hx
    by_cases hf : f = x
    · exact will_emit_own (if_pos hf) (.inr (.inl rfl))
    · simp only [set, if_neg (Ne.symm hf)] at hx
      exact (will_emit hf).trans (h x hx)

theorem Here.step {s s' : State} {a : Step} (hw : Wf s) (h : Here s) (hs : s.step a = some s') : Here s' := by
  cases a with
  | op o => cases hs; exact h.op o
  | read =>
    simp only [State.step] at hs
    split at hs
    · cases hs; exact h
    · split at hs
      · cases hs; exact h
      · rename_i hk
        exact h.read hw hk (read_of hw hk hs)
  | flush => cases hs; exact h
  | next =>
    simp only [State.step] at hs
    split at hs
    · split at hs
      · rename_i hq
        cases hs
        exact h
      · rename_i hq
        cases hs
        exact h.next hw hq
    · cases hs; exact h

/-! ## The record of every file will be right -/

theorem Right.read {s s' : State} {e : Event} {k : List Event} (hw : Wf s) (h : Right s) (hk : s.kernel = e :: k)
    (hr : Read { s with kernel := k } e s') : Right s' := by
  have h' : ∀ x, Tokens (s.disk x) (s.recorded x) (quToks x s.queue) (evTok x e ++ evToks x k) := by
    intro x
    have := h x
    rwa [hk, evToks_cons] at this
  cases hr with
  | again hq hm =>
    rename_i q m
    intro x
    have := h' x
    have hq : s.queue = q ++ [m] := hq
    show Tokens (s.disk x) (s.recorded x) (quToks x s.queue) (evToks x k)
    by_cases hf : e.file = x
    · have hs := hw.src m (by rw [hq]; simp)
      rw [hq, quToks_append, quToks_cons, quToks_nil, List.append_nil, quTok_own (by rw [hm]; exact hf) hs, hm] at this ⊢
      rcases evTok_cases x e with ht | ⟨t, ht⟩ <;> rw [ht] at this ⊢
      · exact this
      · exact this.again
    · rw [evTok_other hf] at this
      exact this
  | cancel hd hn hq =>
    subst hq
    have h0 := h' e.file
    rw [evTok_del rfl hd] at h0
    have hi := h0.noInto
    have hn : .new ∈ quToks e.file s.queue := hn.resolve_right hi
    intro x
    show Tokens (s.disk x) (s.recorded x) (quToks x (ephemeralLoop e false false s.queue).1) (evToks x k)
    by_cases hf : e.file = x
    · subst hf
      rw [(loop_del rfl hd s.queue hw.src false false).1]
      exact h0.cancel hn
    · have := h' x
      rw [evTok_other hf] at this
      rw [loop_keeps rfl hf s.queue hw.src false false (.inl ⟨hd, hi⟩)]
      exact this
  | del hd hn hi =>
    intro x
    have := h' x
    show Tokens (s.disk x) (s.recorded x) (quToks x (s.queue ++ [_])) (evToks x k)
    rw [quToks_enqueue]
    by_cases hf : e.file = x
    · subst hf
      rw [evTok_del rfl hd] at this ⊢
      exact this.readDel hn _ (.inl rfl)
    · rw [evTok_other hf] at this ⊢
      rw [List.append_nil]
      exact this
  | new hn hd =>
    intro x
    have := h' x
    show Tokens (s.disk x) (s.recorded x) (quToks x (s.queue ++ [_])) (evToks x k)
    rw [quToks_enqueue]
    by_cases hf : e.file = x
    · subst hf
      obtain ⟨t, ht, hc⟩ := evTok_new (x := e.file) rfl hn
      rw [ht] at this ⊢
      exact this.readNew hc hd
    · rw [evTok_other hf] at this ⊢
      rw [List.append_nil]
      exact this
  | other hd hn =>
    intro x
    have := h' x
    show Tokens (s.disk x) (s.recorded x) (quToks x (s.queue ++ [_])) (evToks x k)
    rw [quToks_enqueue]
    by_cases hf : e.file = x
    · rw [evTok, if_pos hf] at this ⊢
      cases hm : e.mask <;> rw [hm] at this hd hn
      · rw [List.append_nil]; exact this
      · cases hn
      · cases hn
      · cases hd
      · cases hd
      · exact this.readSync
      · exact this.readSync
    · rw [evTok_other hf] at this ⊢
      rw [List.append_nil]
      exact this
  | convert hn hd hq =>
    subst hq
    intro x
    have := h' x
    show Tokens (s.disk x) (s.recorded x) (quToks x (_ ++ [_])) (evToks x k)
    rw [quToks_enqueue]
    by_cases hf : e.file = x
    · subst hf
      obtain ⟨t, ht, hc⟩ := evTok_new (x := e.file) rfl hn
      rw [ht] at this
      rw [show evTok e.file { e with mask := .modify } = [.sync] from if_pos rfl,
        (loop_new rfl s.queue hw.src false false (.inl ⟨hn, rfl⟩)).1]
      exact this.convert hc hd
    · rw [evTok_other hf] at this
      rw [show evTok x { e with mask := .modify } = [] from if_neg hf, List.append_nil,
        loop_keeps rfl hf s.queue hw.src false false (.inr (.inl ⟨hn, rfl, shape_late _ (h e.file).shape⟩))]
      exact this
  | claim hn hd hq hm hf =>
    rename_i q m
    intro x
    have := h' x
    have hq : s.queue = q ++ [m] := hq
    have hs := hw.src m (by rw [hq]; simp)
    obtain ⟨h1, h2⟩ := quToks_claim x q m s.next e hn hm hs hf
    show Tokens (s.disk x) (s.recorded x) (quToks x (q ++ [m.cancel] ++ [_])) (evToks x k)
    by_cases hxm : x = m.ev.file
    · obtain ⟨h1, h2, h3⟩ := h1 hxm
      rw [hq, h1, h2] at this
      rw [h3]
      exact this.claim
    · obtain ⟨h1, h2⟩ := h2 hxm
      rw [h2]
      rw [hq, h1] at this
      by_cases hfx : e.file = x
      · have hd : .del ∉ quToks x q := by
          rw [← h1, ← hq, ← hfx]; exact hd
        have ht : evTok x e = [.into] := by rw [evTok, if_pos hfx, hn]
        rw [ht] at this ⊢
        exact this.readNew (.inr rfl) hd
      · rw [evTok_other hfx] at this ⊢
        rw [List.append_nil]
        exact this

theorem Tokens.handles {d r : Bool} {l m k : List Tok} (h : Tokens d r (l ++ m) k) : Tokens d (will d r l) m k := by
  induction l generalizing r with
  | nil => exact h
  | cons t l ih => exact ih h.handle

theorem Right.next {s : State} {m : Queued} {q : List Queued} (hw : Wf s) (h : Right s) (hq : s.queue = m :: q) :
    Right ({ s with queue := q }.handle m) := by
  intro x
  have hs := hw.src m (by rw [hq]; exact List.mem_cons_self)
  obtain ⟨h1, h2, h3, h4⟩ := handle_recorded { s with queue := q } m hs x
  rw [h1, h2, h3, h4]
  have := h x
  rw [hq, quToks_cons] at this
  exact this.handles

/-! ## Operations -/

theorem into_coming {s : State} {f : File} (h : .into ∈ quToks f s.queue ++ evToks f s.kernel) : Coming s f := by
  have key : ∀ e : Event, .into ∈ evTok f e → e.mask = .movedTo ∧ e.file = f := by
    intro e he
    rw [evTok] at he
    split at he
    · rename_i hf
      cases hm : e.mask <;> rw [hm] at he <;> simp at he
      exact ⟨rfl, hf⟩
    · cases he
  rcases List.mem_append.1 h with h | h
  · obtain ⟨m, hm, ht⟩ := List.mem_flatMap.1 h
    rcases List.mem_append.1 ht with ht | ht
    · exact .inl ⟨m, hm, key _ ht⟩
    · rcases srcTok_cases f m with h | h <;> rw [h] at ht <;> simp at ht
  · obtain ⟨e, he, ht⟩ := List.mem_flatMap.1 h
    exact .inr ⟨e, he, key _ ht⟩

theorem Tokens.opDel {d r : Bool} {m k : List Tok} (h : Tokens d r m k) (hi : .into ∉ m ++ k) : Tokens false r m (k ++ [.del]) := by
  refine ⟨(fun h => by cases h), fun _ => ?_, ?_, ?_, h.shape⟩ <;> rw [← List.append_assoc]
  · rw [gone_append]; rfl
  · rw [okNew_append]; exact ⟨h.new, trivial⟩
  · rw [kept_append]; exact ⟨h.kept, by rw [Bool.false_or, decide_eq_false hi]; exact ⟨rfl, trivial⟩⟩

theorem Tokens.opNew {r : Bool} {m k : List Tok} (h : Tokens false r m k) : Tokens true r m (k ++ [.new]) := by
  refine ⟨fun _ => ?_, (fun h => by cases h), ?_, ?_, h.shape⟩ <;> rw [← List.append_assoc]
  · exact will_ends (.inl rfl)
  · rw [okNew_append]; exact ⟨h.new, h.gone rfl, trivial⟩
  · rw [kept_append]; exact ⟨h.kept, trivial⟩

theorem Tokens.opInto {d r : Bool} {m k : List Tok} {t : Tok} (h : Tokens d r m k) (ht : t = .into ∨ t = .sync) :
    Tokens true r m (k ++ [t]) := by
  refine ⟨fun _ => ?_, (fun h => by cases h), ?_, ?_, h.shape⟩ <;> rw [← List.append_assoc]
  · exact will_ends (.inr ht)
  · rw [okNew_append]; rcases ht with rfl | rfl <;> exact ⟨h.new, trivial⟩
  · rw [kept_append]; rcases ht with rfl | rfl <;> exact ⟨h.kept, trivial⟩

theorem Tokens.opSame {d d' r : Bool} {m k : List Tok} {t : Tok} (h : Tokens d r m (k ++ [t]))
    (ht : d' = true ∧ (t = .new ∨ t = .into ∨ t = .sync) ∨ d' = false ∧ t = .del) : Tokens d' r m (k ++ [t]) := by
  rcases ht with ⟨rfl, ht⟩ | ⟨rfl, rfl⟩
  · refine ⟨fun _ => ?_, (fun h => by cases h), h.new, h.kept, h.shape⟩
    rw [← List.append_assoc]; exact will_ends ht
  · refine ⟨(fun h => by cases h), fun _ => ?_, h.new, h.kept, h.shape⟩
    rw [← List.append_assoc, gone_append]; rfl

theorem Tokens.emit {d d' r : Bool} {m : List Tok} {x : File} {k : List Event} {e : Event} {t : Tok}
    (h : Tokens d r m (evToks x k)) (he : evTok x e = [t])
    (ht : d' = true ∧ (t = .new ∨ t = .into ∨ t = .sync) ∨ d' = false ∧ t = .del)
    (hn : Tokens d' r m (evToks x k ++ [t])) : Tokens d' r m (evToks x (emit k e)) := by
  rcases emit_cases k e with h' | ⟨h', k', h2⟩ <;> rw [h']
  · rw [evToks_append, evToks_cons, he]; exact hn
  · rw [h2, evToks_append, evToks_cons, he] at h ⊢
    exact h.opSame ht

theorem Tokens.emitOther {d r : Bool} {m : List Tok} {x : File} {k : List Event} {e : Event}
    (h : Tokens d r m (evToks x k)) (he : e.file ≠ x) : Tokens d r m (evToks x (Monitor.emit k e)) := by
  rcases emit_cases k e with h' | ⟨h', -⟩ <;> rw [h']
  · rw [evToks_append, evToks_cons, evTok_other he]; simpa using h
  · exact h

theorem Right.op {s : State} (h : Right s) (o : Op) (hc : ∀ f, o.takes = some f → ¬ Coming s f) : Right (s.op o) := by
  have hi : ∀ f, o.takes = some f → .into ∉ quToks f s.queue ++ evToks f s.kernel := fun f hf hi => hc f hf (into_coming hi)
  cases o <;> simp only [State.op]
  case create f =>
    split
    · exact h
    · rename_i hd
      intro x
      by_cases hf : f = x
      · subst hf
        have h0 := h f
        rw [show s.disk f = false by simpa using hd] at h0
        simp only [set, if_true]
        exact h0.emit (if_pos rfl) (.inl ⟨rfl, .inl rfl⟩) h0.opNew
      · simp only [set, if_neg (Ne.symm hf)]
        exact (h x).emitOther hf
  case write f =>
    split
    · rename_i hd
      intro x
      by_cases hf : f = x
      · subst hf
        have h0 := h f
        simp only [hd] at h0 ⊢
        exact h0.emit (if_pos rfl) (.inl ⟨rfl, .inr (.inr rfl)⟩) (h0.opInto (.inr rfl))
      · exact (h x).emitOther hf
    · exact h
  case touch f =>
    split
    · rename_i hd
      intro x
      by_cases hf : f = x
      · subst hf
        have h0 := h f
        simp only [hd] at h0 ⊢
        exact h0.emit (if_pos rfl) (.inl ⟨rfl, .inr (.inr rfl)⟩) (h0.opInto (.inr rfl))
      · exact (h x).emitOther hf
    · exact h
  case remove f =>
    split
    · intro x
      by_cases hf : f = x
      · subst hf
        simp only [set, if_true]
        exact (h f).emit (if_pos rfl) (.inr ⟨rfl, rfl⟩) ((h f).opDel (hi f rfl))
      · simp only [set, if_neg (Ne.symm hf)]
        exact (h x).emitOther hf
    · exact h
  case rename f g =>
    split
    · rename_i hfg
      intro x
      by_cases hg : g = x
      · subst hg
        simp only [set, if_true]
        have h1 := (h g).emitOther (e := ⟨.movedFrom, f, s.cookie⟩) hfg.2
        exact h1.emit (if_pos rfl) (.inl ⟨rfl, .inr (.inl rfl)⟩) (h1.opInto (.inl rfl))
      · simp only [set, if_neg (Ne.symm hg)]
        refine Tokens.emitOther ?_ hg
        by_cases hf : f = x
        · subst hf
          simp only [if_true]
          exact (h f).emit (if_pos rfl) (.inr ⟨rfl, rfl⟩) ((h f).opDel (hi f rfl))
        · simp only [if_neg (Ne.symm hf)]
          exact (h x).emitOther hf
    · exact h
  case moveOut f =>
    split
    · intro x
      by_cases hf : f = x
      · subst hf
        simp only [set, if_true]
        exact (h f).emit (if_pos rfl) (.inr ⟨rfl, rfl⟩) ((h f).opDel (hi f rfl))
      · simp only [set, if_neg (Ne.symm hf)]
        exact (h x).emitOther hf
    · exact h
  case moveIn f =>
    intro x
    by_cases hf : f = x
    · subst hf
      simp only [set, if_true]
      exact (h f).emit (if_pos rfl) (.inl ⟨rfl, .inr (.inl rfl)⟩) ((h f).opInto (.inl rfl))
    · simp only [set, if_neg (Ne.symm hf)]
      exact (h x).emitOther hf

theorem Right.step {s s' : State} {a : Step} (hw : Wf s) (h : Right s) (hs : s.step a = some s')
    (hc : ∀ o f, a = .op o → o.takes = some f → ¬ Coming s f) : Right s' := by
  cases a with
  | op o => cases hs; exact h.op o (fun f => hc o f rfl)
  | read =>
    simp only [State.step] at hs
    split at hs
    · cases hs; exact h
    · split at hs
      · cases hs; exact h
      · rename_i hk
        exact h.read hw hk (read_of hw hk hs)
  | flush => cases hs; exact h
  | next =>
    simp only [State.step] at hs
    split at hs
    · split at hs
      · cases hs
        exact h
      · rename_i hq
        cases hs
        exact h.next hw hq
    · cases hs; exact h

theorem Here.start (disk : File → Bool) : Here (start disk) := fun _ hx => hx

theorem Right.start (disk : File → Bool) : Right (start disk) := by
  intro x
  refine ⟨id, ?_, trivial, trivial, trivial⟩
  intro h
  show (!disk x) = true
  rw [show disk x = false from h]
  rfl

end Tup.Monitor
