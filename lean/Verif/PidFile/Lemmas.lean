import Verif.PidFile.Model

/-! The invariant of the pid file. -/

namespace Tup.PidFile

theorem takeWhile_all {p : Char → Bool} {l : Str} (h : ∀ c ∈ l, p c = true) : l.takeWhile p = l := by
  induction l with
  | nil => rfl
  | cons a l ih =>
    rw [List.takeWhile_cons, if_pos (h a (by simp)), ih (fun c hc => h c (List.mem_cons_of_mem _ hc))]

theorem digits_num (n : Nat) : Nat.ofDigitChars 10 ((Nat.toDigits 10 n).takeWhile Char.isDigit) 0 = n := by
  rw [takeWhile_all (fun c hc => Nat.isDigit_of_mem_toDigits (by decide) (by decide) hc)]
  exact Nat.ofDigitChars_ten_toDigits

theorem number_show (v : Int) : number (showPid v) = v := by
  cases v with
  | ofNat n =>
    have h : ∀ s, Nat.toDigits 10 n ≠ '-' :: s := by
      intro s h
      have := Nat.isDigit_of_mem_toDigits (b := 10) (n := n) (c := '-') (by decide) (by decide) (by rw [h]; simp)
      revert this; decide
    show number (Nat.toDigits 10 n) = _
    unfold number
    split
    · rename_i s e; exact absurd e (h s)
    · rw [digits_num]; rfl
  | negSucc n =>
    show -(Nat.ofDigitChars 10 ((Nat.toDigits 10 (n + 1)).takeWhile Char.isDigit) 0 : Int) = _
    rw [digits_num]; rfl

theorem show_pos (v : Int) : 0 < (showPid v).length := by
  cases v with
  | ofNat n => show 0 < (Nat.toDigits 10 n).length; exact Nat.length_toDigits_pos
  | negSucc n => show 0 < ('-' :: _).length; simp

/-- The process has the file locked. -/
def Holds : Pc → Bool
  | .sLock _ => true
  | .sWrote _ => true
  | .sCut _ => true
  | .gLock => true
  | .gStat _ => true
  | .gRead _ => true
  | _ => false

/-- The process is in `monitor_set_pid`. -/
def Sets : Pc → Bool
  | .sOpen _ => true
  | .sLock _ => true
  | .sWrote _ => true
  | .sCut _ => true
  | _ => false

/-- A process has emptied the file and waits for the lock. -/
def Waits (s : St) : Prop := ∃ j v, (s.procs j).pc = .sOpen v

/-- What a reader may find. -/
def Clean (s : St) : Prop := s.file = [] ∨ (∃ v ∈ s.log, s.file = showPid v) ∨ (∃ k, s.file = List.replicate k '\x00')

/-- The value that was written last is in the file, or somebody is about to write. -/
def Fresh (s : St) : Prop := (∃ l v, s.log = l ++ [v] ∧ s.file = showPid v) ∨ Waits s

/-- What a call may give. -/
def May (progs : Nat → List Call) (v0 : Option Int) (r : Int) : Prop := r = -1 ∨ r = 0 ∨ v0 = some r ∨ ∃ j, Call.set r ∈ progs j

def Val (progs : Nat → List Call) (v0 : Option Int) (v : Int) : Prop := v = -1 ∨ v0 = some v ∨ ∃ j, Call.set v ∈ progs j

structure Inv (progs : Nat → List Call) (v0 : Option Int) (s : St) : Prop where
  lock : ∀ i, s.lock = some i ↔ Holds (s.procs i).pc = true
  clean : (∀ i v, (s.procs i).pc ≠ .sWrote v) → Clean s
  wrote : ∀ i v, (s.procs i).pc = .sWrote v → (s.file = [] ∧ Waits s) ∨ ∃ r, s.file = showPid v ++ r
  fresh : s.there = true → (∀ i v, (s.procs i).pc ≠ .sLock v ∧ (s.procs i).pc ≠ .sWrote v) → Fresh s
  absent : s.there = false → ∀ i, (s.procs i).pc = .out
  log : ∀ v ∈ s.log, Val progs v0 v
  todo : ∀ i v, .set v ∈ (s.procs i).todo → Val progs v0 v
  pend : ∀ i v, (s.procs i).pc = .sOpen v ∨ (s.procs i).pc = .sLock v ∨ (s.procs i).pc = .sWrote v ∨ (s.procs i).pc = .sCut v → Val progs v0 v
  stat : ∀ i n, (s.procs i).pc = .gStat n → s.file.length = n ∨ (s.file = [] ∧ Waits s)
  read : ∀ i r, (s.procs i).pc = .gRead r → May progs v0 r
  got : ∀ i, ∀ r ∈ (s.procs i).got, May progs v0 r

theorem put_self (s : St) (i : Nat) (p : Proc) : (put s i p).procs i = p := by simp [put]
theorem put_ne (s : St) {i k : Nat} (p : Proc) (h : k ≠ i) : (put s i p).procs k = s.procs k := by simp [put, h]

theorem inv_start (v0 : Option Int) (progs : Nat → List Call) : Inv progs v0 (start v0 progs) where
  lock := by simp [start, Holds]
  clean := fun _ => by
    cases v0 with
    | none => exact .inl rfl
    | some v => exact .inr (.inl ⟨v, by simp [start], rfl⟩)
  wrote := by simp [start]
  fresh := fun h _ => by
    cases v0 with
    | none => cases h
    | some v => exact .inl ⟨[], v, rfl, rfl⟩
  absent := fun _ _ => rfl
  log := fun v hv => by
    cases v0 with
    | none => cases hv
    | some w => simp [start] at hv; subst hv; exact .inr (.inl rfl)
  todo := fun i v hv => .inr (.inr ⟨i, hv⟩)
  pend := by simp [start]
  stat := by simp [start]
  read := by simp [start]
  got := by simp [start]

theorem Inv.other {progs : Nat → List Call} {v0 : Option Int} {s : St} (h : Inv progs v0 s) {i k : Nat} (hi : Holds (s.procs i).pc = true) (hk : k ≠ i) :
    Holds (s.procs k).pc = false := by
  cases hh : Holds (s.procs k).pc with
  | false => rfl
  | true =>
    have h1 := (h.lock i).2 hi
    have h2 := (h.lock k).2 hh
    rw [h1] at h2
    cases h2; exact absurd rfl hk

theorem Inv.nobody {progs : Nat → List Call} {v0 : Option Int} {s : St} (h : Inv progs v0 s) (hl : s.lock = none) (k : Nat) : Holds (s.procs k).pc = false := by
  cases hh : Holds (s.procs k).pc with
  | false => rfl
  | true =>
    have h2 := (h.lock k).2 hh
    rw [hl] at h2; cases h2

theorem waits_keep {s : St} {i : Nat} {p : Proc} (h : Waits s) (hi : ∀ v, (s.procs i).pc ≠ .sOpen v) : ∃ j v, ((put s i p).procs j).pc = .sOpen v := by
  obtain ⟨j, v, h⟩ := h
  refine ⟨j, v, ?_⟩
  rw [put_ne]
  · exact h
  · rintro rfl; exact hi v h

/-- A step that leaves the file as it is. -/
theorem inv_move {progs : Nat → List Call} {v0 : Option Int} {s : St} (h : Inv progs v0 s) {i : Nat} {p : Proc} {lk : Option Nat}
    (hlock : ∀ k, lk = some k ↔ Holds ((put s i p).procs k).pc = true)
    (ho : ∀ v, (s.procs i).pc ≠ .sWrote v) (ho' : ∀ v, (s.procs i).pc ≠ .sLock v)
    (hp : ∀ v, p.pc ≠ .sWrote v ∧ p.pc ≠ .sOpen v ∧ p.pc ≠ .sCut v)
    (hw : (∀ v, (s.procs i).pc ≠ .sOpen v) ∨ ((∃ v, p.pc = .sLock v) ∧ s.lock = none))
    (hv : ∀ v, p.pc = .sLock v → Val progs v0 v) (hs : ∀ n, p.pc = .gStat n → s.file.length = n) (hr : ∀ r, p.pc = .gRead r → May progs v0 r)
    (hg : ∀ r ∈ p.got, May progs v0 r) (ht : ∀ v, .set v ∈ p.todo → Val progs v0 v) (ha : s.there = false → p.pc = .out) :
    Inv progs v0 { put s i p with lock := lk } := by
  have split : ∀ (P : Proc → Prop), P p → (∀ k, k ≠ i → P (s.procs k)) → ∀ k, P ((put s i p).procs k) := by
    intro P h1 h2 k
    by_cases e : k = i
    · subst e; rw [put_self]; exact h1
    · rw [put_ne _ _ e]; exact h2 k e
  have hwait : (∃ k, Holds (s.procs k).pc = true) → Waits s → ∃ j v, ((put s i p).procs j).pc = .sOpen v := by
    rintro ⟨k, hk⟩ hwt
    rcases hw with hw | ⟨_, hw⟩
    · exact waits_keep hwt hw
    · rw [h.nobody hw k] at hk; cases hk
  have nowrote : ∀ k v, ((put s i p).procs k).pc ≠ .sWrote v → (s.procs k).pc ≠ .sWrote v := by
    intro k v
    by_cases e : k = i
    · subst e; intro _; exact ho v
    · rw [put_ne _ _ e]; exact id
  refine { lock := hlock, clean := ?_, wrote := ?_, fresh := ?_, absent := ?_, log := h.log, todo := ?_, pend := ?_, stat := ?_, read := ?_, got := ?_ }
  · exact fun hn => h.clean (fun k v => nowrote k v (hn k v))
  · intro k v hk
    by_cases e : k = i
    · subst e
      have hk : ((put s k p).procs k).pc = .sWrote v := hk
      rw [put_self] at hk; exact absurd hk (hp v).1
    · have hk : ((put s i p).procs k).pc = .sWrote v := hk
      rw [put_ne _ _ e] at hk
      rcases h.wrote k v hk with ⟨h1, h2⟩ | h1
      · exact .inl ⟨h1, hwait ⟨k, by rw [hk]; rfl⟩ h2⟩
      · exact .inr h1
  · intro hth hn
    have hold : Fresh s := h.fresh hth (fun k v => by
      by_cases e : k = i
      · subst e; exact ⟨ho' v, ho v⟩
      · have := hn k v
        have : ((put s i p).procs k).pc ≠ .sLock v ∧ ((put s i p).procs k).pc ≠ .sWrote v := this
        rw [put_ne _ _ e] at this; exact this)
    rcases hold with h1 | h1
    · exact .inl h1
    · refine .inr ?_
      rcases hw with hw | ⟨⟨v, hw⟩, _⟩
      · exact waits_keep h1 hw
      · have := (hn i v).1
        have : ((put s i p).procs i).pc ≠ .sLock v := this
        rw [put_self] at this; exact absurd hw this
  · intro hth
    exact split (fun q => q.pc = .out) (ha hth) (fun k _ => h.absent hth k)
  · intro k v
    exact split (fun q => .set v ∈ q.todo → Val progs v0 v) (ht v) (fun k _ => h.todo k v) k
  · intro k v
    refine split (fun q => q.pc = .sOpen v ∨ q.pc = .sLock v ∨ q.pc = .sWrote v ∨ q.pc = .sCut v → Val progs v0 v) ?_ (fun k _ => h.pend k v) k
    rintro (h1 | h1 | h1 | h1)
    · exact absurd h1 (hp v).2.1
    · exact hv v h1
    · exact absurd h1 (hp v).1
    · exact absurd h1 (hp v).2.2
  · intro k n hk
    by_cases e : k = i
    · subst e
      have hk : ((put s k p).procs k).pc = .gStat n := hk
      rw [put_self] at hk; exact .inl (hs n hk)
    · have hk : ((put s i p).procs k).pc = .gStat n := hk
      rw [put_ne _ _ e] at hk
      rcases h.stat k n hk with h1 | ⟨h1, h2⟩
      · exact .inl h1
      · exact .inr ⟨h1, hwait ⟨k, by rw [hk]; rfl⟩ h2⟩
  · intro k r
    exact split (fun q => q.pc = .gRead r → May progs v0 r) (hr r) (fun k _ => h.read k r) k
  · intro k
    exact split (fun q => ∀ r ∈ q.got, May progs v0 r) hg (fun k _ => h.got k) k

/-- The lock is as before, or taken by `i`, or given back by `i`. -/
theorem lock_same {progs : Nat → List Call} {v0 : Option Int} {s : St} (h : Inv progs v0 s) {i : Nat} {p : Proc} (hp : Holds p.pc = Holds (s.procs i).pc) (k : Nat) :
    s.lock = some k ↔ Holds ((put s i p).procs k).pc = true := by
  by_cases e : k = i
  · subst e; rw [put_self, hp]; exact h.lock k
  · rw [put_ne _ _ e]; exact h.lock k

theorem lock_take {progs : Nat → List Call} {v0 : Option Int} {s : St} (h : Inv progs v0 s) {i : Nat} {p : Proc} (hl : s.lock = none) (hp : Holds p.pc = true) (k : Nat) :
    some i = some k ↔ Holds ((put s i p).procs k).pc = true := by
  by_cases e : k = i
  · subst e; rw [put_self, hp]; simp
  · rw [put_ne _ _ e, h.nobody hl k]; simp [Ne.symm e]

theorem lock_give {progs : Nat → List Call} {v0 : Option Int} {s : St} (h : Inv progs v0 s) {i : Nat} {p : Proc} (hi : Holds (s.procs i).pc = true) (hp : Holds p.pc = false) (k : Nat) :
    none = some k ↔ Holds ((put s i p).procs k).pc = true := by
  by_cases e : k = i
  · subst e; rw [put_self, hp]; simp
  · rw [put_ne _ _ e, h.other hi e]; simp

theorem number_zeros (k : Nat) : number (List.replicate k '\x00') = 0 := by
  cases k with
  | zero => rfl
  | succ k =>
    unfold number
    rw [List.replicate_succ]
    split
    · rename_i e; cases e
    · rw [List.takeWhile_cons]; rfl

theorem val_may {progs : Nat → List Call} {v0 : Option Int} {v : Int} : Val progs v0 v → May progs v0 v
  | .inl h => .inl h
  | .inr (.inl h) => .inr (.inr (.inl h))
  | .inr (.inr h) => .inr (.inr (.inr h))

theorem inv_step {progs : Nat → List Call} {v0 : Option Int} {s s' : St} (h : Inv progs v0 s) {i : Nat} {d : Bool} (hs : step s i d = some s') : Inv progs v0 s' := by
  unfold step at hs
  cases hpc : (s.procs i).pc with
  | out =>
    simp only [hpc] at hs
    cases ht : (s.procs i).todo with
    | nil => simp only [ht] at hs; cases hs
    | cons c t =>
      cases c with
      | set v =>
        simp only [ht] at hs
        cases hs
        have hwt : ∃ j w, ((put s i { s.procs i with todo := t, pc := .sOpen v }).procs j).pc = .sOpen w := ⟨i, v, by rw [put_self]⟩
        have split : ∀ (P : Proc → Prop), P { s.procs i with todo := t, pc := .sOpen v } → (∀ k, k ≠ i → P (s.procs k)) →
            ∀ k, P ((put s i { s.procs i with todo := t, pc := .sOpen v }).procs k) := by
          intro P h1 h2 k
          by_cases e : k = i
          · subst e; rw [put_self]; exact h1
          · rw [put_ne _ _ e]; exact h2 k e
        exact { lock := lock_same h (by rw [hpc]; rfl), clean := fun _ => .inl rfl, wrote := fun _ _ _ => .inl ⟨rfl, hwt⟩, fresh := fun _ _ => .inr hwt,
                absent := (by intro h; cases h), log := h.log,
                todo := fun k w => split (fun q => .set w ∈ q.todo → Val progs v0 w) (fun hm => h.todo i w (by rw [ht]; exact List.mem_cons_of_mem _ hm)) (fun k _ => h.todo k w) k,
                pend := fun k w => split (fun q => q.pc = .sOpen w ∨ q.pc = .sLock w ∨ q.pc = .sWrote w ∨ q.pc = .sCut w → Val progs v0 w)
                  (fun hm => by simp at hm; subst hm; exact h.todo i v (by rw [ht]; simp)) (fun k _ => h.pend k w) k,
                stat := fun _ _ _ => .inr ⟨rfl, hwt⟩,
                read := fun k r => split (fun q => q.pc = .gRead r → May progs v0 r) (by intro h; cases h) (fun k _ => h.read k r) k,
                got := split (fun q => ∀ r ∈ q.got, May progs v0 r) (h.got i) (fun k _ => h.got k) }
      | get =>
        simp only [ht] at hs
        have htd : ∀ w, .set w ∈ t → Val progs v0 w := fun w hm => h.todo i w (by rw [ht]; exact List.mem_cons_of_mem _ hm)
        split at hs
        · rename_i hth
          cases hs
          exact inv_move (lk := s.lock) h (lock_same h (by rw [hpc]; rfl)) (by simp [hpc]) (by simp [hpc]) (by simp) (.inl (by simp [hpc])) (by simp) (by simp) (by simp) (h.got i) htd
            (fun e => by rw [hth] at e; cases e)
        · cases hs
          refine inv_move (lk := s.lock) h (lock_same h (by rw [hpc])) (by simp [hpc]) (by simp [hpc]) (by simp) (.inl (by simp [hpc])) (by simp) (by simp) (by simp) ?_ htd
            (fun _ => rfl)
          intro r hr
          rcases List.mem_append.1 hr with hr | hr
          · exact h.got i r hr
          · simp at hr; exact .inl hr
  | sOpen v =>
    simp only [hpc] at hs
    split at hs
    · rename_i hl
      cases hs
      exact inv_move h (lock_take h hl rfl) (by simp [hpc]) (by simp [hpc]) (by simp) (.inr ⟨⟨v, rfl⟩, hl⟩)
        (fun w hw => by cases hw; exact h.pend i v (.inl hpc)) (by simp) (by simp) (h.got i) (h.todo i) (fun e => by have := h.absent e i; rw [hpc] at this; cases this)
    · cases hs
  | sLock v =>
    simp only [hpc] at hs
    cases hs
    have hi : Holds (s.procs i).pc = true := by rw [hpc]; rfl
    have oth : ∀ {k : Nat}, k ≠ i → Holds (s.procs k).pc = false := fun hk => h.other hi hk
    have split : ∀ (P : Proc → Prop), P { s.procs i with pc := .sWrote v } → (∀ k, k ≠ i → P (s.procs k)) →
        ∀ k, P ((put s i { s.procs i with pc := .sWrote v }).procs k) := by
      intro P h1 h2 k
      by_cases e : k = i
      · subst e; rw [put_self]; exact h1
      · rw [put_ne _ _ e]; exact h2 k e
    refine { lock := lock_same h (by rw [hpc]; rfl), clean := ?_, wrote := ?_, fresh := ?_, absent := ?_, log := h.log,
             todo := fun k w => split (fun q => .set w ∈ q.todo → Val progs v0 w) (h.todo i w) (fun k _ => h.todo k w) k,
             pend := fun k w => split (fun q => q.pc = .sOpen w ∨ q.pc = .sLock w ∨ q.pc = .sWrote w ∨ q.pc = .sCut w → Val progs v0 w)
                  (fun hm => by simp at hm; subst hm; exact h.pend i v (.inr (.inl hpc))) (fun k _ => h.pend k w) k,
             stat := fun k n => split (fun q => q.pc = .gStat n → _) (by intro h; cases h) (fun k hk hq => by have := oth hk; rw [hq] at this; cases this) k,
             read := fun k r => split (fun q => q.pc = .gRead r → May progs v0 r) (by intro h; cases h) (fun k _ => h.read k r) k,
             got := split (fun q => ∀ r ∈ q.got, May progs v0 r) (h.got i) (fun k _ => h.got k) }
    · intro hn
      have := hn i v
      have : ((put s i { s.procs i with pc := .sWrote v }).procs i).pc ≠ .sWrote v := this
      rw [put_self] at this; exact absurd rfl this
    · intro k w
      refine split (fun q => q.pc = .sWrote w → _) ?_ (fun k hk hq => by have := oth hk; rw [hq] at this; cases this) k
      intro e; cases e
      exact .inr ⟨_, rfl⟩
    · intro _ hn
      have := (hn i v).2
      have : ((put s i { s.procs i with pc := .sWrote v }).procs i).pc ≠ .sWrote v := this
      rw [put_self] at this; exact absurd rfl this
    · intro e
      have := h.absent e i; rw [hpc] at this; cases this
  | sWrote v =>
    simp only [hpc] at hs
    cases hs
    have hi : Holds (s.procs i).pc = true := by rw [hpc]; rfl
    have oth : ∀ {k : Nat}, k ≠ i → Holds (s.procs k).pc = false := fun hk => h.other hi hk
    have split : ∀ (P : Proc → Prop), P { s.procs i with pc := .sCut v } → (∀ k, k ≠ i → P (s.procs k)) →
        ∀ k, P ((put s i { s.procs i with pc := .sCut v }).procs k) := by
      intro P h1 h2 k
      by_cases e : k = i
      · subst e; rw [put_self]; exact h1
      · rw [put_ne _ _ e]; exact h2 k e
    have hv : Val progs v0 v := h.pend i v (.inr (.inr (.inl hpc)))
    have hf : (resize s.file (showPid v).length = showPid v) ∨ ((∃ k, resize s.file (showPid v).length = List.replicate k '\x00') ∧ Waits s) := by
      rcases h.wrote i v hpc with ⟨h1, h2⟩ | ⟨r, h1⟩
      · exact .inr ⟨⟨(showPid v).length, by rw [h1]; simp [resize]⟩, h2⟩
      · refine .inl ?_
        rw [h1]; simp [resize]
    refine { lock := lock_same h (by rw [hpc]; rfl), clean := ?_, wrote := ?_, fresh := ?_, absent := ?_, log := ?_,
             todo := fun k w => split (fun q => .set w ∈ q.todo → Val progs v0 w) (h.todo i w) (fun k _ => h.todo k w) k,
             pend := fun k w => split (fun q => q.pc = .sOpen w ∨ q.pc = .sLock w ∨ q.pc = .sWrote w ∨ q.pc = .sCut w → Val progs v0 w)
                  (fun hm => by simp at hm; subst hm; exact hv) (fun k _ => h.pend k w) k,
             stat := fun k n => split (fun q => q.pc = .gStat n → _) (by intro h; cases h) (fun k hk hq => by have := oth hk; rw [hq] at this; cases this) k,
             read := fun k r => split (fun q => q.pc = .gRead r → May progs v0 r) (by intro h; cases h) (fun k _ => h.read k r) k,
             got := split (fun q => ∀ r ∈ q.got, May progs v0 r) (h.got i) (fun k _ => h.got k) }
    · intro _
      rcases hf with hf | ⟨hf, _⟩
      · exact .inr (.inl ⟨v, by simp, hf⟩)
      · exact .inr (.inr hf)
    · intro k w
      exact split (fun q => q.pc = .sWrote w → _) (by intro h; cases h) (fun k hk hq => by have := oth hk; rw [hq] at this; cases this) k
    · intro _ _
      rcases hf with hf | ⟨_, hf⟩
      · exact .inl ⟨s.log, v, rfl, hf⟩
      · exact .inr (waits_keep hf (by simp [hpc]))
    · intro e
      have := h.absent e i; rw [hpc] at this; cases this
    · intro w hw
      rcases List.mem_append.1 hw with hw | hw
      · exact h.log w hw
      · simp at hw; subst hw; exact hv
  | sCut v =>
    simp only [hpc] at hs
    cases hs
    exact inv_move h (lock_give h (by rw [hpc]; rfl) rfl) (by simp [hpc]) (by simp [hpc]) (by simp) (.inl (by simp [hpc])) (by simp) (by simp) (by simp) (h.got i) (h.todo i) (fun _ => rfl)
  | gOpen =>
    simp only [hpc] at hs
    split at hs
    · rename_i hl
      cases hs
      exact inv_move h (lock_take h hl rfl) (by simp [hpc]) (by simp [hpc]) (by simp) (.inl (by simp [hpc])) (by simp) (by simp) (by simp) (h.got i) (h.todo i)
        (fun e => by have := h.absent e i; rw [hpc] at this; cases this)
    · cases hs
  | gLock =>
    simp only [hpc] at hs
    cases hs
    exact inv_move (lk := s.lock) h (lock_same h (by rw [hpc]; rfl)) (by simp [hpc]) (by simp [hpc]) (by simp) (.inl (by simp [hpc])) (by simp) (by simp) (by simp) (h.got i) (h.todo i)
      (fun e => by have := h.absent e i; rw [hpc] at this; cases this)
  | gStat n =>
    simp only [hpc] at hs
    cases hs
    have hi : Holds (s.procs i).pc = true := by rw [hpc]; rfl
    have hc : Clean s := h.clean (fun k v hk => by
      by_cases e : k = i
      · subst e; rw [hpc] at hk; cases hk
      · have := h.other hi e; rw [hk] at this; cases this)
    refine inv_move (lk := s.lock) h (lock_same h (by rw [hpc]; rfl)) (by simp [hpc]) (by simp [hpc]) (by simp) (.inl (by simp [hpc])) (by simp) (by simp) ?_ (h.got i) (h.todo i)
      (fun e => by have := h.absent e i; rw [hpc] at this; cases this)
    intro r hr
    cases hr
    unfold slurp
    split
    · exact .inl rfl
    · rename_i hn
      have hlen : s.file.length = n := by
        rcases h.stat i n hpc with h1 | ⟨h1, _⟩
        · exact h1
        · rw [h1] at hn; simp at hn
      rw [List.take_of_length_le (by omega)]
      rcases hc with h1 | ⟨v, h1, h2⟩ | ⟨k, h1⟩
      · rw [h1]; exact .inr (.inl rfl)
      · rw [h2, number_show]; exact val_may (h.log v h1)
      · rw [h1, number_zeros]; exact .inr (.inl rfl)
  | gRead r =>
    simp only [hpc] at hs
    have hi : Holds (s.procs i).pc = true := by rw [hpc]; rfl
    split at hs
    · cases hs
      refine inv_move h (lock_give h hi rfl) (by simp [hpc]) (by simp [hpc]) (by simp) (.inl (by simp [hpc])) (by simp) (by simp) (by simp) ?_ ?_ (fun _ => rfl)
      · intro q hq
        rcases List.mem_append.1 hq with hq | hq
        · exact h.got i q hq
        · simp at hq; exact .inl hq
      · intro v hv
        rcases List.mem_cons.1 hv with hv | hv
        · cases hv; exact .inl rfl
        · exact h.todo i v hv
    · cases hs
      refine inv_move h (lock_give h hi rfl) (by simp [hpc]) (by simp [hpc]) (by simp) (.inl (by simp [hpc])) (by simp) (by simp) (by simp) ?_ (h.todo i) (fun _ => rfl)
      intro q hq
      rcases List.mem_append.1 hq with hq | hq
      · exact h.got i q hq
      · simp at hq; subst hq; exact h.read i q hpc

theorem inv_run {progs : Nat → List Call} {v0 : Option Int} {s s' : St} {l : List (Nat × Bool)} (h : Inv progs v0 s) (hr : run s l = some s') : Inv progs v0 s' := by
  induction l generalizing s with
  | nil => cases hr; exact h
  | cons o l ih =>
    obtain ⟨i, d⟩ := o
    simp only [run] at hr
    cases hs : step s i d with
    | none => rw [hs] at hr; cases hr
    | some s1 =>
      rw [hs] at hr
      exact ih (inv_step h hs) hr

end Tup.PidFile
