import Verif.Mount.Lemmas

/-!
C70: commands that run at the same time do not see each other, and each is asked about the files that it has used itself.
-/

namespace Tup.Mount

open Tup.Fuse (Fs Node Op)

variable {C : Type}

/-- C70: a command that runs among others gets the answers that it would get alone, and tup notes the same about it; when it ends the same files are moved into the tree.  It
must only be that the files that it asks for do not change in the tree meanwhile. -/
theorem c70_alone {m : Mount C} (hm : Reachable m) {id : Nat} (hid : m.jobs id = none) {es : List (Ev C)} (hr : Running id es) (hs : Still (step m (.start id)).1 id es) :
    let m0 := (step m (.start id)).1
    let a := Fuse.run m.real {} (ops id es)
    answers id (run m0 es).2 = a.2 ∧ ∃ s, (run m0 es).1.jobs id = some s ∧ s.dirs = a.1.dirs ∧ s.reads = a.1.reads ∧ s.writes = a.1.writes ∧ s.unlinks = a.1.unlinks ∧
      s.maps.map Prod.fst = a.1.maps.map Prod.fst ∧
      ∀ keep, (step (run m0 es).1 (.finish id keep)).1.real = Fuse.settle a.1 (a.1.maps.filter fun p => keep p.1) (run m0 es).1.real := by
  intro m0 a
  have hm0 : m0 = { m with jobs := fun j => if j = id then some {} else m.jobs j } := by
    show (step m (.start id)).1 = _
    simp only [step]
    rw [hid]
  have hi : Inv m0 := (reachable_inv hm).step (.start id)
  have hs0 : m0.jobs id = some {} := by rw [hm0]; simp only [if_true]
  have hreal : m0.real = m.real := by rw [hm0]
  obtain ⟨s, e1, e2, e3⟩ := alone (id := id) (real := m.real) es (a := {}) hi hs0 ⟨.nil, rfl, rfl, rfl, rfl, ⟨List.nodup_nil, fun t ht => by cases ht⟩, ⟨List.nodup_nil, fun t ht => by cases ht⟩⟩
    (fun t _ => rfl) hr hs (fun o _ f _ => by rw [hreal])
  refine ⟨e3, s, e1, e2.dirs, e2.reads, e2.writes, e2.unlinks, ?_, ?_⟩
  · have := e2.maps
    generalize (load (run m0 es).1 s).tmp = st at this
    generalize a.1.tmp = at' at this
    have hload : (load (run m0 es).1 s).maps = s.maps := rfl
    rw [hload] at this
    show s.maps.map Prod.fst = a.1.maps.map Prod.fst
    have key : ∀ {st at' : Nat → Option C} {ms ns : List (Str × Nat)}, RL st at' ms ns → ms.map Prod.fst = ns.map Prod.fst := by
      intro st at' ms ns h
      induction h with
      | nil => rfl
      | cons _ _ ih => rw [List.map_cons, List.map_cons, ih]
    exact key e2.maps
  · intro keep
    show (step (run m0 es).1 (.finish id keep)).1.real = _
    simp only [step]
    rw [e1]
    simp only
    exact settle_sim (s := load (run m0 es).1 s) (e2.maps.filter keep) _

/-- C70: what a command asks for changes neither the tree nor what another command sees, nor what is noted about that. -/
theorem c70_others {m : Mount C} (hm : Reachable m) {i j : Nat} (hij : i ≠ j) (o : Op C) :
    (step m (.call i o)).1.real = m.real ∧ (step m (.call i o)).1.jobs j = m.jobs j ∧ ∀ f, sees (step m (.call i o)).1 j f = sees m j f := by
  have hreal : (step m (.call i o)).1.real = m.real := by
    simp only [step]
    split <;> rfl
  have hjobs : (step m (.call i o)).1.jobs j = m.jobs j := by
    simp only [step]
    split
    · rfl
    · simp only
      rw [if_neg (fun hx => hij hx.symm)]
  refine ⟨hreal, hjobs, fun f => ?_⟩
  unfold sees
  rw [hjobs]
  cases hs : m.jobs j with
  | none => rfl
  | some s =>
    obtain ⟨_, h2, _, _⟩ := other (reachable_inv hm) hs (e := .call i o) (fun o' ho => by cases ho; exact hij rfl) (fun h => by cases h) (fun _ h => by cases h)
    simp only [Option.map_some]
    congr 1
    unfold Fuse.lookup
    rw [hreal]
    split
    · rename_i hd
      rw [if_pos (show f ∈ (load m s).dirs from hd)]
    · rename_i hd
      rw [if_neg (show ¬ f ∈ (load m s).dirs from hd)]
      simp only [load]
      cases hf : Fuse.findMap f s.maps with
      | none => rfl
      | some t =>
        simp only
        rw [h2 t (List.mem_map.2 ⟨_, Fuse.findMap_some hf, rfl⟩)]

/-- C70: the end of a command changes for another one only what is in the tree: what that has made stays as it is. -/
theorem c70_end {m : Mount C} (hm : Reachable m) {i j : Nat} (hij : i ≠ j) (keep : Str → Bool) {f : Str} {s : Fs C} (hs : m.jobs j = some s) (hf : f ∈ s.dirs ∨ f ∈ s.maps.map Prod.fst) :
    (step m (.finish i keep)).1.jobs j = some s ∧ sees (step m (.finish i keep)).1 j f = sees m j f := by
  obtain ⟨h1, h2, _, _⟩ := other (reachable_inv hm) hs (e := .finish i keep) (fun o' ho => by cases ho) (fun h => by cases h) (fun _ h => by cases h; exact hij rfl)
  refine ⟨h1, ?_⟩
  unfold sees
  rw [h1, hs]
  simp only [Option.map_some]
  congr 1
  unfold Fuse.lookup
  split
  · rename_i hd
    rw [if_pos (show f ∈ (load m s).dirs from hd)]
  · rename_i hd
    rw [if_neg (show ¬ f ∈ (load m s).dirs from hd)]
    simp only [load]
    cases hx : Fuse.findMap f s.maps with
    | none =>
      rcases hf with hf | hf
      · exact absurd hf hd
      · exact absurd hf (Fuse.findMap_none.1 hx)
    | some t =>
      simp only
      rw [h2 t (List.mem_map.2 ⟨_, Fuse.findMap_some hx, rfl⟩)]

/-- C70: two files that are there at the same time, of whatever commands, are not in the same temporary file. -/
theorem c70_temporary {m : Mount C} (hm : Reachable m) {i j : Nat} {s s' : Fs C} {f g : Str} {t : Nat} (hi : m.jobs i = some s) (hj : m.jobs j = some s') (hf : (f, t) ∈ s.maps)
    (hg : (g, t) ∈ s'.maps) : i = j ∧ f = g := by
  have h := reachable_inv hm
  by_cases hij : i = j
  · subst hij
    rw [hi] at hj
    cases hj
    refine ⟨rfl, ?_⟩
    have hn := (h.nums i s hi).nodup
    have hn : (s.maps.map Prod.snd).Nodup := hn
    generalize s.maps = l at hf hg hn
    clear hi h
    induction l with
    | nil => cases hf
    | cons a l ih =>
      rw [List.map_cons, List.nodup_cons] at hn
      rcases List.mem_cons.1 hf with hf1 | hf1
      · rcases List.mem_cons.1 hg with hg1 | hg1
        · exact congrArg Prod.fst (hf1.trans hg1.symm)
        · exact absurd (List.mem_map.2 ⟨(g, t), hg1, (congrArg Prod.snd hf1 : t = a.2)⟩) hn.1
      · rcases List.mem_cons.1 hg with hg1 | hg1
        · exact absurd (List.mem_map.2 ⟨(f, t), hf1, (congrArg Prod.snd hg1 : t = a.2)⟩) hn.1
        · exact ih hf1 hg1 hn.2
  · exact absurd (List.mem_map.2 ⟨_, hg, rfl⟩) (h.apart i j s s' hij hi hj t (List.mem_map.2 ⟨_, hf, rfl⟩))

/-- C70: what processes of a command do after it has ended has no effect. -/
theorem c70_late {m : Mount C} {id : Nat} (h : m.jobs id = none) (o : Op C) : (step m (.call id o)).1 = m := by
  simp only [step]
  rw [h]

/-- C70: the answers such processes get: a read sees what is really there, as in a new job; all that would change something fails, but a rename of something that
is there to another name, which is said to succeed, unless a directory were to take the place of a file, or a file that of a directory, or would come to lie in itself. -/
theorem c70_late_answers {m : Mount C} {id : Nat} (h : m.jobs id = none) (o : Op C) : ∃ b, (step m (.call id o)).2 = some (id, b) ∧
    ((∃ f, o = .read f) → b = (Fuse.step m.real {} o).2) ∧ ((∀ f, o ≠ .read f) → (∀ f g, o ≠ .rename f g) → b = false) ∧
    ∀ f g, o = .rename f g → f ≠ g → (b = true ↔ ∃ x, m.real f = some x ∧ (∀ y, m.real g = some y → (x = .dir ↔ y = .dir)) ∧
      ¬ ∃ r, g = f ++ "/".toList ++ r) := by
  refine ⟨late m.real o, by simp only [step]; rw [h], ?_, ?_, ?_⟩
  · rintro ⟨f, rfl⟩
    rfl
  · intro h1 h2
    cases o with
    | read f => exact absurd rfl (h1 f)
    | rename f g => exact absurd rfl (h2 f g)
    | _ => rfl
  · rintro f g rfl hne
    have hb : (!Fuse.below f g) = true ↔ ¬ ∃ r, g = f ++ "/".toList ++ r := by
      unfold Fuse.below
      rw [Bool.not_eq_true', Bool.eq_false_iff, Ne, List.isPrefixOf_iff_prefix]
      constructor
      · rintro h ⟨r, e⟩; exact h ⟨r, e.symm⟩
      · rintro h ⟨r, e⟩; exact h ⟨r, e.symm⟩
    simp only [late]
    rw [if_neg hne]
    cases hf : m.real f with
    | none => simp
    | some x =>
      cases hg : m.real g with
      | none => cases x <;> simp [hb]
      | some y => cases x <;> cases y <;> simp [hb]

theorem digits_append (ds : Str) (hd : ∀ c ∈ ds, c.isDigit = true) (rest : Str) (acc : Nat) : digits 10 acc (ds ++ rest) = digits 10 (Nat.ofDigitChars 10 ds acc) rest := by
  induction ds generalizing acc with
  | nil => rfl
  | cons c ds ih =>
    have hc := hd c List.mem_cons_self
    have h1 : '0' ≤ c ∧ c ≤ '9' := by
      simp only [Char.isDigit, Bool.and_eq_true, decide_eq_true_iff] at hc
      exact ⟨hc.1, hc.2⟩
    have h2 : c.toNat - '0'.toNat < 10 := by
      have h3 : c.toNat ≤ '9'.toNat := h1.2
      have : '9'.toNat = 57 := rfl
      have : '0'.toNat = 48 := rfl
      omega
    rw [List.cons_append, Nat.ofDigitChars_cons]
    simp only [digits]
    rw [if_pos h1, if_pos h2, ih (fun x hx => hd x (List.mem_cons_of_mem _ hx)), Nat.mul_comm]

/-- C70: a request in the directory of a job is one of that job, and it is about the path without the directory. -/
theorem c70_dispatch (id : Nat) (rest : Str) : jobOf (jobDir id ++ '/' :: rest) = some id ∧ peel (jobDir id ++ '/' :: rest) = some ('/' :: rest) ∧
    jobOf (jobDir id) = some id ∧ peel (jobDir id) = some ['/'] := by
  have hdig : ∀ c ∈ Nat.toDigits 10 id, c.isDigit = true := fun c hc => Nat.isDigit_of_mem_toDigits (by decide) (by decide) hc
  have hne : ∀ c ∈ Nat.toDigits 10 id, decide (c ≠ '/') = true := by
    intro c hc
    have := hdig c hc
    rw [decide_eq_true_iff]
    rintro rfl
    exact absurd this (by decide)
  have hstr : ∀ tail : Str, tail = [] ∨ tail.head? = some '/' → strtol (Nat.toDigits 10 id ++ tail) = id := by
    intro tail ht
    have hend : digits 10 id tail = id := by
      rcases ht with rfl | ht
      · rfl
      · cases tail with
        | nil => cases ht
        | cons c tail =>
          cases ht
          rfl
    by_cases h0 : id = 0
    · subst h0
      rcases ht with rfl | ht
      · rfl
      · cases tail with
        | nil => cases ht
        | cons c tail =>
          cases ht
          rfl
    · have hfirst : ∀ c ds, Nat.toDigits 10 id = c :: ds → c ≠ '0' := by
        intro c ds hc hx
        subst hx
        have hlen : (Nat.toDigits 10 id).length = ds.length + 1 := by rw [hc]; rfl
        have hlt : id < 10 ^ ds.length := by
          have h1 := Nat.ofDigitChars_ten_toDigits (n := id)
          rw [hc, Nat.ofDigitChars_cons] at h1
          have h2 : ∀ (l : Str), (∀ c ∈ l, c.isDigit = true) → Nat.ofDigitChars 10 l 0 < 10 ^ l.length := by
            intro l
            have : ∀ (l : Str) (a : Nat), (∀ c ∈ l, c.isDigit = true) → Nat.ofDigitChars 10 l a < (a + 1) * 10 ^ l.length := by
              intro l
              induction l with
              | nil => intro a _; simp [Nat.ofDigitChars]
              | cons c l ih =>
                intro a h
                rw [Nat.ofDigitChars_cons]
                have hc := h c List.mem_cons_self
                have h2 : c.toNat - '0'.toNat < 10 := by
                  simp only [Char.isDigit, Bool.and_eq_true, decide_eq_true_iff] at hc
                  have h3 : c.toNat ≤ '9'.toNat := hc.2
                  have : '9'.toNat = 57 := rfl
                  have : '0'.toNat = 48 := rfl
                  omega
                have h4 := ih (10 * a + (c.toNat - '0'.toNat)) (fun x hx => h x (List.mem_cons_of_mem _ hx))
                refine Nat.lt_of_lt_of_le h4 ?_
                rw [List.length_cons, Nat.pow_succ, Nat.mul_comm (10 ^ l.length) 10, ← Nat.mul_assoc]
                exact Nat.mul_le_mul_right _ (by omega)
            intro h
            have := this l 0 h
            simpa using this
          have h3 := h2 ds (fun x hx => hdig x (by rw [hc]; exact List.mem_cons_of_mem _ hx))
          have h4 : 10 * 0 + ('0'.toNat - '0'.toNat) = 0 := rfl
          rw [h4] at h1
          omega
        cases hds : ds with
        | nil =>
          rw [hds] at hlt
          simp at hlt
          exact h0 hlt
        | cons d ds' =>
          have := (Nat.length_toDigits_le_iff (n := id) (b := 10) (k := ds.length) (by decide) (by rw [hds]; simp)).2 hlt
          omega
      have h1 : strtol (Nat.toDigits 10 id ++ tail) = digits 10 0 (Nat.toDigits 10 id ++ tail) := by
        cases hc : Nat.toDigits 10 id with
        | nil => exact absurd hc (by simp)
        | cons c ds =>
          have hc0 := hfirst c ds hc
          rw [List.cons_append]
          unfold strtol
          split
          · rename_i heq
            exact absurd (List.cons.inj heq).1 hc0
          · rename_i heq
            exact absurd (List.cons.inj heq).1 hc0
          · rename_i heq
            exact absurd (List.cons.inj heq).1 hc0
          · rfl
      rw [h1, digits_append _ hdig, Nat.ofDigitChars_ten_toDigits, hend]
  have hpre : ∀ tail : Str, jobPrefix.isPrefixOf (jobPrefix ++ tail) = true := fun tail => List.isPrefixOf_iff_prefix.2 (List.prefix_append _ _)
  have hdrop : ∀ tail : Str, (jobPrefix ++ tail).drop jobPrefix.length = tail := fun tail => List.drop_left
  have hwhile : ∀ tail : Str, (Nat.toDigits 10 id ++ tail).dropWhile (fun c => decide (c ≠ '/')) = tail.dropWhile fun c => decide (c ≠ '/') := by
    intro tail
    generalize Nat.toDigits 10 id = ds at hne
    induction ds with
    | nil => rfl
    | cons c ds ih =>
      rw [List.cons_append, List.dropWhile_cons, if_pos (hne c List.mem_cons_self)]
      exact ih (fun x hx => hne x (List.mem_cons_of_mem _ hx))
  have hshape : ∀ tail : Str, jobDir id ++ tail = '/' :: (jobPrefix ++ (Nat.toDigits 10 id ++ tail)) := by
    intro tail
    unfold jobDir
    simp
  have hjob : ∀ tail : Str, tail = [] ∨ tail.head? = some '/' → jobOf (jobDir id ++ tail) = some id := by
    intro tail ht
    rw [hshape]
    simp only [jobOf]
    rw [if_pos (hpre _), hdrop, hstr tail ht]
  refine ⟨hjob _ (.inr rfl), ?_, ?_, ?_⟩
  · rw [hshape]
    simp only [peel]
    rw [if_pos (hpre _), hdrop, hwhile, List.dropWhile_cons, if_neg (by decide)]
  · have := hjob [] (.inl rfl)
    rwa [List.append_nil] at this
  · have := hshape []
    rw [List.append_nil] at this
    rw [this]
    simp only [peel]
    rw [if_pos (hpre _), hdrop, hwhile]
    rfl

/-! Cases. -/

def str (s : String) : Str := s.toList

/-- Two commands make a file with the same name at the same time; a third one has ended. -/
def sample : List (Ev Nat) :=
  [.call 7 (.put (str "/o") 1), .start 8, .call 8 (.put (str "/t") 2), .call 7 (.read (str "/t")), .call 8 (.rename (str "/t") (str "/o")), .call 7 (.read (str "/s")),
    .call 9 (.put (str "/o") 3), .call 7 (.put (str "/o") 4), .finish 8 fun _ => false, .call 7 (.truncate (str "/o") 5)]

def tree : Str → Option (Node Nat) := fun f => if f = str "/s" then some (.file 0) else none

theorem sample_alone : answers 7 (run (step { real := tree } (.start 7)).1 sample).2 = [true, false, true, true, true] := by decide

example : Reachable ({ real := tree } : Mount Nat) := ⟨tree, [], rfl⟩
example : Running 7 sample := by
  intro e he
  simp only [sample, List.mem_cons, List.not_mem_nil, or_false] at he
  rcases he with rfl | rfl | rfl | rfl | rfl | rfl | rfl | rfl | rfl | rfl <;> simp
example : (ops 7 sample).length = 5 := by decide

/-- `c70_late_answers` for job 9, which has ended: it can read, and it cannot write. -/
example : (step ({ real := tree } : Mount Nat) (.call 9 (.read (str "/s")))).2 = some (9, true) ∧ (step ({ real := tree } : Mount Nat) (.call 9 (.put (str "/o") 3))).2 = some (9, false) := by
  obtain ⟨b, h1, h2, _⟩ := c70_late_answers (m := ({ real := tree } : Mount Nat)) (id := 9) rfl (.read (str "/s"))
  obtain ⟨b', h1', _, h3', _⟩ := c70_late_answers (m := ({ real := tree } : Mount Nat)) (id := 9) rfl (.put (str "/o") 3)
  rw [h1, h1', h2 ⟨_, rfl⟩, h3' (fun f h => by cases h) (fun f g h => by cases h)]
  exact ⟨by decide, rfl⟩

/-- The file of 7 ends up in the tree. -/
example : (step (run (step { real := tree } (.start 7)).1 sample).1 (.finish 7 fun _ => true)).1.real (str "/o") = some (.file 5) := by decide

/-- Nobody's file is changed from outside here. -/
theorem sample_still : Still (step { real := tree } (.start 7)).1 7 sample := by
  have key : ∀ k, k ≤ 10 → (run (step { real := tree } (.start 7)).1 (sample.take k)).1.real = tree ∨
      (run (step { real := tree } (.start 7)).1 (sample.take k)).1.real = Fuse.settle (C := Nat) {} [] tree := by
    intro k hk
    have : k = 0 ∨ k = 1 ∨ k = 2 ∨ k = 3 ∨ k = 4 ∨ k = 5 ∨ k = 6 ∨ k = 7 ∨ k = 8 ∨ k = 9 ∨ k = 10 := by omega
    rcases this with rfl | rfl | rfl | rfl | rfl | rfl | rfl | rfl | rfl | rfl | rfl <;> first | exact .inl rfl | exact .inr rfl
  intro a b hab o _ f _
  have h1 : a = sample.take a.length := by rw [hab]; simp
  have h2 : a.length ≤ 10 := by
    have := congrArg List.length hab
    simp [sample] at this
    omega
  rw [h1]
  rcases key a.length h2 with h | h
  · rw [h]; rfl
  · rw [h]; rfl

/-- A file that a command reads is changed by the end of another one: that is what `Still` excludes. -/
theorem c70_still_needed : answers 1 (run ({ real := tree } : Mount Nat)
    [.start 1, .start 2, .call 2 (.put (str "/o") 1), .call 1 (.read (str "/o")), .finish 2 fun _ => true, .call 1 (.read (str "/o"))]).2 = [false, true] := by decide

/-- After the end of a command a rename is said to succeed, though nothing is done. -/
theorem c70_late_rename : (step ({ real := tree } : Mount Nat) (.call 1 (.rename (str "/s") (str "/r")))).2 = some (1, true) := by decide

/-- A directory with another name can belong to the same job. -/
theorem c70_alias : jobOf (str "/@tupjob-12x/a") = some 12 ∧ jobOf (str "/@tupjob-014/a") = some 12 ∧ peel (str "/@tupjob-12x/a") = some (str "/a") := by decide

end Tup.Mount
