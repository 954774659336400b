import Verif.Options.Run

/-! The maps of the locations. -/

namespace Tup.Options

theorem check_iff {k : Valid} {v : Str} : k.check v = true ↔ Allowed k v := by
  cases k with
  | number =>
    simp only [Valid.check, List.all_eq_true, Bool.and_eq_true, decide_eq_true_eq]
    exact ⟨.number, fun h => by cases h; assumption⟩
  | flag =>
    simp only [Valid.check, decide_eq_true_eq, List.mem_cons, List.not_mem_nil, or_false]
    constructor
    · rintro (h | h | h | h | h | h)
      · exact .on (.inr (.inl h))
      · exact .on (.inr (.inr h))
      · exact .off (.inr (.inl h))
      · exact .off (.inr (.inr h))
      · exact .on (.inl h)
      · exact .off (.inl h)
    · intro h
      cases h with
      | on h => rcases h with h | h | h <;> simp [h]
      | off h => rcases h with h | h | h <;> simp [h]
  | color =>
    simp only [Valid.check, decide_eq_true_eq, List.mem_cons, List.not_mem_nil, or_false]
    exact ⟨.color, fun h => by cases h; assumption⟩

theorem lookup_mem {opt d : Str} {k : Valid} {l : List (Str × Str × Valid)} (h : lookup opt l = some (d, k)) : (opt, d, k) ∈ l := by
  induction l with
  | nil => cases h
  | cons x l ih =>
    obtain ⟨n, d', k'⟩ := x
    unfold lookup at h
    split at h
    · rename_i hn
      cases h
      rw [← hn]; exact List.mem_cons_self
    · exact List.mem_cons_of_mem _ (ih h)

theorem lookup_of_mem {opt d : Str} {k : Valid} {l : List (Str × Str × Valid)} (hl : (l.map (·.1)).Nodup) (h : (opt, d, k) ∈ l) :
    lookup opt l = some (d, k) := by
  induction l with
  | nil => cases h
  | cons x l ih =>
    obtain ⟨n, d', k'⟩ := x
    rw [List.map_cons, List.nodup_cons] at hl
    unfold lookup
    rcases List.mem_cons.1 h with h | h
    · cases h
      rw [if_pos rfl]
    · rw [if_neg, ih hl.2 h]
      rintro rfl
      exact hl.1 (List.mem_map.2 ⟨_, h, rfl⟩)

/-- No two options have the same name. -/
theorem options_nodup (e : Env) : ((options e).map (·.1)).Nodup := by
  show List.Nodup ["updater.num_jobs".toList, "updater.keep_going".toList, "updater.full_deps".toList, "updater.warnings".toList, "display.color".toList,
    "display.width".toList, "display.progress".toList, "display.job_numbers".toList, "display.job_time".toList, "display.quiet".toList,
    "monitor.autoupdate".toList, "monitor.autoparse".toList, "monitor.foreground".toList, "db.sync".toList, "graph.dirs".toList, "graph.ghosts".toList,
    "graph.environment".toList, "graph.combine".toList]
  decide +kernel

theorem lookup_iff {e : Env} {opt d : Str} {k : Valid} : lookup opt (options e) = some (d, k) ↔ (opt, d, k) ∈ options e :=
  ⟨lookup_mem, lookup_of_mem (options_nodup e)⟩

theorem fine_iff {e : Env} {s : Str × Str} : fine e s = true ↔ ∀ k, Known e s.1 k → Allowed k s.2 := by
  unfold fine
  cases hl : lookup s.1 (options e) with
  | none =>
    refine ⟨fun _ k ⟨d, hk⟩ => ?_, fun _ => rfl⟩
    rw [lookup_iff.2 hk] at hl
    cases hl
  | some x =>
    obtain ⟨d, k⟩ := x
    simp only
    rw [check_iff]
    constructor
    · rintro h k' ⟨d', hk⟩
      rw [lookup_iff.2 hk] at hl
      cases hl
      exact h
    · intro h
      exact h k ⟨d, lookup_iff.1 hl⟩

/-- The last element that gives a value. -/
theorem last_snoc {α : Type} {g : α → Str → Prop} {l : List α} {a : α} {v : Str} : Last g (l ++ [a]) v ↔ g a v ∨ (∀ w, ¬ g a w) ∧ Last g l v := by
  constructor
  · rintro ⟨l1, b, l2, h, hg, hn⟩
    rcases List.eq_nil_or_concat l2 with rfl | ⟨l2, c, rfl⟩
    · have := List.append_inj' h rfl
      obtain ⟨_, h2⟩ := this
      cases h2
      exact .inl hg
    · rw [show l1 ++ b :: (l2.concat c) = (l1 ++ b :: l2) ++ [c] by simp] at h
      obtain ⟨h1, h2⟩ := List.append_inj' h rfl
      cases h2
      exact .inr ⟨hn a (by simp), l1, b, l2, h1, hg, fun x hx => hn x (by simp [hx])⟩
  · rintro (h | ⟨h, l1, b, l2, rfl, hg, hn⟩)
    · exact ⟨l, a, [], rfl, h, fun x hx => by cases hx⟩
    · refine ⟨l1, b, l2 ++ [a], by simp, hg, fun x hx => ?_⟩
      rcases List.mem_append.1 hx with hx | hx
      · exact hn x hx
      · rw [List.mem_singleton.1 hx]; exact h

theorem unset_snoc {α : Type} {g : α → Str → Prop} {l : List α} {a : α} : Unset g (l ++ [a]) ↔ Unset g l ∧ ∀ w, ¬ g a w := by
  constructor
  · intro h
    exact ⟨fun x hx => h x (by simp [hx]), h a (by simp)⟩
  · rintro ⟨h1, h2⟩ x hx
    rcases List.mem_append.1 hx with hx | hx
    · exact h1 x hx
    · rw [List.mem_singleton.1 hx]; exact h2

/-- Induction from the right. -/
theorem snoc_ind {α : Type} {P : List α → Prop} (h0 : P []) (h1 : ∀ l a, P l → P (l ++ [a])) (l : List α) : P l := by
  have : ∀ n (l : List α), l.length = n → P l := by
    intro n
    induction n with
    | zero => intro l hl; rw [List.length_eq_zero_iff.1 hl]; exact h0
    | succ n ih =>
      intro l hl
      rcases List.eq_nil_or_concat l with rfl | ⟨l', a, rfl⟩
      · exact h0
      · rw [List.concat_eq_append]
        refine h1 _ _ (ih _ ?_)
        simp only [List.concat_eq_append, List.length_append, List.length_cons, List.length_nil] at hl
        omega
  exact this _ l rfl

/-- The map of a file, for an option there is. -/
theorem puts_spec {e : Env} {opt : Str} {k : Valid} (hk : Known e opt k) {r : List (Str × Str)} (hs : Sane e r) :
    (∀ v, r.foldl (put e) (fun _ => none) opt = some v ↔ Last (FileGives opt) r v) ∧
    (r.foldl (put e) (fun _ => none) opt = none ↔ Unset (FileGives opt) r) := by
  revert hs
  refine snoc_ind (P := fun r => Sane e r → (∀ v, r.foldl (put e) (fun _ => none) opt = some v ↔ Last (FileGives opt) r v) ∧
    (r.foldl (put e) (fun _ => none) opt = none ↔ Unset (FileGives opt) r)) ?_ ?_ r
  · intro _
    refine ⟨fun v => ⟨fun h => (by cases h), fun ⟨l1, a, l2, h, _⟩ => (by simp at h)⟩, ⟨fun _ a ha => (by cases ha), fun _ => rfl⟩⟩
  · intro l a ih hs
    obtain ⟨ih1, ih2⟩ := ih fun s hm => hs s (by simp [hm])
    rw [List.foldl_append, List.foldl_cons, List.foldl_nil]
    obtain ⟨n, w⟩ := a
    have hf : fine e (n, w) = true := fine_iff.2 (hs (n, w) (by simp))
    by_cases hn : n = opt
    · subst hn
      obtain ⟨d, hd⟩ := hk
      have hput : ∀ m, put e m (n, w) n = some w := by
        intro m
        unfold put
        unfold fine at hf
        simp only [lookup_iff.2 hd] at hf ⊢
        rw [if_pos hf]
        simp [Vars.set]
      rw [hput]
      constructor
      · intro v
        rw [last_snoc]
        constructor
        · intro h; cases h; exact .inl rfl
        · rintro (h | ⟨h, _⟩)
          · cases h; rfl
          · exact absurd rfl (h w)
      · rw [unset_snoc]
        exact ⟨fun h => (by cases h), fun h => absurd rfl (h.2 w)⟩
    · have hput : ∀ m, put e m (n, w) opt = m opt := by
        intro m
        unfold put
        simp only
        cases lookup n (options e) with
        | none => rfl
        | some x =>
          obtain ⟨d, k⟩ := x
          simp only
          by_cases hc : k.check w = true
          · rw [if_pos hc]
            simp only [Vars.set]
            rw [if_neg (fun h => hn h.symm)]
          · rw [if_neg hc]
      have hng : ∀ v, ¬ FileGives opt (n, w) v := fun v h => hn (congrArg Prod.fst h)
      rw [hput]
      constructor
      · intro v
        rw [last_snoc, ih1]
        exact ⟨fun h => .inr ⟨hng, h⟩, fun h => h.elim (fun h => absurd h (hng v)) (·.2)⟩
      · rw [unset_snoc, ih2]
        exact ⟨fun h => ⟨h, hng⟩, (·.1)⟩

/-- One argument: none is an error. -/
def argOf (a : Str) : Option (Option (Str × Str)) :=
  if a = "--keep-going".toList ∨ a = "-k".toList then some (some ("updater.keep_going".toList, "1".toList))
  else if a = "--no-keep-going".toList then some (some ("updater.keep_going".toList, "0".toList))
  else if a.take 2 = "-j".toList then some (some ("updater.num_jobs".toList, a.drop 2))
  else if a = "--no-sync".toList then some (some ("db.sync".toList, "0".toList))
  else if a.take 15 = "--display-color".toList then
    match a.drop 15 with
    | '=' :: v => if Valid.color.check v then some (some ("display.color".toList, v)) else none
    | _ => none
  else some none

theorem cmdArg_eq (m : Vars) (a : Str) : cmdArg m a = (argOf a).map fun x => match x with
    | some (o, v) => m.set o v
    | none => m := by
  unfold cmdArg argOf
  repeat' split
  all_goals first | rfl | skip
  all_goals simp_all

theorem take_iff {a p : Str} {n : Nat} (hn : p.length = n) : a.take n = p ↔ ∃ v, a = p ++ v := by
  constructor
  · intro h
    exact ⟨a.drop n, by rw [← h, List.take_append_drop]⟩
  · rintro ⟨v, rfl⟩
    rw [List.take_append_of_le_length (by omega), List.take_of_length_le (by omega)]

theorem arg_iff {a opt v : Str} : Arg a opt v ↔ argOf a = some (some (opt, v)) := by
  constructor
  · intro h
    cases h with
    | keepGoing => rfl
    | k => rfl
    | noKeepGoing => rfl
    | jobs n => rfl
    | noSync => rfl
    | color v hv =>
      have hc : Valid.color.check v = true := check_iff.2 (.color hv)
      show (if Valid.color.check v = true then some (some ("display.color".toList, v)) else none) = _
      rw [if_pos hc]
  · intro h
    unfold argOf at h
    split at h
    · rename_i ha
      cases h
      rcases ha with rfl | rfl
      · exact .keepGoing
      · exact .k
    split at h
    · rename_i ha; cases h; subst ha; exact .noKeepGoing
    split at h
    · rename_i ha
      cases h
      have := Arg.jobs (a.drop 2)
      rw [← ha, List.take_append_drop] at this
      exact this
    split at h
    · rename_i ha; cases h; subst ha; exact .noSync
    split at h
    · rename_i ha
      split at h
      · rename_i w hw
        split at h
        · rename_i hc
          cases h
          have hcol := check_iff.1 hc
          cases hcol with
          | color hv =>
            have := Arg.color _ hv
            rw [show "--display-color=".toList ++ v = "--display-color".toList ++ '=' :: v from rfl, ← ha, ← hw, List.take_append_drop] at this
            exact this
        · cases h
      · cases h
    · cases h

theorem badArg_iff {a : Str} : BadArg a ↔ argOf a = none := by
  constructor
  · rintro ⟨⟨v, rfl⟩, h⟩
    cases hr : argOf ("--display-color".toList ++ v) with
    | none => rfl
    | some x =>
      cases x with
      | some x => exact absurd ⟨x.1, x.2, arg_iff.2 hr⟩ h
      | none =>
        change (match v with
          | '=' :: v => if Valid.color.check v then some (some ("display.color".toList, v)) else none
          | _ => none) = some none at hr
        split at hr
        · split at hr <;> cases hr
        · cases hr
  · intro h
    refine ⟨?_, fun ⟨o, v, hv⟩ => by rw [arg_iff.1 hv] at h; cases h⟩
    unfold argOf at h
    split at h
    · cases h
    split at h
    · cases h
    split at h
    · cases h
    split at h
    · cases h
    split at h
    · rename_i ha
      exact (take_iff rfl).1 ha
    · cases h

theorem cmdline_append (l1 l2 : List Str) (m : Vars) : cmdline (l1 ++ l2) m = (cmdline l1 m).bind (cmdline l2) := by
  induction l1 generalizing m with
  | nil => rfl
  | cons a l1 ih =>
    rw [List.cons_append, cmdline, cmdline]
    cases cmdArg m a with
    | none => rfl
    | some m' => exact ih m'

theorem cmdline_none (l : List Str) (m : Vars) : cmdline l m = none ↔ ∃ a ∈ l, BadArg a := by
  induction l generalizing m with
  | nil => exact ⟨fun h => (by cases h), fun ⟨a, ha, _⟩ => (by cases ha)⟩
  | cons a l ih =>
    rw [cmdline, cmdArg_eq]
    cases h : argOf a with
    | none => exact ⟨fun _ => ⟨a, List.mem_cons_self, badArg_iff.2 h⟩, fun _ => rfl⟩
    | some x =>
      have hb : ¬ BadArg a := fun hb => by rw [badArg_iff.1 hb] at h; cases h
      simp only [Option.map_some, ih]
      constructor
      · rintro ⟨b, hb, hh⟩; exact ⟨b, List.mem_cons_of_mem _ hb, hh⟩
      · rintro ⟨b, hm, hh⟩
        rcases List.mem_cons.1 hm with rfl | hm
        · exact absurd hh hb
        · exact ⟨b, hm, hh⟩

/-- The map of the command line. -/
theorem cmdline_spec (opt : Str) (l : List Str) : ∀ m, cmdline l (fun _ => none) = some m →
    (∀ v, m opt = some v ↔ Last (ArgGives opt) l v) ∧ (m opt = none ↔ Unset (ArgGives opt) l) := by
  refine snoc_ind (P := fun l => ∀ m, cmdline l (fun _ => none) = some m →
    (∀ v, m opt = some v ↔ Last (ArgGives opt) l v) ∧ (m opt = none ↔ Unset (ArgGives opt) l)) ?_ ?_ l
  · intro m h
    cases h
    refine ⟨fun v => ⟨fun h => (by cases h), fun ⟨l1, a, l2, h, _⟩ => (by simp at h)⟩, ⟨fun _ a ha => (by cases ha), fun _ => rfl⟩⟩
  · intro l a ih m h
    rw [cmdline_append] at h
    cases hm : cmdline l (fun _ => none) with
    | none => rw [hm] at h; cases h
    | some m1 =>
      obtain ⟨i1, i2⟩ := ih m1 hm
      rw [hm, Option.bind_some, cmdline, cmdArg_eq] at h
      have hg : ∀ v, ArgGives opt a v ↔ argOf a = some (some (opt, v)) := fun v => arg_iff
      cases ha : argOf a with
      | none => rw [ha] at h; cases h
      | some x =>
        rw [ha] at h
        simp only [Option.map_some, cmdline, Option.some.injEq] at h
        cases x with
        | none =>
          have hng : ∀ v, ¬ ArgGives opt a v := fun v hv => by rw [hg, ha] at hv; cases hv
          simp only at h
          subst h
          refine ⟨fun v => ?_, ?_⟩
          · rw [last_snoc, i1]
            exact ⟨fun h => .inr ⟨hng, h⟩, fun h => h.elim (fun h => absurd h (hng v)) (·.2)⟩
          · rw [unset_snoc, i2]
            exact ⟨fun h => ⟨h, hng⟩, (·.1)⟩
        | some x =>
          obtain ⟨o, w⟩ := x
          simp only at h
          subst h
          by_cases ho : o = opt
          · subst ho
            have hw : ArgGives o a w := (hg w).2 ha
            have hset : m1.set o w o = some w := by simp [Vars.set]
            rw [hset]
            refine ⟨fun v => ?_, ?_⟩
            · rw [last_snoc]
              constructor
              · intro h; cases h; exact .inl hw
              · rintro (h | ⟨h, _⟩)
                · rw [hg, ha] at h; cases h; rfl
                · exact absurd hw (h w)
            · rw [unset_snoc]
              exact ⟨fun h => (by cases h), fun h => absurd hw (h.2 w)⟩
          · have hng : ∀ v, ¬ ArgGives opt a v := fun v hv => by rw [hg, ha] at hv; cases hv; exact ho rfl
            have hset : m1.set o w opt = m1 opt := by
              simp only [Vars.set]
              rw [if_neg (fun h => ho h.symm)]
            rw [hset]
            refine ⟨fun v => ?_, ?_⟩
            · rw [last_snoc, i1]
              exact ⟨fun h => .inr ⟨hng, h⟩, fun h => h.elim (fun h => absurd h (hng v)) (·.2)⟩
            · rw [unset_snoc, i2]
              exact ⟨fun h => ⟨h, hng⟩, (·.1)⟩

/-- The map of a file that says something. -/
theorem file_says {e : Env} {path : Str} {r : List (Str × Str)} (h : Says e path r) :
    (Sane e r → optionFile e path = some (r.foldl (put e) fun _ => none)) ∧ (¬ Sane e r → optionFile e path = none) := by
  unfold Says at h
  unfold optionFile
  cases hf : e.files path with
  | none =>
    rw [hf] at h
    subst h
    refine ⟨fun _ => rfl, fun hs => absurd (fun s hs => by cases hs) hs⟩
  | some text =>
    rw [hf] at h
    obtain ⟨ls, h1, h2⟩ := h
    obtain ⟨u, er⟩ := fold_reads (e := e) h2 (fileLines_fits h1) { user := fun _ => none } rfl rfl (by simp) (by simp)
    rw [← parse_lines _ _ h1] at u er
    have hsane : Sane e r ↔ ∀ s ∈ r, fine e s = true :=
      ⟨fun hs s hm => fine_iff.2 (hs s hm), fun hs s hm => fine_iff.1 (hs s hm)⟩
    simp only
    constructor
    · intro hs
      rw [if_pos (er.2 ⟨rfl, hsane.1 hs⟩), u]
    · intro hs
      rw [if_neg]
      intro he
      exact hs (hsane.2 (er.1 he).2)

theorem file_garbled {e : Env} {path : Str} (h : Garbled e path) : optionFile e path = none := by
  obtain ⟨text, ls, h1, h2, h3⟩ := h
  unfold optionFile
  rw [h1]
  simp only
  rw [parse_lines _ _ h2, if_neg (fold_broken _ h3 _ rfl rfl)]

theorem homeLoc_iff {e : Env} {path : Str} : HomePath e path ↔ homeLoc e = some path := by
  unfold HomePath homeLoc
  cases e.home with
  | none => simp only [Option.some.injEq]; exact eq_comm
  | some h =>
    simp only
    split
    · rename_i hl
      constructor
      · rintro ⟨rfl, h2⟩; omega
      · intro h; cases h
    · rename_i hl
      constructor
      · rintro ⟨rfl, h2⟩; rfl
      · intro h; cases h; exact ⟨rfl, by omega⟩

/-- What is stored from any file is allowed. -/
theorem callback_allowed {e : Env} {sec name value : Str} {m : Vars} (h : ∀ o v, m o = some v → ∃ k, Known e o k ∧ Allowed k v) :
    ∀ o v, (callback e sec name value m).1 o = some v → ∃ k, Known e o k ∧ Allowed k v := by
  intro o v
  unfold callback
  simp only
  split
  · exact h o v
  split
  · rename_i d k hl
    split
    · rename_i hc
      simp only [Vars.set]
      split
      · rename_i ho
        intro hv
        cases hv
        rw [ho]
        exact ⟨k, ⟨d, lookup_mem hl⟩, check_iff.1 hc⟩
      · exact h o v
    · exact h o v
  · exact h o v

theorem iniLine_user {σ : Type} {h : Str → Str → Str → σ → σ × Bool} {P : σ → Prop} (hP : ∀ s n v u, P u → P (h s n v u).1) (st : Ini σ) (line : Str)
    (hp : P st.user) : P (iniLine h st line).user := by
  unfold iniLine
  simp only
  split
  · exact hp
  split
  · exact hp
  split
  · exact hP _ _ _ _ hp
  split
  · split <;> exact hp
  · split
    · split
      · exact hP _ _ _ _ hp
      · exact hp
    · exact hp

theorem file_allowed {e : Env} {path : Str} {m : Vars} (h : optionFile e path = some m) : ∀ o v, m o = some v → ∃ k, Known e o k ∧ Allowed k v := by
  unfold optionFile at h
  split at h
  · cases h
    intro o v hv
    cases hv
  · simp only at h
    split at h
    · cases h
      unfold iniParse
      have : ∀ (ls : List Str) (st : Ini Vars), (∀ o v, st.user o = some v → ∃ k, Known e o k ∧ Allowed k v) →
          ∀ o v, (ls.foldl (iniLine (callback e)) st).user o = some v → ∃ k, Known e o k ∧ Allowed k v := by
        intro ls
        induction ls with
        | nil => intro st h; exact h
        | cons l ls ih =>
          intro st h
          rw [List.foldl_cons]
          exact ih _ (iniLine_user (P := fun u => ∀ o v, u o = some v → ∃ k, Known e o k ∧ Allowed k v) (fun s n v u hu => callback_allowed hu) st l h)
      exact this _ _ fun o v hv => by cases hv
    · cases h

end Tup.Options
