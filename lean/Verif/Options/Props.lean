import Verif.Options.Store

/-! C46: where the values of options are from. -/

namespace Tup.Options

theorem init_some {e : Env} {args : List Str} {locs : Locations} (h : init e args = some locs) : ∃ home a b c d, homeLoc e = some home ∧
    cmdline args (fun _ => none) = some a ∧ optionFile e ".tup/options".toList = some b ∧ optionFile e home = some c ∧
    optionFile e "/etc/tup/options".toList = some d ∧
    locs = [("(command line overrides)".toList, a), (".tup/options".toList, b), (home, c), ("/etc/tup/options".toList, d)] := by
  unfold init at h
  split at h
  · cases h
  · rename_i home hh
    split at h
    · rename_i a b c d h1 h2 h3 h4
      cases h
      exact ⟨home, a, b, c, d, hh, h1, h2, h3, h4, rfl⟩
    · cases h

/-- The first location, and what the sources say. -/
theorem first_value {e : Env} {args : List Str} {home : Str} {project user system : List (Str × Str)} {locs : Locations} {opt : Str} {k : Valid}
    (hi : init e args = some locs) (hh : HomePath e home) (hp : Says e ".tup/options".toList project) (hu : Says e home user)
    (hs : Says e "/etc/tup/options".toList system) (hk : Known e opt k) (v f : Str) :
    (match firstOf opt locs with
      | some x => x = (v, f)
      | none => (∃ k, (opt, v, k) ∈ options e) ∧ f = "default values".toList) ↔
    ∃ src, Value e args project user system opt src v ∧ f = src.text home := by
  obtain ⟨home', a, b, c, d, h1, h2, h3, h4, h5, rfl⟩ := init_some hi
  rw [homeLoc_iff, h1] at hh
  cases hh
  have sane : ∀ {path r m}, Says e path r → optionFile e path = some m → Sane e r ∧ m = r.foldl (put e) fun _ => none := by
    intro path r m hsay ho
    obtain ⟨g1, g2⟩ := file_says hsay
    by_cases hsn : Sane e r
    · rw [g1 hsn] at ho
      cases ho
      exact ⟨hsn, rfl⟩
    · rw [g2 hsn] at ho
      cases ho
  obtain ⟨sp, rfl⟩ := sane hp h3
  obtain ⟨su, rfl⟩ := sane hu h4
  obtain ⟨ss, rfl⟩ := sane hs h5
  obtain ⟨a1, a2⟩ := cmdline_spec opt args a h2
  obtain ⟨b1, b2⟩ := puts_spec hk sp
  obtain ⟨c1, c2⟩ := puts_spec hk su
  obtain ⟨d1, d2⟩ := puts_spec hk ss
  have no : ∀ {α : Type} {g : α → Str → Prop} {l : List α} {v}, Last g l v → ¬ Unset g l := by
    rintro α g l v ⟨l1, x, l2, rfl, hg, _⟩ hn
    exact hn x (by simp) v hg
  simp only [firstOf]
  cases ha : a opt with
  | some w =>
    have hl := (a1 w).1 ha
    simp only [Prod.mk.injEq]
    constructor
    · rintro ⟨rfl, rfl⟩; exact ⟨.command, .command hl, rfl⟩
    · rintro ⟨src, hv, rfl⟩
      cases hv with
      | command h => rw [(a1 v).2 h] at ha; cases ha; exact ⟨rfl, rfl⟩
      | project h => exact absurd h (no hl)
      | user h => exact absurd h (no hl)
      | system h => exact absurd h (no hl)
      | default h => exact absurd h (no hl)
  | none =>
    have hna := a2.1 ha
    simp only
    cases hb : project.foldl (put e) (fun _ => none) opt with
    | some w =>
      have hl := (b1 w).1 hb
      simp only [Prod.mk.injEq]
      constructor
      · rintro ⟨rfl, rfl⟩; exact ⟨.project, .project hna hl, rfl⟩
      · rintro ⟨src, hv, rfl⟩
        cases hv with
        | command h => exact absurd hna (no h)
        | project _ h => rw [(b1 v).2 h] at hb; cases hb; exact ⟨rfl, rfl⟩
        | user _ h => exact absurd h (no hl)
        | system _ h => exact absurd h (no hl)
        | default _ h => exact absurd h (no hl)
    | none =>
      have hnb := b2.1 hb
      simp only
      cases hc : user.foldl (put e) (fun _ => none) opt with
      | some w =>
        have hl := (c1 w).1 hc
        simp only [Prod.mk.injEq]
        constructor
        · rintro ⟨rfl, rfl⟩; exact ⟨.user, .user hna hnb hl, rfl⟩
        · rintro ⟨src, hv, rfl⟩
          cases hv with
          | command h => exact absurd hna (no h)
          | project _ h => exact absurd hnb (no h)
          | user _ _ h => rw [(c1 v).2 h] at hc; cases hc; exact ⟨rfl, rfl⟩
          | system _ _ h => exact absurd h (no hl)
          | default _ _ h => exact absurd h (no hl)
      | none =>
        have hnc := c2.1 hc
        simp only
        cases hd : system.foldl (put e) (fun _ => none) opt with
        | some w =>
          have hl := (d1 w).1 hd
          simp only [Prod.mk.injEq]
          constructor
          · rintro ⟨rfl, rfl⟩; exact ⟨.system, .system hna hnb hnc hl, rfl⟩
          · rintro ⟨src, hv, rfl⟩
            cases hv with
            | command h => exact absurd hna (no h)
            | project _ h => exact absurd hnb (no h)
            | user _ _ h => exact absurd hnc (no h)
            | system _ _ _ h => rw [(d1 v).2 h] at hd; cases hd; exact ⟨rfl, rfl⟩
            | default _ _ _ h => exact absurd h (no hl)
        | none =>
          have hnd := d2.1 hd
          simp only
          constructor
          · rintro ⟨⟨k, hk⟩, rfl⟩; exact ⟨.default, .default hna hnb hnc hnd hk, rfl⟩
          · rintro ⟨src, hv, rfl⟩
            cases hv with
            | command h => exact absurd hna (no h)
            | project _ h => exact absurd hnb (no h)
            | user _ _ h => exact absurd hnc (no h)
            | system _ _ _ h => exact absurd hnd (no h)
            | default _ _ _ _ h => exact ⟨⟨_, h⟩, rfl⟩

/-- C46: the value of an option is the one of the command line; if the command line gives none, the one of the project's option file, then
the one of the user's file, then the one of the system's file, and else the default.  In each of them the last value counts. -/
theorem c46_precedence {e : Env} {args : List Str} {home : Str} {project user system : List (Str × Str)} {locs : Locations} {opt : Str} {k : Valid}
    (hi : init e args = some locs) (hh : HomePath e home) (hp : Says e ".tup/options".toList project) (hu : Says e home user)
    (hs : Says e "/etc/tup/options".toList system) (hk : Known e opt k) (v : Str) :
    getString e locs opt = some v ↔ ∃ src, Value e args project user system opt src v := by
  have key := fun f => first_value hi hh hp hu hs hk v f
  unfold getString
  cases hf : firstOf opt locs with
  | some x =>
    obtain ⟨w, f⟩ := x
    simp only [hf, Prod.mk.injEq] at key ⊢
    constructor
    · intro h
      cases h
      obtain ⟨src, h, _⟩ := (key f).1 ⟨rfl, rfl⟩
      exact ⟨src, h⟩
    · rintro ⟨src, h⟩
      obtain ⟨rfl, _⟩ := (key _).2 ⟨src, h, rfl⟩
      rfl
  | none =>
    simp only [hf] at key ⊢
    constructor
    · intro h
      cases hl : lookup opt (options e) with
      | none => rw [hl] at h; cases h
      | some x =>
        rw [hl] at h
        cases h
        obtain ⟨src, h, _⟩ := (key _).1 ⟨⟨x.2, lookup_mem hl⟩, rfl⟩
        exact ⟨src, h⟩
    · rintro ⟨src, h⟩
      obtain ⟨⟨k, hk⟩, _⟩ := (key _).2 ⟨src, h, rfl⟩
      rw [lookup_iff.2 hk]
      rfl

/-- C46: `tup options` prints, for each option, its value and where that is from. -/
theorem c46_show {e : Env} {args : List Str} {home : Str} {project user system : List (Str × Str)} {locs : Locations}
    (hi : init e args = some locs) (hh : HomePath e home) (hp : Says e ".tup/options".toList project) (hu : Says e home user)
    (hs : Says e "/etc/tup/options".toList system) (opt v f : Str) :
    (opt, v, f) ∈ show_ e locs ↔ (∃ k, Known e opt k) ∧ ∃ src, Value e args project user system opt src v ∧ f = src.text home := by
  unfold show_
  rw [List.mem_map]
  constructor
  · rintro ⟨⟨n, d, k⟩, hm, he⟩
    have hn : n = opt := by
      simp only at he
      split at he <;> exact congrArg Prod.fst he
    subst hn
    refine ⟨⟨k, d, hm⟩, (first_value hi hh hp hu hs ⟨d, hm⟩ v f).1 ?_⟩
    simp only at he
    split at he
    · rename_i w g hf
      rw [hf]
      cases he
      rfl
    · rename_i hf
      rw [hf]
      cases he
      exact ⟨⟨k, hm⟩, rfl⟩
  · rintro ⟨⟨k, d, hm⟩, hv⟩
    refine ⟨(opt, d, k), hm, ?_⟩
    have := (first_value hi hh hp hu hs ⟨d, hm⟩ v f).2 hv
    simp only
    split
    · rename_i w g hf
      rw [hf] at this
      simp only [Prod.mk.injEq] at this
      rw [this.1, this.2]
    · rename_i hf
      rw [hf] at this
      obtain ⟨⟨k', hk'⟩, rfl⟩ := this
      have := (lookup_iff.2 hk').symm.trans (lookup_iff.2 hm)
      cases this
      rfl

/-- C46: options are accepted if and only if all arguments are, and all values in the files are allowed. -/
theorem c46_accepted {e : Env} {args : List Str} {home : Str} {project user system : List (Str × Str)} (hh : HomePath e home)
    (hp : Says e ".tup/options".toList project) (hu : Says e home user) (hs : Says e "/etc/tup/options".toList system) :
    (∃ locs, init e args = some locs) ↔ (∀ a ∈ args, ¬ BadArg a) ∧ Sane e project ∧ Sane e user ∧ Sane e system := by
  have sane : ∀ {path r}, Says e path r → ((∃ m, optionFile e path = some m) ↔ Sane e r) := by
    intro path r hsay
    obtain ⟨g1, g2⟩ := file_says hsay
    constructor
    · rintro ⟨m, ho⟩
      by_cases hsn : Sane e r
      · exact hsn
      · rw [g2 hsn] at ho; cases ho
    · intro hsn; exact ⟨_, g1 hsn⟩
  constructor
  · rintro ⟨locs, hi⟩
    obtain ⟨home', a, b, c, d, h1, h2, h3, h4, h5, rfl⟩ := init_some hi
    rw [homeLoc_iff, h1] at hh
    cases hh
    refine ⟨fun x hx hb => ?_, (sane hp).1 ⟨_, h3⟩, (sane hu).1 ⟨_, h4⟩, (sane hs).1 ⟨_, h5⟩⟩
    rw [(cmdline_none args _).2 ⟨x, hx, hb⟩] at h2
    cases h2
  · rintro ⟨h1, h2, h3, h4⟩
    obtain ⟨b, hb⟩ := (sane hp).2 h2
    obtain ⟨c, hc⟩ := (sane hu).2 h3
    obtain ⟨d, hd⟩ := (sane hs).2 h4
    cases ha : cmdline args (fun _ => none) with
    | none =>
      obtain ⟨x, hx, hbad⟩ := (cmdline_none args _).1 ha
      exact absurd hbad (h1 x hx)
    | some a =>
      unfold init
      rw [homeLoc_iff.1 hh]
      simp only [ha, hb, hc, hd]
      exact ⟨_, rfl⟩

/-- C46: nothing is accepted if a file has a line that cannot be understood. -/
theorem c46_garbled {e : Env} (args : List Str) {home path : Str} (hh : HomePath e home)
    (hp : path = ".tup/options".toList ∨ path = home ∨ path = "/etc/tup/options".toList) (hg : Garbled e path) : init e args = none := by
  cases hi : init e args with
  | none => rfl
  | some locs =>
    obtain ⟨home', a, b, c, d, h1, h2, h3, h4, h5, rfl⟩ := init_some hi
    rw [homeLoc_iff, h1] at hh
    cases hh
    have := file_garbled hg
    rcases hp with rfl | rfl | rfl
    · rw [this] at h3; cases h3
    · rw [this] at h4; cases h4
    · rw [this] at h5; cases h5

/-- C46: a file whose lines are not too long says something, or has a line that cannot be understood. -/
theorem c46_readable (e : Env) (path : Str) (h : ∀ text, e.files path = some text → ∃ ls, FileLines text ls) :
    (∃ r, Says e path r) ∨ Garbled e path := by
  unfold Says Garbled
  cases hf : e.files path with
  | none => exact .inl ⟨[], rfl⟩
  | some text =>
    obtain ⟨ls, hl⟩ := h text hf
    rcases reads_or_broken [] [] ls with ⟨r, hr⟩ | hb
    · exact .inl ⟨r, ls, hl, hr⟩
    · exact .inr ⟨text, ls, rfl, hl, hb⟩

/-- C46: whatever the files contain, a value from a file is one that is allowed for its option. -/
theorem c46_valid {e : Env} {args : List Str} {locs : Locations} (hi : init e args = some locs) :
    ∀ x ∈ locs.tail, ∀ opt v, x.2 opt = some v → ∃ k, Known e opt k ∧ Allowed k v := by
  obtain ⟨home', a, b, c, d, h1, h2, h3, h4, h5, rfl⟩ := init_some hi
  intro x hx
  simp only [List.tail_cons, List.mem_cons, List.not_mem_nil, or_false] at hx
  rcases hx with rfl | rfl | rfl
  · exact file_allowed h3
  · exact file_allowed h4
  · exact file_allowed h5

/-- What the command line gives to a flag is 0 or 1. -/
theorem arg_flag {e : Env} {a opt v : Str} (h : Arg a opt v) (hk : Known e opt .flag) : v = "1".toList ∨ v = "0".toList := by
  cases h with
  | keepGoing => exact .inl rfl
  | k => exact .inl rfl
  | noKeepGoing => exact .inr rfl
  | jobs n =>
    obtain ⟨d, hd⟩ := hk
    have := lookup_iff.2 hd
    have h2 : lookup "updater.num_jobs".toList (options e) = some (e.cpus, .number) := rfl
    rw [h2] at this
    cases this
  | noSync => exact .inr rfl
  | color v _ =>
    obtain ⟨d, hd⟩ := hk
    have := lookup_iff.2 hd
    have h2 : lookup "display.color".toList (options e) = some ("auto".toList, .color) := rfl
    rw [h2] at this
    cases this

theorem default_flag {e : Env} {opt d : Str} (h : (opt, d, Valid.flag) ∈ options e) : d = "1".toList ∨ d = "0".toList := by
  unfold options at h
  simp only [List.mem_cons, Prod.mk.injEq, List.not_mem_nil, or_false] at h
  cases ht : e.tty <;> rw [ht] at h <;> simp only [reduceCtorEq, and_false, false_or, or_false, and_true] at h <;> grind

/-- C46: a flag is on or off, whatever the files contain; it is on if and only if its value is `1`, `true` or `yes`. -/
theorem c46_flag {e : Env} {args : List Str} {locs : Locations} (hi : init e args = some locs) {opt : Str} (hk : Known e opt .flag) :
    ∃ v, getString e locs opt = some v ∧
      ((v = "1".toList ∨ v = "true".toList ∨ v = "yes".toList) ∧ getFlag e locs opt = some 1 ∨
       (v = "0".toList ∨ v = "false".toList ∨ v = "no".toList) ∧ getFlag e locs opt = some 0) := by
  have hall : ∃ v, getString e locs opt = some v ∧ Allowed .flag v := by
    have hval := c46_valid hi
    obtain ⟨home', a, b, c, d, h1, h2, h3, h4, h5, rfl⟩ := init_some hi
    have bits : ∀ {v}, v = "1".toList ∨ v = "0".toList → Allowed .flag v := by
      rintro v (rfl | rfl)
      · exact .on (.inl rfl)
      · exact .off (.inl rfl)
    have same : ∀ {k}, Known e opt k → k = .flag := by
      rintro k ⟨d1, hd1⟩
      obtain ⟨d2, hd2⟩ := hk
      have := (lookup_iff.2 hd1).symm.trans (lookup_iff.2 hd2)
      cases this
      rfl
    simp only [List.tail_cons, List.forall_mem_cons] at hval
    obtain ⟨vb, vc, vd, _⟩ := hval
    unfold getString
    simp only [firstOf]
    cases ha : a opt with
    | some w =>
      obtain ⟨l1, x, l2, _, hg, _⟩ := ((cmdline_spec opt args a h2).1 w).1 ha
      exact ⟨w, rfl, bits (arg_flag hg hk)⟩
    | none =>
      simp only
      cases hb : b opt with
      | some w => obtain ⟨k, g1, g2⟩ := vb opt w hb; rw [same g1] at g2; exact ⟨w, rfl, g2⟩
      | none =>
        simp only
        cases hc : c opt with
        | some w => obtain ⟨k, g1, g2⟩ := vc opt w hc; rw [same g1] at g2; exact ⟨w, rfl, g2⟩
        | none =>
          simp only
          cases hd : d opt with
          | some w => obtain ⟨k, g1, g2⟩ := vd opt w hd; rw [same g1] at g2; exact ⟨w, rfl, g2⟩
          | none =>
            obtain ⟨w, hw⟩ := hk
            simp only [lookup_iff.2 hw]
            exact ⟨w, rfl, bits (default_flag hw)⟩
  obtain ⟨v, h1, h2⟩ := hall
  refine ⟨v, h1, ?_⟩
  unfold getFlag
  simp only [h1]
  cases h2 with
  | on h => left; refine ⟨h, ?_⟩; rcases h with rfl | rfl | rfl <;> rfl
  | off h => right; refine ⟨h, ?_⟩; rcases h with rfl | rfl | rfl <;> rfl

/-- The number that is written with these digits. -/
inductive Decimal : Str → Nat → Prop where
  | nil : Decimal [] 0
  | snoc {s n} (d : Nat) : Decimal s n → d ≤ 9 → Decimal (s ++ [Char.ofNat (48 + d)]) (10 * n + d)

theorem digits_snoc (s : Str) (hs : ∀ c ∈ s, '0' ≤ c ∧ c ≤ '9') (c : Char) (hc : '0' ≤ c ∧ c ≤ '9') (acc : Nat) :
    digits acc (s ++ [c]) = digits acc s * 10 + (c.toNat - '0'.toNat) := by
  induction s generalizing acc with
  | nil =>
    show (if '0' ≤ c ∧ c ≤ '9' then acc * 10 + (c.toNat - '0'.toNat) else acc) = _
    rw [if_pos hc]
    rfl
  | cons x s ih =>
    rw [List.cons_append, digits, if_pos (hs x List.mem_cons_self), ih fun y hy => hs y (List.mem_cons_of_mem _ hy)]
    rw [digits, if_pos (hs x List.mem_cons_self)]

theorem decimal_digit : ∀ d ∈ List.range 10, '0' ≤ Char.ofNat (48 + d) ∧ Char.ofNat (48 + d) ≤ '9' ∧ (Char.ofNat (48 + d)).toNat - '0'.toNat = d ∧
    isSpace (Char.ofNat (48 + d)) = false ∧ Char.ofNat (48 + d) ≠ '-' ∧ Char.ofNat (48 + d) ≠ '+' := by
  decide +kernel

theorem decimal_digits {s : Str} {n : Nat} (h : Decimal s n) : (∀ c ∈ s, '0' ≤ c ∧ c ≤ '9') ∧ digits 0 s = n ∧
    ∀ c, s.head? = some c → isSpace c = false ∧ c ≠ '-' ∧ c ≠ '+' := by
  induction h with
  | nil => exact ⟨fun c hc => (by cases hc), rfl, fun c hc => (by cases hc)⟩
  | @snoc s n d _ hd ih =>
    obtain ⟨i1, i2, i3⟩ := ih
    obtain ⟨d1, d2, d3, d4, d5, d6⟩ := decimal_digit d (by simp; omega)
    refine ⟨fun c hc => ?_, ?_, fun c hc => ?_⟩
    · rcases List.mem_append.1 hc with hc | hc
      · exact i1 c hc
      · rw [List.mem_singleton.1 hc]; exact ⟨d1, d2⟩
    · rw [digits_snoc s i1 _ ⟨d1, d2⟩, i2, d3]; omega
    · cases s with
      | nil => cases hc; exact ⟨d4, d5, d6⟩
      | cons x s => exact i3 c hc

/-- C46: the number of jobs is the number that is written, but at least 1 and at most 65535. -/
theorem c46_jobs {e : Env} {locs : Locations} {s : Str} {n : Nat} (h : getString e locs "updater.num_jobs".toList = some s) (hn : Decimal s n)
    (hfit : n ≤ 2147483647) : numJobs e locs = some (max 1 (min n 65535) : Nat) := by
  obtain ⟨_, d2, d3⟩ := decimal_digits hn
  have hat : atoi s = some (n : Int) := by
    have hd : s.dropWhile isSpace = s := by
      cases s with
      | nil => rfl
      | cons c s => rw [List.dropWhile_cons_of_neg (by rw [(d3 c rfl).1]; simp)]
    unfold atoi
    simp only [hd]
    split
    · exact absurd rfl (d3 _ rfl).2.1
    · exact absurd rfl (d3 _ rfl).2.2
    · rw [d2, if_pos (by omega)]
  unfold numJobs getInt
  rw [h]
  simp only [Option.bind_some, hat, Option.map_some]
  congr 1
  split
  · omega
  · split <;> omega

/-! Examples. -/

/-- A project, a user and a system that disagree. -/
def sample : Env where
  cpus := "4".toList
  width := "80".toList
  tty := true
  home := some "/home/u".toList
  files := fun p =>
    if p = ".tup/options".toList then some "; the project\n[updater]\nnum_jobs = 8 ; more\nkeep_going: yes\n".toList
    else if p = "/home/u/.tupoptions".toList then some "[display]\n color = never\n[updater]\nkeep_going=0\nnum_jobs=2".toList
    else if p = "/etc/tup/options".toList then some (bom ++ "[display]\nquiet = 1\n  0\n[other]\nx=y\n".toList)
    else none

example : (init sample ["upd".toList, "-j3".toList, "-k".toList, "--no-keep-going".toList, "-j16".toList]).map (fun l =>
    [getString sample l "updater.num_jobs".toList, getString sample l "updater.keep_going".toList, getString sample l "display.color".toList,
      getString sample l "display.quiet".toList, getString sample l "display.progress".toList, getString sample l "other.x".toList]) =
    some [some "16".toList, some "0".toList, some "never".toList, some "0".toList, some "1".toList, none] := by decide +kernel

example : (init sample []).map (fun l => [numJobs sample l, getFlag sample l "updater.keep_going".toList]) = some [some 8, some 1] := by decide +kernel

example : (init sample []).map (fun l => (show_ sample l).take 2) =
    some [("updater.num_jobs".toList, "8".toList, ".tup/options".toList), ("updater.keep_going".toList, "yes".toList, ".tup/options".toList)] := by
  decide +kernel

theorem sample_home : HomePath sample "/home/u/.tupoptions".toList := ⟨rfl, by decide⟩

theorem sample_project : Says sample ".tup/options".toList [("updater.num_jobs".toList, "8".toList), ("updater.keep_going".toList, "yes".toList)] := by
  refine ⟨["; the project".toList, "[updater]".toList, "num_jobs = 8 ; more".toList, "keep_going: yes".toList], .plain ?_ (by unfold Fits; decide +kernel) (by decide +kernel), ?_⟩
  · exact .cons (l := "; the project".toList) (by decide) (.cons (l := "[updater]".toList) (by decide) (.cons (l := "num_jobs = 8 ; more".toList) (by decide)
      (.cons (l := "keep_going: yes".toList) (by decide) .nil)))
  · refine .skip (lineIs_iff.2 (by decide +kernel)) ?_
    refine .sect (s := "updater".toList) (lineIs_iff.2 (by decide +kernel)) ?_
    refine .setting (n := "num_jobs".toList) (lineIs_iff.2 (by decide +kernel)) ?_
    exact .setting (n := "keep_going".toList) (lineIs_iff.2 (by decide +kernel)) .nil

theorem sample_user : Says sample "/home/u/.tupoptions".toList [("display.color".toList, "never".toList), ("updater.keep_going".toList, "0".toList),
    ("updater.num_jobs".toList, "2".toList)] := by
  refine ⟨["[display]".toList, " color = never".toList, "[updater]".toList, "keep_going=0".toList, "num_jobs=2".toList], .plain ?_ (by unfold Fits; decide +kernel) (by decide +kernel), ?_⟩
  · exact .cons (l := "[display]".toList) (by decide) (.cons (l := " color = never".toList) (by decide) (.cons (l := "[updater]".toList) (by decide)
      (.cons (l := "keep_going=0".toList) (by decide) (.last (l := "num_jobs=2".toList) (by decide) (by decide)))))
  · refine .sect (s := "display".toList) (lineIs_iff.2 (by decide +kernel)) ?_
    refine .setting (n := "color".toList) (lineIs_iff.2 (by decide +kernel)) ?_
    refine .sect (s := "updater".toList) (lineIs_iff.2 (by decide +kernel)) ?_
    refine .setting (n := "keep_going".toList) (lineIs_iff.2 (by decide +kernel)) ?_
    exact .setting (n := "num_jobs".toList) (lineIs_iff.2 (by decide +kernel)) .nil

theorem sample_system : Says sample "/etc/tup/options".toList [("display.quiet".toList, "1".toList), ("display.quiet".toList, "0".toList),
    ("other.x".toList, "y".toList)] := by
  refine ⟨["[display]".toList, "quiet = 1".toList, "  0".toList, "[other]".toList, "x=y".toList], .bom ?_ (by unfold Fits; decide +kernel) (by decide +kernel), ?_⟩
  · exact .cons (l := "[display]".toList) (by decide) (.cons (l := "quiet = 1".toList) (by decide) (.cons (l := "  0".toList) (by decide)
      (.cons (l := "[other]".toList) (by decide) (.cons (l := "x=y".toList) (by decide) .nil))))
  · refine .sect (s := "display".toList) (lineIs_iff.2 (by decide +kernel)) ?_
    refine .setting (n := "quiet".toList) (lineIs_iff.2 (by decide +kernel)) ?_
    refine .more (prev := "quiet".toList) (lineIs_iff.2 (by decide +kernel)) ?_
    refine .sect (s := "other".toList) (lineIs_iff.2 (by decide +kernel)) ?_
    exact .setting (n := "x".toList) (lineIs_iff.2 (by decide +kernel)) .nil

/-- The hypotheses of `c46_precedence` and `c46_show` hold for it: the options are accepted. -/
example : ∃ locs, init sample ["-j3".toList] = some locs :=
  (c46_accepted sample_home sample_project sample_user sample_system).2 ⟨fun a ha hb => (by
    rw [List.mem_singleton.1 ha, badArg_iff] at hb
    cases hb), fun x hx => (by
    simp only [List.mem_cons, List.not_mem_nil, or_false] at hx
    rcases hx with rfl | rfl <;> exact fine_iff.1 (by decide +kernel)), fun x hx => (by
    simp only [List.mem_cons, List.not_mem_nil, or_false] at hx
    rcases hx with rfl | rfl | rfl <;> exact fine_iff.1 (by decide +kernel)), fun x hx => (by
    simp only [List.mem_cons, List.not_mem_nil, or_false] at hx
    rcases hx with rfl | rfl | rfl <;> exact fine_iff.1 (by decide +kernel))⟩

example : Known sample "updater.num_jobs".toList .number := ⟨_, lookup_iff.1 (by rfl)⟩

example : Known sample "updater.keep_going".toList .flag := ⟨_, lookup_iff.1 (by rfl)⟩

/-- A file with a line that is no setting, and one with a value that is not allowed. -/
example : (init { sample with files := fun p => if p = ".tup/options".toList then some "[updater]\nnum_jobs\n".toList else none } []).isNone = true ∧
    (init { sample with files := fun p => if p = ".tup/options".toList then some "[updater]\nkeep_going=maybe\n".toList else none } []).isNone = true ∧
    (init sample ["--display-color".toList]).isNone = true ∧ (init sample ["--display-color=red".toList]).isNone = true := by decide +kernel

example : Garbled { sample with files := fun p => if p = ".tup/options".toList then some "[updater]\nnum_jobs\n".toList else none } ".tup/options".toList := by
  refine ⟨_, ["[updater]".toList, "num_jobs".toList], rfl, .plain ?_ (by unfold Fits; decide +kernel) (by decide +kernel), ?_⟩
  · exact .cons (l := "[updater]".toList) (by decide) (.cons (l := "num_jobs".toList) (by decide) .nil)
  · refine .sect (s := "updater".toList) (lineIs_iff.2 (by decide +kernel)) ?_
    exact .here (lineIs_iff.2 (by decide +kernel))

example : Decimal "70000".toList 70000 := .snoc 0 (.snoc 0 (.snoc 0 (.snoc 0 (.snoc 7 .nil (by decide)) (by decide)) (by decide)) (by decide)) (by decide)

example : (init sample ["-j70000".toList]).map (numJobs sample) = some (some 65535) := by decide +kernel

/-! What does not hold. -/

/-- Long lines are cut into pieces, and the rest of a comment is a setting. -/
theorem c46_false_for_long_lines : ∃ e : Env, ∃ text : Str, e.files ".tup/options".toList = some text ∧
    text = "[updater]\n".toList ++ (List.replicate 199 '#' ++ "keep_going=1\n".toList) ∧
    (init e []).map (fun l => getString e l "updater.keep_going".toList) = some (some "1".toList) := by
  refine ⟨{ sample with files := fun p => if p = ".tup/options".toList then some ("[updater]\n".toList ++ (List.replicate 199 '#' ++ "keep_going=1\n".toList)) else none },
    _, rfl, rfl, ?_⟩
  decide +kernel

/-- The number of jobs of the command line is not validated, as the one of a file is. -/
theorem c46_false_for_jobs : (init sample ["-junk".toList]).map (numJobs sample) = some (some 1) ∧
    (init { sample with files := fun p => if p = ".tup/options".toList then some "[updater]\nnum_jobs=unk\n".toList else none } []).isNone = true := by
  decide +kernel

/-- A number of jobs that is no `int` is accepted, and it is undefined what it is. -/
theorem c46_false_for_numbers : (init sample ["-j4294967297".toList]).map (numJobs sample) = some none ∧
    (init { sample with files := fun p => if p = ".tup/options".toList then some "[updater]\nnum_jobs=4294967297\n".toList else none } []).map (numJobs sample) = some none := by
  decide +kernel

/-- Arguments after `--` are options too. -/
theorem c46_false_for_dashes : (init sample ["--".toList, "-k".toList]).map (fun l => getString sample l "updater.keep_going".toList) = some (some "1".toList) ∧
    (init { sample with files := fun _ => none } ["--".toList]).map (fun l => getString sample l "updater.keep_going".toList) = some (some "0".toList) := by
  decide +kernel

end Tup.Options
