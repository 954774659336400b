import Verif.Include.Lemmas

/-! The program does what `Runs` says, and conversely; what it reads decides what it does. -/

namespace Tup.Include

open Pel (Name)

variable {σ : Type} {w : World} {sem : Meaning σ}

theorem isDir_dropLast (hw : Proper w) {p : Path} (hp : p ≠ []) (hn : w.node p ≠ none) : IsDir w p.dropLast := by
  intro k
  refine hw.leaf _ (p.drop (min k (p.length - 1))) ?_ ?_
  · have : 0 < p.length := List.length_pos_iff.2 hp
    intro hx
    have := List.drop_eq_nil_iff.1 hx
    omega
  · have : (p.dropLast).take k = p.take (min k (p.length - 1)) := by
      rw [List.dropLast_eq_take, List.take_take]
    rw [this, List.take_append_drop]
    exact hn

theorem isDir_take {d : Path} (h : IsDir w d) (k : Nat) : IsDir w (d.take k) := by
  intro j
  rw [List.take_take]
  exact h _

theorem locate_ne {cur d p : Path} {file : Str} (h : locate w cur file = some (d, p)) : p ≠ [] := by
  unfold locate at h
  split at h
  · cases h
  · split at h
    · cases h
    · split at h
      · cases h
      · split at h
        · cases h
        · split at h
          · cases h
          · split at h
            · cases h
            · cases h
              simp

def Sound (w : World) (sem : Meaning σ) (inc : Str → St σ → Option (St σ)) : Prop :=
  ∀ file st st', IsDir w st.cur → inc file st = some st' → st'.cur = st.cur ∧ st'.inRules = st.inRules ∧ ∃ p t, Target w st.cur file p ∧ w.node p ≠ none ∧ w.text p = some t ∧
    Runs w sem st.inRules p.dropLast (.prog (sem (isLua file) t p.dropLast st.user)) st'.user

theorem rulesLoop_sound {inc : Str → St σ → Option (St σ)} (hi : Sound w sem inc) {name : Str} (hname : Name name) : ∀ (n : Nat) (st st' : St σ), IsDir w st.cur → st.inRules = true →
    n ≤ st.cur.length + 1 → rulesLoop w inc name n st = some st' →
    st'.cur = st.cur ∧ st'.inRules = true ∧ Runs w sem true st.cur (.each name ((List.range' (st.cur.length + 1 - n) n).map st.cur.take) st.user) st'.user := by
  intro n
  induction n with
  | zero =>
    intro st st' _ hr _ h
    cases h
    exact ⟨rfl, hr, .done⟩
  | succ n ih =>
    intro st st' hd hr hn h
    simp only [rulesLoop] at h
    have hlist : List.range' (st.cur.length + 1 - (n + 1)) (n + 1) = (st.cur.length - n) :: List.range' (st.cur.length + 1 - n) n := by
      rw [List.range'_succ, show st.cur.length + 1 - (n + 1) = st.cur.length - n by omega, show st.cur.length - n + 1 = st.cur.length + 1 - n by omega]
    rw [hlist, List.map_cons]
    split at h
    · rename_i ht
      split at h
      · cases h
      · rename_i st1 h1
        obtain ⟨e1, e2, p, t, e3, e4, e5, e6⟩ := hi _ _ _ (by exact hd) h1
        simp only at e1 e2 e3 e6
        obtain ⟨e7, e8, e9⟩ := ih st1 st' (by rw [e1]; exact hd) (by rw [e2]; exact hr) (by rw [e1]; omega) h
        rw [e1] at e7 e9
        refine ⟨e7, e8, ?_⟩
        rw [rules_target hname (by omega)] at e3
        subst e3
        rw [List.dropLast_concat, hr, isLua_rulesPath] at e6
        exact .take e5 e4 e6 e9
    · rename_i ht
      have ht : w.text (st.cur.take (st.cur.length - n) ++ [name]) = none := by
        cases hx : w.text (st.cur.take (st.cur.length - n) ++ [name]) with
        | none => rfl
        | some t => rw [hx] at ht; exact absurd rfl ht
      obtain ⟨e7, e8, e9⟩ := ih _ st' (by exact hd) (by exact hr) (by simp only; omega) h
      exact ⟨e7, e8, .skip ht e9⟩

theorem includeRules_sound {inc : Str → St σ → Option (St σ)} (hi : Sound w sem inc) {name : Str} (hname : Name name) {st st' : St σ} (hd : IsDir w st.cur)
    (h : includeRules w inc name st = some st') :
    st.inRules = false ∧ st'.cur = st.cur ∧ st'.inRules = false ∧ Runs w sem true st.cur (.each name ((List.range (st.cur.length + 1)).map st.cur.take) st.user) st'.user := by
  unfold includeRules at h
  split at h
  · cases h
  · rename_i hb
    split at h
    · cases h
    · rename_i st1 h1
      cases h
      obtain ⟨e1, e2, e3⟩ := rulesLoop_sound hi hname _ _ _ (by exact hd) rfl (by exact Nat.le_refl _) h1
      simp only [Nat.sub_self] at e3
      rw [← List.range_eq_range'] at e3
      exact ⟨by simpa using hb, e1, rfl, e3⟩

theorem tuprules_name : Name "Tuprules.tup".toList := ⟨by decide, by decide, by decide, by decide⟩
theorem tuprules_lua_name : Name "Tuprules.lua".toList := ⟨by decide, by decide, by decide, by decide⟩

theorem exec_sound {inc : Str → St σ → Option (St σ)} (hi : Sound w sem inc) : ∀ (pr : Prog σ) (st st' : St σ), IsDir w st.cur → exec w inc pr st = some st' →
    st'.cur = st.cur ∧ st'.inRules = st.inRules ∧ Runs w sem st.inRules st.cur (.prog pr) st'.user := by
  intro pr
  induction pr with
  | ret s =>
    intro st st' _ h
    cases h
    exact ⟨rfl, rfl, .ret⟩
  | fail =>
    intro st st' _ h
    cases h
  | incl s file k ih =>
    intro st st' hd h
    simp only [exec] at h
    split at h
    · cases h
    · rename_i st1 h1
      obtain ⟨e1, e2, p, t, e3, e4, e5, e6⟩ := hi _ _ _ (by exact hd) h1
      simp only at e1 e2 e3 e6
      obtain ⟨f1, f2, f3⟩ := ih st1.user st1 st' (by rw [e1]; exact hd) h
      rw [e1] at f1 f3
      rw [e2] at f2 f3
      exact ⟨f1, f2, .incl e3 e4 e5 e6 f3⟩
  | rules s k ih =>
    intro st st' hd h
    simp only [exec] at h
    split at h
    · cases h
    · rename_i st1 h1
      obtain ⟨e0, e1, e2, e3⟩ := includeRules_sound hi tuprules_name (by exact hd) h1
      simp only at e0 e1 e3
      obtain ⟨f1, f2, f3⟩ := ih st1.user st1 st' (by rw [e1]; exact hd) h
      rw [e1] at f1 f3
      rw [e2] at f2 f3
      rw [e0]
      exact ⟨f1, f2, .rules e3 f3⟩

theorem includeFile_sound (hw : Proper w) : ∀ n, Sound w sem (includeFile w sem n) := by
  intro n
  induction n with
  | zero =>
    intro file st st' _ h
    cases h
  | succ n ih =>
    intro file st st' hd h
    simp only [includeFile] at h
    split at h
    · cases h
    · rename_i d p hl
      split at h
      · cases h
      · rename_i t ht
        split at h
        · cases h
        · rename_i st1 h1
          cases h
          obtain ⟨g1, g2, g3⟩ := (locate_iff hw hd ht).1 hl
          subst g3
          obtain ⟨_, e2, e3⟩ := exec_sound ih _ _ _ (by exact isDir_dropLast hw (locate_ne hl) g2) h1
          simp only at e2 e3
          exact ⟨rfl, e2, p, t, g1, g2, ht, e3⟩

/-- What the program must be able to do, if there are descriptors for `m` files. -/
def Done (w : World) (sem : Meaning σ) (b : Bool) (cur : Path) (s' : σ) (m : Nat) : Task σ → Prop
  | .prog pr => ∀ reads u, ∃ reads', exec w (includeFile w sem m) pr ⟨cur, b, reads, u⟩ = some ⟨cur, b, reads', s'⟩
  | .each name ds s => Name name → ∀ k, k ≤ cur.length + 1 → ds = (List.range' (cur.length + 1 - k) k).map cur.take →
      ∀ reads, ∃ reads', rulesLoop w (includeFile w sem m) name k ⟨cur, true, reads, s⟩ = some ⟨cur, true, reads', s'⟩

theorem includeFile_of (hw : Proper w) {cur p : Path} {b : Bool} {s s1 : σ} {file t : Str} {m : Nat} (hd : IsDir w cur) (ht : w.text p = some t) (hT : Target w cur file p)
    (hn : w.node p ≠ none) (h : Done w sem b p.dropLast s1 m (.prog (sem (isLua file) t p.dropLast s))) (reads : List Path) :
    ∃ reads', includeFile w sem (m + 1) file ⟨cur, b, reads, s⟩ = some ⟨cur, b, reads', s1⟩ := by
  obtain ⟨reads', h1⟩ := h (reads ++ [p]) s
  refine ⟨reads', ?_⟩
  simp only [includeFile]
  rw [(locate_iff hw hd ht).2 ⟨hT, hn, rfl⟩]
  simp only
  rw [ht]
  simp only
  rw [h1]

theorem ne_nil_of {cur p : Path} {t : Str} (hd : IsDir w cur) (ht : w.text p = some t) : p ≠ [] := by
  rintro rfl
  have := hd 0
  rw [List.take_zero, ht] at this
  cases this

theorem runs_done (hw : Proper w) {b : Bool} {cur : Path} {task : Task σ} {s' : σ} (h : Runs w sem b cur task s') : IsDir w cur → ∃ n, ∀ m, n ≤ m → Done w sem b cur s' m task := by
  induction h with
  | ret =>
    intro _
    exact ⟨0, fun m _ reads u => ⟨reads, rfl⟩⟩
  | @incl b cur s file k p t s1 s2 h1 h2 h3 _ _ ih1 ih2 =>
    intro hd
    obtain ⟨n1, e1⟩ := ih1 (isDir_dropLast hw (ne_nil_of hd h3) h2)
    obtain ⟨n2, e2⟩ := ih2 hd
    refine ⟨max (n1 + 1) n2, fun m hm reads u => ?_⟩
    obtain ⟨m, rfl⟩ : ∃ j, m = j + 1 := ⟨m - 1, by omega⟩
    obtain ⟨r1, f1⟩ := includeFile_of hw hd h3 h1 h2 (e1 m (by omega)) reads
    obtain ⟨r2, f2⟩ := e2 (m + 1) (by omega) r1 s1
    refine ⟨r2, ?_⟩
    simp only [exec]
    rw [f1]
    exact f2
  | @rules cur s k s1 s2 _ _ ih1 ih2 =>
    intro hd
    obtain ⟨n1, e1⟩ := ih1 hd
    obtain ⟨n2, e2⟩ := ih2 hd
    refine ⟨max n1 n2, fun m hm reads u => ?_⟩
    obtain ⟨r1, f1⟩ := e1 m (by omega) tuprules_name (cur.length + 1) (Nat.le_refl _) (by rw [Nat.sub_self, List.range_eq_range']) reads
    obtain ⟨r2, f2⟩ := e2 m (by omega) r1 s1
    refine ⟨r2, ?_⟩
    simp only [exec, includeRules, Bool.false_eq_true, if_false]
    rw [f1]
    exact f2
  | @done cur name s =>
    intro _
    refine ⟨0, fun m _ _ k _ hk reads => ⟨reads, ?_⟩⟩
    have : k = 0 := by
      have := congrArg List.length hk
      simpa using this.symm
    subst this
    rfl
  | @skip cur name d ds s s1 h1 _ ih =>
    intro hd
    obtain ⟨n, e⟩ := ih hd
    refine ⟨n, fun m hm hname k hk hds reads => ?_⟩
    obtain ⟨k, rfl⟩ : ∃ j, k = j + 1 := by
      cases k with
      | zero => simp at hds
      | succ k => exact ⟨k, rfl⟩
    rw [List.range'_succ, List.map_cons] at hds
    obtain ⟨hd1, hds⟩ := List.cons.inj hds
    obtain ⟨r, f⟩ := e m hm hname k (by omega) (by rw [hds]; congr 2; omega) (reads ++ [d ++ [name]])
    refine ⟨r, ?_⟩
    have hdd : cur.take (cur.length - k) = d := by rw [hd1]; congr 1; omega
    simp only [rulesLoop]
    rw [hdd, h1]
    exact f
  | @take cur name d ds s t s1 s2 h1 h2 _ _ ih1 ih2 =>
    intro hd
    have hdir : IsDir w d := by
      have := isDir_dropLast hw (p := d ++ [name]) (by simp) h2
      rwa [List.dropLast_concat] at this
    obtain ⟨n1, e1⟩ := ih1 hdir
    obtain ⟨n2, e2⟩ := ih2 hd
    refine ⟨max (n1 + 1) n2, fun m hm hname k hk hds reads => ?_⟩
    obtain ⟨k, rfl⟩ : ∃ j, k = j + 1 := by
      cases k with
      | zero => simp at hds
      | succ k => exact ⟨k, rfl⟩
    rw [List.range'_succ, List.map_cons] at hds
    obtain ⟨hd1, hds⟩ := List.cons.inj hds
    have hdd : cur.take (cur.length - k) = d := by rw [hd1]; congr 1; omega
    obtain ⟨m, rfl⟩ : ∃ j, m = j + 1 := ⟨m - 1, by omega⟩
    obtain ⟨r1, f1⟩ := includeFile_of (file := rulesPath k name) (p := d ++ [name]) (b := true) (s := s) (s1 := s1) (m := m) hw hd h1
      ((rules_target hname (by omega)).2 (by rw [hdd])) h2 (by rw [List.dropLast_concat, isLua_rulesPath]; exact e1 m (by omega)) (reads ++ [d ++ [name]])
    obtain ⟨r2, f2⟩ := e2 (m + 1) (by omega) hname k (by omega) (by rw [hds]; congr 2; omega) r1
    refine ⟨r2, ?_⟩
    simp only [rulesLoop]
    rw [hdd, h1]
    simp only [Option.isSome_some, if_true]
    rw [f1]
    exact f2

/-! What is read. -/

def Mono (inc : Str → St σ → Option (St σ)) : Prop := ∀ file st st', inc file st = some st' → st.reads ⊆ st'.reads

theorem rulesLoop_mono {inc : Str → St σ → Option (St σ)} (hi : Mono inc) {name : Str} : ∀ (n : Nat) (st st' : St σ), rulesLoop w inc name n st = some st' → st.reads ⊆ st'.reads := by
  intro n
  induction n with
  | zero => intro st st' h; cases h; exact fun _ h => h
  | succ n ih =>
    intro st st' h
    simp only [rulesLoop] at h
    have hsub : st.reads ⊆ st.reads ++ [st.cur.take (st.cur.length - n) ++ [name]] := List.subset_append_left _ _
    split at h
    · split at h
      · cases h
      · rename_i st1 h1
        exact fun x hx => ih _ _ h (hi _ _ _ h1 (hsub hx))
    · exact fun x hx => ih _ _ h (hsub hx)

theorem includeRules_mono {inc : Str → St σ → Option (St σ)} (hi : Mono inc) {name : Str} {st st' : St σ} (h : includeRules w inc name st = some st') : st.reads ⊆ st'.reads := by
  unfold includeRules at h
  split at h
  · cases h
  · split at h
    · cases h
    · rename_i st1 h1
      cases h
      have := rulesLoop_mono hi _ _ _ h1
      exact this

theorem exec_mono {inc : Str → St σ → Option (St σ)} (hi : Mono inc) : ∀ (pr : Prog σ) (st st' : St σ), exec w inc pr st = some st' → st.reads ⊆ st'.reads := by
  intro pr
  induction pr with
  | ret s => intro st st' h; cases h; exact fun _ h => h
  | fail => intro st st' h; cases h
  | incl s file k ih =>
    intro st st' h
    simp only [exec] at h
    split at h
    · cases h
    · rename_i st1 h1
      exact fun x hx => ih _ _ _ h (hi _ _ _ h1 hx)
  | rules s k ih =>
    intro st st' h
    simp only [exec] at h
    split at h
    · cases h
    · rename_i st1 h1
      exact fun x hx => ih _ _ _ h (includeRules_mono hi h1 hx)

theorem includeFile_mono : ∀ n, Mono (includeFile w sem n) := by
  intro n
  induction n with
  | zero => intro file st st' h; cases h
  | succ n ih =>
    intro file st st' h
    simp only [includeFile] at h
    split at h
    · cases h
    · split at h
      · cases h
      · split at h
        · cases h
        · rename_i st1 h1
          cases h
          exact fun x hx => exec_mono ih _ _ _ h1 (List.mem_append_left _ hx)

theorem agree_sub {w w' : World} {a b : List Path} (h : Agree w w' b) (hs : a ⊆ b) : Agree w w' a := ⟨h.1, fun p hp => h.2 p (hs hp)⟩

def Same (w w' : World) (inc inc' : Str → St σ → Option (St σ)) : Prop := ∀ file st st', inc file st = some st' → Agree w w' st'.reads → inc' file st = some st'

theorem rulesLoop_same {w' : World} {inc inc' : Str → St σ → Option (St σ)} (hm : Mono inc) (hi : Same w w' inc inc') {name : Str} : ∀ (n : Nat) (st st' : St σ),
    rulesLoop w inc name n st = some st' → Agree w w' st'.reads → rulesLoop w' inc' name n st = some st' := by
  intro n
  induction n with
  | zero => intro st st' h _; exact h
  | succ n ih =>
    intro st st' h ha
    have hp : w.text (st.cur.take (st.cur.length - n) ++ [name]) = w'.text (st.cur.take (st.cur.length - n) ++ [name]) := by
      refine (ha.2 _ ?_).2
      simp only [rulesLoop] at h
      split at h
      · split at h
        · cases h
        · rename_i st1 h1
          exact rulesLoop_mono hm _ _ _ h (hm _ _ _ h1 (List.mem_append_right _ List.mem_cons_self))
      · exact rulesLoop_mono hm _ _ _ h (List.mem_append_right _ List.mem_cons_self)
    simp only [rulesLoop] at h ⊢
    rw [← hp]
    split at h
    · rename_i ht
      rw [if_pos ht]
      split at h
      · cases h
      · rename_i st1 h1
        rw [hi _ _ _ h1 (agree_sub ha (rulesLoop_mono hm _ _ _ h))]
        exact ih _ _ h ha
    · rename_i ht
      rw [if_neg ht]
      exact ih _ _ h ha

theorem includeRules_same {w' : World} {inc inc' : Str → St σ → Option (St σ)} (hm : Mono inc) (hi : Same w w' inc inc') {name : Str} {st st' : St σ}
    (h : includeRules w inc name st = some st') (ha : Agree w w' st'.reads) : includeRules w' inc' name st = some st' := by
  unfold includeRules at h ⊢
  split at h
  · cases h
  · rename_i hb
    rw [if_neg hb]
    split at h
    · cases h
    · rename_i st1 h1
      cases h
      rw [rulesLoop_same hm hi _ _ _ h1 ha]

theorem exec_same {w' : World} {inc inc' : Str → St σ → Option (St σ)} (hm : Mono inc) (hi : Same w w' inc inc') : ∀ (pr : Prog σ) (st st' : St σ),
    exec w inc pr st = some st' → Agree w w' st'.reads → exec w' inc' pr st = some st' := by
  intro pr
  induction pr with
  | ret s => intro st st' h _; exact h
  | fail => intro st st' h; cases h
  | incl s file k ih =>
    intro st st' h ha
    simp only [exec] at h ⊢
    split at h
    · cases h
    · rename_i st1 h1
      rw [hi _ _ _ h1 (agree_sub ha (exec_mono hm _ _ _ h))]
      exact ih _ _ _ h ha
  | rules s k ih =>
    intro st st' h ha
    simp only [exec] at h ⊢
    split at h
    · cases h
    · rename_i st1 h1
      rw [includeRules_same hm hi h1 (agree_sub ha (exec_mono hm _ _ _ h))]
      exact ih _ _ _ h ha

theorem includeFile_same {w' : World} (hw : Proper w) (hw' : Proper w') : ∀ n, Same w w' (includeFile w sem n) (includeFile w' sem n) := by
  intro n
  induction n with
  | zero => intro file st st' h; cases h
  | succ n ih =>
    intro file st st' h ha
    simp only [includeFile] at h ⊢
    split at h
    · cases h
    · rename_i d p hl
      split at h
      · cases h
      · rename_i t ht
        split at h
        · cases h
        · rename_i st1 h1
          cases h
          have hp := ha.2 p (exec_mono (includeFile_mono n) _ _ _ h1 (List.mem_append_right _ List.mem_cons_self))
          rw [locate_agree hw hw' ha.1 hl hp.1]
          simp only
          rw [← hp.2, ht]
          simp only
          rw [exec_same (includeFile_mono n) ih _ _ _ h1 ha]

/-! The choice of the file. -/

theorem there_iff {p : Path} : there w p = true ↔ Exists w p := by
  unfold there Exists
  rw [Bool.and_eq_true, decide_eq_true_iff, Option.isSome_iff_exists]

/-- The search through a list of candidates. -/
def search (w : World) : List (Path × Bool) → List Path × Option (Path × Bool)
  | [] => ([], none)
  | c :: l => if there w c.1 then ([c.1], some c) else match search w l with | (reads, r) => (c.1 :: reads, r)

theorem search_some {l : List (Path × Bool)} {reads : List Path} {c : Path × Bool} (h : search w l = (reads, some c)) :
    ∃ pre post, l = pre ++ c :: post ∧ Exists w c.1 ∧ (∀ q ∈ pre, ¬ Exists w q.1) ∧ reads = pre.map Prod.fst ++ [c.1] := by
  induction l generalizing reads with
  | nil => cases h
  | cons a l ih =>
    simp only [search] at h
    split at h
    · rename_i ht
      cases h
      exact ⟨[], l, rfl, there_iff.1 ht, (fun q hq => by cases hq), rfl⟩
    · rename_i ht
      generalize hs : search w l = s at h
      obtain ⟨rs, r⟩ := s
      simp only at h
      obtain ⟨h1, h2⟩ := Prod.mk.inj h
      subst h1 h2
      obtain ⟨pre, post, e1, e2, e3, e4⟩ := ih hs
      refine ⟨a :: pre, post, by rw [e1]; rfl, e2, ?_, by rw [e4]; rfl⟩
      intro q hq
      rcases List.mem_cons.1 hq with rfl | hq
      · exact fun hx => ht (there_iff.2 hx)
      · exact e3 q hq

theorem search_none {l : List (Path × Bool)} {reads : List Path} (h : search w l = (reads, none)) : (∀ q ∈ l, ¬ Exists w q.1) ∧ reads = l.map Prod.fst := by
  induction l generalizing reads with
  | nil => cases h; exact ⟨fun q hq => (by cases hq), rfl⟩
  | cons a l ih =>
    simp only [search] at h
    split at h
    · cases h
    · rename_i ht
      generalize hs : search w l = s at h
      obtain ⟨rs, r⟩ := s
      simp only at h
      obtain ⟨h1, h2⟩ := Prod.mk.inj h
      subst h1 h2
      obtain ⟨e1, e2⟩ := ih hs
      refine ⟨?_, by rw [e2]; rfl⟩
      intro q hq
      rcases List.mem_cons.1 hq with rfl | hq
      · exact fun hx => ht (there_iff.2 hx)
      · exact e1 q hq

theorem search_same {w' : World} {l : List (Path × Bool)} (ha : ∀ p ∈ (search w l).1, w.node p = w'.node p ∧ w.text p = w'.text p) : search w' l = search w l := by
  induction l with
  | nil => rfl
  | cons a l ih =>
    simp only [search] at ha ⊢
    have hmem : a.1 ∈ (if there w a.1 = true then ([a.1], some a) else match search w l with | (reads, r) => (a.1 :: reads, r)).1 := by
      split
      · exact List.mem_cons_self
      · exact List.mem_cons_self
    have h1 := ha _ hmem
    have h2 : there w' a.1 = there w a.1 := by unfold there; rw [h1.1, h1.2]
    rw [h2]
    split
    · rfl
    · rename_i ht
      rw [if_neg ht] at ha
      rw [ih (fun p hp => ha p (List.mem_cons_of_mem _ hp))]

def defaultCands (dirs : List Path) : List (Path × Bool) := dirs.flatMap fun d => [(d ++ ["Tupdefault".toList], false), (d ++ ["Tupdefault.lua".toList], true)]

theorem defaults_search (d : List Str) : defaults w d = search w (defaultCands ((List.range (d.length + 1)).reverse.map d.reverse.take)) := by
  induction d with
  | nil =>
    show _ = search w [([] ++ ["Tupdefault".toList], false), ([] ++ ["Tupdefault.lua".toList], true)]
    simp only [defaults, search, List.nil_append]
    split
    · rfl
    · split <;> rfl
  | cons n d ih =>
    have hl : (List.range ((n :: d).length + 1)).reverse.map (n :: d).reverse.take = (n :: d).reverse :: (List.range (d.length + 1)).reverse.map d.reverse.take := by
      rw [List.range_succ, List.reverse_append, List.reverse_singleton, List.map_append]
      simp only [List.map_cons, List.map_nil, List.singleton_append]
      congr 1
      · rw [List.take_of_length_le (by simp)]
      · refine List.map_congr_left fun k hk => ?_
        have : k < d.length + 1 := by
          rw [List.mem_reverse, List.mem_range] at hk
          simpa using hk
        rw [List.reverse_cons, List.take_append_of_le_length (by simp; omega)]
    rw [hl]
    unfold defaultCands
    rw [List.flatMap_cons]
    simp only [List.cons_append, List.nil_append, search, defaults]
    rw [ih]
    unfold defaultCands
    split
    · rfl
    · split
      · rfl
      · rfl

theorem openTupfile_search (dir : Path) : openTupfile w dir = search w (candidates dir) := by
  unfold openTupfile candidates
  simp only [List.cons_append, List.nil_append, search]
  rw [defaults_search, List.length_reverse, List.reverse_reverse]
  unfold defaultCands
  split
  · rfl
  · split
    · rfl
    · rfl

theorem first_unique {dir p p' : Path} {b b' : Bool} (h : First w dir p b) (h' : First w dir p' b') : p = p' ∧ b = b' := by
  obtain ⟨pre, post, h1, h2, h3⟩ := h
  obtain ⟨pre', post', h1', h2', h3'⟩ := h'
  rw [h1] at h1'
  rcases List.append_eq_append_iff.1 h1' with ⟨a, e1, e2⟩ | ⟨a, e1, e2⟩
  · cases a with
    | nil => simp only [List.nil_append] at e2; cases e2; exact ⟨rfl, rfl⟩
    | cons x a =>
      cases e2
      exact absurd h2 (h3' (p, b) (by rw [e1]; simp))
  · cases a with
    | nil => simp only [List.nil_append] at e2; cases e2; exact ⟨rfl, rfl⟩
    | cons x a =>
      cases e2
      exact absurd h2' (h3 (p', b') (by rw [e1]; simp))

theorem open_first {dir p : Path} {b : Bool} (h : First w dir p b) : ∃ reads, openTupfile w dir = (reads, some (p, b)) := by
  rw [openTupfile_search]
  generalize hs : search w (candidates dir) = s
  obtain ⟨reads, r⟩ := s
  cases r with
  | none =>
    obtain ⟨h1, _⟩ := search_none hs
    obtain ⟨pre, post, e1, e2, _⟩ := h
    exact absurd e2 (h1 (p, b) (by rw [e1]; simp))
  | some c =>
    obtain ⟨pre, post, e1, e2, e3, _⟩ := search_some hs
    obtain ⟨f1, f2⟩ := first_unique h ⟨pre, post, e1, e2, e3⟩
    exact ⟨reads, by rw [f1, f2]⟩

theorem open_none {dir : Path} (h : ∀ q ∈ candidates dir, ¬ Exists w q.1) : ∃ reads, openTupfile w dir = (reads, none) := by
  rw [openTupfile_search]
  generalize hs : search w (candidates dir) = s
  obtain ⟨reads, r⟩ := s
  cases r with
  | none => exact ⟨reads, rfl⟩
  | some c =>
    obtain ⟨pre, post, e1, e2, e3, _⟩ := search_some hs
    exact absurd e2 (h c (by rw [e1]; simp))

end Tup.Include
