import Verif.Generate.Lemmas

/-! Helpers for C72: the parts of the script. -/

namespace Tup.Generate

open Tup.Pel (Name text)
open Tup.Relative (Table Place Proper relative)

/-! ### Directories that tup makes -/

/-- A directory and those above it, as long as tup makes them. -/
inductive Up (E : Env) : Nat → Nat → Prop
  | here {d} : E.genDir d = true → Up E d d
  | up {d x p m} : Up E d x → E.tab x = some ⟨m, some p⟩ → E.genDir p = true → Up E d p

theorem needs_iff (E : Env) (n g : Nat) : Needs E n g ↔ ∃ m d, E.tab n = some ⟨m, some d⟩ ∧ Up E d g := by
  constructor
  · intro h
    induction h with
    | here h1 h2 => exact ⟨_, _, h1, .here h2⟩
    | up _ h2 h3 ih =>
      obtain ⟨m, d, g1, g2⟩ := ih
      exact ⟨m, d, g1, .up g2 h2 h3⟩
  · rintro ⟨m, d, h1, h2⟩
    induction h2 with
    | here h => exact .here h1 h
    | up _ h3 h4 ih => exact .up ih h3 h4

theorem up_gen {E : Env} {d x : Nat} (h : Up E d x) : E.genDir x = true := by
  cases h with
  | here h => exact h
  | up _ _ h => exact h

theorem up_trans {E : Env} {d x y : Nat} (h : Up E d x) (h' : Up E x y) : Up E d y := by
  induction h' with
  | here _ => exact h
  | up _ h2 h3 ih => exact .up ih h2 h3

theorem up_cases {E : Env} {d x : Nat} (h : Up E d x) : x = d ∨ ∃ m p, E.tab d = some ⟨m, some p⟩ ∧ Up E p x := by
  induction h with
  | here _ => exact .inl rfl
  | up h1 h2 h3 ih =>
    rcases ih with rfl | ⟨m, p, g1, g2⟩
    · exact .inr ⟨_, _, h2, .here h3⟩
    · exact .inr ⟨m, p, g1, .up g2 h2 h3⟩

theorem place_parent {T : Table} {d : Nat} {p : List Str} (hp : Place T d p) {m : Str} {q : Nat} (h : T d = some ⟨m, some q⟩) : ∃ p', p = p' ++ [m] ∧ Place T q p' := by
  cases hp with
  | top h' => rw [h] at h'; cases h'
  | child h' hp => rw [h] at h'; cases h'; exact ⟨_, rfl, hp⟩

theorem up_place {E : Env} {d x : Nat} (h : Up E d x) : ∀ {p : List Str}, Place E.tab d p → ∃ a b, p = a ++ b ∧ Place E.tab x a := by
  induction h with
  | here _ => intro p hp; exact ⟨p, [], (List.append_nil p).symm, hp⟩
  | up _ h2 _ ih =>
    intro p hp
    obtain ⟨a, b, rfl, ha⟩ := ih hp
    obtain ⟨a', rfl, ha'⟩ := place_parent ha h2
    exact ⟨a', _, by rw [List.append_assoc], ha'⟩

/-- The line for one directory. -/
def mkLine (p : List Str) : Str := "mkdir -p \"".toList ++ text p ++ "\"".toList

theorem place_gen {E : Env} (hE : Sound E) {d : Nat} (hg : E.genDir d = true) {p : List Str} (hp : Place E.tab d p) : ∃ m q p', E.tab d = some ⟨m, some q⟩ ∧ Place E.tab q p' ∧ p = p' ++ [m] := by
  obtain ⟨t, ht⟩ := hE.top
  cases hp with
  | top h =>
    have := hE.proper.top h ht
    subst this
    rw [hE.genTop] at hg
    cases hg
  | child h hp => exact ⟨_, _, _, h, hp, rfl⟩

theorem flat_snoc (t a c : Str) (f : List Str → Str) (x : List Str) (ps : List (List Str)) : t ++ (ps.flatMap fun p => a ++ f p ++ c ++ ['\n']) ++ a ++ f x ++ (c ++ ['\n']) =
    t ++ (ps ++ [x]).flatMap fun p => a ++ f p ++ c ++ ['\n'] := by
  simp

theorem mkdirs_eq {E : Env} (hE : Sound E) : ∀ (fuel : Nat) (seen : List Nat) (t : Str) (d : Nat) (p : List Str), Place E.tab d p → p.length < fuel →
    (∀ x ∈ seen, Up E d x → ∀ y, Up E x y → y ∈ seen) →
    ∃ (seen' : List Nat) (ps : List (List Str)), mkdirs E fuel (seen, t) d = some (seen', t ++ ps.flatMap fun p => mkLine p ++ ['\n']) ∧
      (∀ x, x ∈ seen' ↔ x ∈ seen ∨ Up E d x) ∧ (∀ p ∈ ps, ∃ x, Up E d x ∧ Place E.tab x p) ∧ ∀ x, x ∉ seen → Up E d x → ∃ p ∈ ps, Place E.tab x p := by
  intro fuel
  induction fuel with
  | zero => intro _ _ _ _ _ h; omega
  | succ fuel ih =>
    intro seen t d p hp hlen hcl
    rw [mkdirs]
    by_cases hg : E.genDir d = true
    · rw [if_pos hg]
      by_cases hs : d ∈ seen
      · rw [if_pos hs]
        refine ⟨seen, [], by simp, fun x => ⟨.inl, ?_⟩, by simp, ?_⟩
        · rintro (h | h)
          · exact h
          · exact hcl d hs (.here hg) x h
        · intro x hx h
          exact absurd (hcl d hs (.here hg) x h) hx
      · rw [if_neg hs]
        obtain ⟨m, q, p', h1, h2, rfl⟩ := place_gen hE hg hp
        rw [List.length_append, List.length_singleton] at hlen
        rw [h1]
        simp only
        have hnot : ¬ Up E q d := by
          intro h
          obtain ⟨a, b, hab, ha⟩ := up_place h h2
          have := place_fun hp ha
          have h3 := congrArg List.length this
          have h4 := congrArg List.length hab
          simp only [List.length_append, List.length_singleton] at h3 h4
          omega
        have hup : ∀ x, Up E q x → Up E d x := by
          intro x h
          have hq : E.genDir q = true := by
            clear hnot
            induction h with
            | here h => exact h
            | up _ _ _ ih => exact ih
          exact up_trans (.up (.here hg) h1 hq) h
        obtain ⟨seen', ps, e1, e2, e3, e4⟩ := ih (d :: seen) t q p' h2 (by omega) (by
          intro x hx hxu y hy
          rcases List.mem_cons.1 hx with rfl | hx
          · exact absurd hxu hnot
          · exact List.mem_cons_of_mem _ (hcl x hx (hup x hxu) y hy))
        rw [e1]
        simp only
        rw [printEntry_eq hE.proper hp (by simp) (Nat.le_of_lt (hE.deep d _ hp)) (hE.genBuild d hg)]
        simp only
        have hnl : "\"\n".toList = "\"".toList ++ ['\n'] := by decide
        have heq : t ++ (ps.flatMap fun p => mkLine p ++ ['\n']) ++ "mkdir -p \"".toList ++ text (p' ++ [m]) ++ ("\"".toList ++ ['\n']) =
            t ++ (ps ++ [p' ++ [m]]).flatMap fun p => mkLine p ++ ['\n'] := by
          unfold mkLine
          exact flat_snoc ..
        rw [hnl, heq]
        refine ⟨seen', ps ++ [p' ++ [m]], rfl, fun x => ?_, ?_, ?_⟩
        · rw [e2, List.mem_cons]
          constructor
          · rintro ((h | h) | h)
            · rw [h]; exact .inr (.here hg)
            · exact .inl h
            · exact .inr (hup x h)
          · rintro (h | h)
            · exact .inl (.inr h)
            · rcases up_cases h with h | ⟨m', q', g1, g2⟩
              · exact .inl (.inl h)
              · rw [h1] at g1
                cases g1
                exact .inr g2
        · intro r hr
          rcases List.mem_append.1 hr with hr | hr
          · obtain ⟨x, g1, g2⟩ := e3 r hr
            exact ⟨x, hup x g1, g2⟩
          · rw [List.mem_singleton.1 hr]
            exact ⟨d, .here hg, hp⟩
        · intro x hx h
          rcases up_cases h with h | ⟨m', q', g1, g2⟩
          · subst h
            exact ⟨_, List.mem_append_right _ (List.mem_singleton.2 rfl), hp⟩
          · rw [h1] at g1
            cases g1
            by_cases hxd : x = d
            · subst hxd
              exact absurd g2 hnot
            · obtain ⟨r, hr, h'⟩ := e4 x (by rw [List.mem_cons, not_or]; exact ⟨hxd, hx⟩) g2
              exact ⟨r, List.mem_append_left _ hr, h'⟩
    · rw [if_neg hg]
      have hno : ∀ x, ¬ Up E d x := by
        intro x h
        apply hg
        clear hcl
        induction h with
        | here h => exact h
        | up _ _ _ ih => exact ih
      exact ⟨seen, [], by simp, fun x => ⟨.inl, fun h => h.resolve_right (hno x)⟩, by simp, fun x _ h => absurd h (hno x)⟩

theorem mkdirAll_eq {E : Env} (hE : Sound E) : ∀ (l : List Nat) (seen : List Nat) (t : Str), (∀ n ∈ l, E.genFile n = true → ∃ m d p, E.tab n = some ⟨m, some d⟩ ∧ Place E.tab d p) →
    (∀ x ∈ seen, ∀ y, Up E x y → y ∈ seen) →
    ∃ (seen' : List Nat) (ps : List (List Str)), mkdirAll E (seen, t) l = some (seen', t ++ ps.flatMap fun p => mkLine p ++ ['\n']) ∧
      (∀ p ∈ ps, ∃ n x, n ∈ l ∧ E.genFile n = true ∧ Needs E n x ∧ Place E.tab x p) ∧
      ∀ n x, n ∈ l → E.genFile n = true → Needs E n x → x ∈ seen ∨ ∃ p ∈ ps, Place E.tab x p := by
  intro l
  induction l with
  | nil => intro seen t _ _; exact ⟨seen, [], by simp [mkdirAll], by simp, by simp⟩
  | cons n l ih =>
    intro seen t hl hcl
    rw [mkdirAll]
    by_cases hg : E.genFile n = true
    · rw [if_pos hg]
      obtain ⟨m, d, p, h1, h2⟩ := hl n List.mem_cons_self hg
      rw [h1]
      simp only [Option.bind_some]
      obtain ⟨seen1, ps1, e1, e2, e3, e4⟩ := mkdirs_eq hE E.fuel seen t d p h2 (hE.deep d p h2) (fun x hx _ => hcl x hx)
      rw [e1]
      simp only
      obtain ⟨seen2, ps2, f1, f2, f3⟩ := ih seen1 (t ++ ps1.flatMap fun p => mkLine p ++ ['\n']) (fun k hk => hl k (List.mem_cons_of_mem _ hk)) (by
        intro x hx y hy
        rw [e2] at hx ⊢
        rcases hx with hx | hx
        · exact .inl (hcl x hx y hy)
        · exact .inr (up_trans hx hy))
      refine ⟨seen2, ps1 ++ ps2, by rw [f1]; simp, ?_, ?_⟩
      · intro r hr
        rcases List.mem_append.1 hr with hr | hr
        · obtain ⟨x, g1, g2⟩ := e3 r hr
          exact ⟨n, x, List.mem_cons_self, hg, (needs_iff E n x).2 ⟨m, d, h1, g1⟩, g2⟩
        · obtain ⟨k, x, g1, g2⟩ := f2 r hr
          exact ⟨k, x, List.mem_cons_of_mem _ g1, g2⟩
      · have key : ∀ x, x ∈ seen1 → x ∈ seen ∨ ∃ p ∈ ps1 ++ ps2, Place E.tab x p := by
          intro x hx
          by_cases hs : x ∈ seen
          · exact .inl hs
          · obtain ⟨r, hr, h'⟩ := e4 x hs (((e2 x).1 hx).resolve_left hs)
            exact .inr ⟨r, List.mem_append_left _ hr, h'⟩
        intro k x hk hkg hkn
        rcases List.mem_cons.1 hk with rfl | hk
        · obtain ⟨m', d', g1, g2⟩ := (needs_iff E k x).1 hkn
          rw [h1] at g1
          cases g1
          exact key x ((e2 x).2 (.inr g2))
        · rcases f3 k x hk hkg hkn with h | ⟨r, hr, h'⟩
          · exact key x h
          · exact .inr ⟨r, List.mem_append_right _ hr, h'⟩
    · rw [if_neg hg]
      obtain ⟨seen2, ps2, f1, f2, f3⟩ := ih seen t (fun k hk => hl k (List.mem_cons_of_mem _ hk)) hcl
      refine ⟨seen2, ps2, f1, ?_, ?_⟩
      · intro r hr
        obtain ⟨k, x, g1, g2⟩ := f2 r hr
        exact ⟨k, x, List.mem_cons_of_mem _ g1, g2⟩
      · intro k x hk hkg hkn
        rcases List.mem_cons.1 hk with rfl | hk
        · exact absurd hkg hg
        · exact f3 k x hk hkg hkn

theorem buildDirs_eq {E : Env} (hE : Sound E) : ∀ (l : List Nat), (∀ v ∈ l, ∃ p, Place E.tab v p) →
    ∃ ps : List (List Str), buildDirs E l = some (ps.flatMap fun p => "mkdir -p ".toList ++ (if p = [] then ['.'] else p.flatMap fun n => n ++ ['/']) ++ ['\n']) ∧
      (∀ p ∈ ps, ∃ v ∈ l, Place E.tab v p) ∧ ∀ v ∈ l, ∃ p ∈ ps, Place E.tab v p := by
  intro l
  induction l with
  | nil => intro _; exact ⟨[], rfl, by simp, by simp⟩
  | cons v l ih =>
    intro hl
    obtain ⟨p, hp⟩ := hl v List.mem_cons_self
    obtain ⟨ps, h1, h2, h3⟩ := ih fun k hk => hl k (List.mem_cons_of_mem _ hk)
    obtain ⟨t, ht⟩ := hE.top
    refine ⟨p :: ps, ?_, ?_, ?_⟩
    · rw [buildDirs, writeEntry_eq hE.proper ht hp E.fuel (hE.deep v p hp), h1]
      simp only [List.flatMap_cons, List.append_assoc]
    · intro r hr
      rcases List.mem_cons.1 hr with rfl | hr
      · exact ⟨v, List.mem_cons_self, hp⟩
      · obtain ⟨k, hk, h⟩ := h2 r hr
        exact ⟨k, List.mem_cons_of_mem _ hk, h⟩
    · intro k hk
      rcases List.mem_cons.1 hk with rfl | hk
      · exact ⟨p, List.mem_cons_self, hp⟩
      · obtain ⟨r, hr, h⟩ := h3 k hk
        exact ⟨r, List.mem_cons_of_mem _ hr, h⟩

/-! ### Lines -/

theorem behind_append (a s : Str) : behind a (a ++ s) = some s := by
  induction a with
  | nil => rfl
  | cons c a ih => rw [List.cons_append, behind, if_pos rfl, ih]

theorem operand_some {s r : Str} (h : Strings.shWord .plain s = some r) (h0 : r ≠ []) (h1 : r.head? ≠ some '-') : operand s = some r := by
  unfold operand
  rw [h]
  cases r with
  | nil => exact absurd rfl h0
  | cons c r =>
    split
    · rename_i e
      cases e
      exact absurd rfl h1
    · rename_i e
      cases e
    · rfl

theorem read_mkdir (r : Str) : readLine ("mkdir -p ".toList ++ r) = (operand r).map .mkdir := by
  have h := behind_append "mkdir -p ".toList r
  unfold readLine
  split
  · rename_i e; simp at e
  · rename_i e; simp at e
  · have h1 : behind "export tup_vardict=".toList ("mkdir -p ".toList ++ r) = none := by simp [behind]
    rw [h1, h]

theorem read_cd (r : Str) : readLine ("cd ".toList ++ r) = (operand r).map .cd := by
  have h := behind_append "cd ".toList r
  unfold readLine
  split
  · rename_i e; simp at e
  · rename_i e; simp at e
  · have h1 : behind "export tup_vardict=".toList ("cd ".toList ++ r) = none := by simp [behind]
    have h2 : behind "mkdir -p ".toList ("cd ".toList ++ r) = none := by simp [behind]
    rw [h1, h2, h]

theorem read_sub {c : Str} (h : Whole c = true) : readLine ('(' :: c ++ [')']) = some (.sub c) := by
  unfold readLine
  rw [List.cons_append]
  simp [h]

/-- A path, as text, of names that can be put into double quotes. -/
theorem text_plain {l : List Str} (h : ∀ e ∈ l, ∀ c ∈ e, c ≠ '"' ∧ c ≠ '$' ∧ c ≠ '`' ∧ c ≠ '\\' ∧ c ≠ '\n') : ∀ c ∈ text l, c ≠ '"' ∧ c ≠ '$' ∧ c ≠ '`' ∧ c ≠ '\\' ∧ c ≠ '\n' := by
  induction l with
  | nil => intro c hc; simp [text, List.intercalate] at hc
  | cons x l ih =>
    cases l with
    | nil =>
      intro c hc
      have : text [x] = x := by simp [text, List.intercalate, List.intersperse]
      rw [this] at hc
      exact h x List.mem_cons_self c hc
    | cons y l =>
      intro c hc
      rw [text_cons] at hc
      rcases List.mem_append.1 hc with hc | hc
      · exact h x List.mem_cons_self c hc
      · rcases List.mem_cons.1 hc with rfl | hc
        · decide
        · exact ih (fun e he => h e (List.mem_cons_of_mem _ he)) c hc

theorem text_head {x : Str} (hx : x ≠ []) (l : List Str) : (text (x :: l)).head? = x.head? ∧ text (x :: l) ≠ [] := by
  cases x with
  | nil => exact absurd rfl hx
  | cons c x =>
    cases l with
    | nil => simp [text, List.intercalate, List.intersperse]
    | cons y l => rw [text_cons]; simp

theorem name_head {n : Str} (h : Name n) : n.head? ≠ some '/' := by
  cases n with
  | nil => simp
  | cons c n =>
    intro e
    simp only [List.head?_cons, Option.some.injEq] at e
    exact h.2.1 (by rw [e]; exact List.mem_cons_self)

theorem lines_flat {α : Type} (f : α → Str) (s : Str) : ∀ (l : List α), (∀ x ∈ l, '\n' ∉ f x) → lines ((l.flatMap fun x => f x ++ ['\n']) ++ s) = l.map f ++ lines s := by
  intro l
  induction l with
  | nil => intro _; rfl
  | cons x l ih =>
    intro h
    have := lines_cons (h x List.mem_cons_self) ((l.flatMap fun x => f x ++ ['\n']) ++ s)
    rw [ih fun y hy => h y (List.mem_cons_of_mem _ hy)] at this
    rw [List.map_cons, List.cons_append, ← this]
    simp

/-! ### What the shell does with them -/

variable {W : Type} (K : World W)

theorem mkdirP_made {l : List Str} : ∀ {p : List Str} {w w' : W}, mkdirP K w p l = some w' → ∃ ps : List (List Str), w' = ps.foldl K.make w := by
  induction l with
  | nil => intro p w w' h; cases h; exact ⟨[], rfl⟩
  | cons e l ih =>
    intro p w w' h
    rw [mkdirP] at h
    split at h
    · exact ih h
    split at h
    · cases h
    split at h
    · exact ih h
    · obtain ⟨ps, rfl⟩ := ih h
      exact ⟨(p ++ [e]) :: ps, rfl⟩

/-- Lines with `mkdir -p`. -/
theorem shell_mkdirs {f : List Str → Str} {g : List Str → Str} {P : List Str → Prop} (hf : ∀ p, P p → f p = "mkdir -p ".toList ++ g p)
    (hg : ∀ p, P p → ∃ r, operand (g p) = some r ∧ r.head? ≠ some '/' ∧ (comps r = p ∨ p = [] ∧ comps r = [['.']])) (hn : ∀ p, P p → ∀ n ∈ p, Name n) (rest : List Str) :
    ∀ (l : List (List Str)) (w : W), (∀ p ∈ l, P p) → ∃ w', shell K w [] (l.map f ++ rest) = shell K w' [] rest ∧ (∃ ps : List (List Str), w' = ps.foldl K.make w) ∧
      ∀ q, K.isDir w' q = true ↔ K.isDir w q = true ∨ ∃ p ∈ l, ∃ b, p = q ++ b ∧ q ≠ [] := by
  intro l
  induction l with
  | nil => intro w _; exact ⟨w, rfl, ⟨[], rfl⟩, by simp⟩
  | cons p l ih =>
    intro w hl
    have hp := hl p List.mem_cons_self
    obtain ⟨r, h1, h2, h3⟩ := hg p hp
    have key : ∃ w1, mkdirP K w [] (comps r) = some w1 ∧ ∀ q, K.isDir w1 q = true ↔ K.isDir w q = true ∨ ∃ b, p = q ++ b ∧ q ≠ [] := by
      rcases h3 with h3 | ⟨h3, h4⟩
      · obtain ⟨w1, g1, g2⟩ := mkdirP_ok K (p := []) w (hn p hp)
        refine ⟨w1, by rw [h3]; exact g1, fun q => ?_⟩
        rw [g2]
        constructor
        · rintro (h | ⟨a, b, e1, e2, e3⟩)
          · exact .inl h
          · rw [List.nil_append] at e3
            subst e3
            exact .inr ⟨b, e1, e2⟩
        · rintro (h | ⟨b, e1, e2⟩)
          · exact .inl h
          · exact .inr ⟨q, b, e1, e2, rfl⟩
      · refine ⟨w, by rw [h4, mkdirP, if_pos rfl, mkdirP], fun q => ⟨.inl, ?_⟩⟩
        rintro (h | ⟨b, e1, e2⟩)
        · exact h
        · rw [h3] at e1
          exact absurd (List.append_eq_nil_iff.1 e1.symm).1 e2
    obtain ⟨w1, k1, k2⟩ := key
    obtain ⟨w2, g1, ⟨ps2, g2⟩, g3⟩ := ih w1 fun q hq => hl q (List.mem_cons_of_mem _ hq)
    obtain ⟨ps1, hps1⟩ := mkdirP_made K k1
    refine ⟨w2, ?_, ⟨ps1 ++ ps2, by rw [List.foldl_append, ← hps1]; exact g2⟩, fun q => ?_⟩
    · rw [List.map_cons, List.cons_append, shell, hf p hp, read_mkdir, h1]
      simp only [Option.map_some]
      rw [if_neg h2, k1]
      exact g1
    · rw [g3, k2]
      simp only [List.mem_cons, exists_eq_or_imp, or_assoc]

/-- The part that the executor leaves. -/
theorem shell_body {E : Env} (hE : Sound E) (w0 : W)
    (hdirs : ∀ n d, E.dirOf n = some d → ∃ q, Place E.tab (E.src d) q ∧ (∀ a b, q = a ++ b → K.isDir w0 a = true) ∧ ∀ e ∈ q, PlainName e)
    (htext : ∀ n d c, E.dirOf n = some d → E.text n = some c → Whole c = true) :
    ∀ (l : List Nat) (o : Out) (p : List Str), Place E.tab o.cwd p → (∀ u n v, l = u ++ n :: v → (work E (u.foldl (fun o n => (work E o n).1) o) n).2 = true) →
    ∃ body cs, (l.foldl (fun o n => (work E o n).1) o).text = o.text ++ body ∧ Commands E l cs ∧
      ∀ w, (∀ q, K.isDir w0 q = true → K.isDir w q = true) → shell K w p (lines body) = runAll K w cs := by
  intro l
  induction l with
  | nil =>
    intro o p hp _
    exact ⟨[], [], by simp, .nil, fun w _ => rfl⟩
  | cons n l ih =>
    intro o p hp hok
    have hok1 := hok [] n l rfl
    rw [List.foldl_nil] at hok1
    have hok2 : ∀ u m v, l = u ++ m :: v → (work E (u.foldl (fun o n => (work E o n).1) (work E o n).1) m).2 = true := by
      intro u m v h
      have := hok (n :: u) m v (by rw [h]; rfl)
      rw [List.foldl_cons] at this
      exact this
    rw [List.foldl_cons]
    cases hd : E.dirOf n with
    | none =>
      have hw : work E o n = ({ o with log := n :: o.log }, true) := by
        unfold work
        simp only [hd]
      rw [hw] at hok2 ⊢
      obtain ⟨body, cs, h1, h2, h3⟩ := ih { o with log := n :: o.log } p hp hok2
      exact ⟨body, cs, h1, .other hd h2, h3⟩
    | some d =>
      obtain ⟨q, hq, hqd, hqn⟩ := hdirs n d hd
      cases htx : E.text n with
      | none =>
        exfalso
        unfold work at hok1
        simp only [hd, htx] at hok1
        revert hok1
        split <;> intro h <;> cases h
      | some c =>
        have hc := htext n d c hd htx
        have hcn : '\n' ∉ '(' :: c ++ [')'] := by
          have : '\n' ∉ c := by
            intro h
            simp [Whole, h] at hc
          simp [this]
        by_cases hcwd : o.cwd = E.src d
        · have hpq : p = q := place_fun (hcwd ▸ hp) hq
          subst hpq
          have hw : work E o n = ({ o with log := n :: o.log, text := o.text ++ ['('] ++ c ++ ")\n".toList }, true) := by
            unfold work
            simp only [hd, htx, hcwd, if_true]
          rw [hw] at hok2 ⊢
          obtain ⟨body, cs, h1, h2, h3⟩ := ih { o with log := n :: o.log, text := o.text ++ ['('] ++ c ++ ")\n".toList } p hp hok2
          refine ⟨('(' :: c ++ [')']) ++ '\n' :: body, (p, c) :: cs, by rw [h1]; simp, .command hd hq htx h2, fun w hw => ?_⟩
          rw [lines_cons hcn, shell, read_sub hc, runAll]
          simp only
          cases hx : K.exec w p c with
          | none => rfl
          | some w' => exact h3 w' fun r hr => K.keeps w p c w' hx r (hw r hr)
        · cases hrel : relative E.tab E.fuel o.cwd (E.src d) '/' with
          | none =>
            exfalso
            unfold work at hok1
            simp only [hd, hcwd, if_false, hrel, Option.map_none] at hok1
            cases hok1
          | some t =>
            have hw : work E o n = ({ o with log := n :: o.log, cwd := E.src d, text := o.text ++ "cd \"".toList ++ t ++ "\"\n".toList ++ ['('] ++ c ++ ")\n".toList }, true) := by
              unfold work
              simp only [hd, htx, hcwd, if_false, hrel, Option.map_some]
            rw [hw] at hok2 ⊢
            obtain ⟨body, cs, h1, h2, h3⟩ := ih { o with log := n :: o.log, cwd := E.src d, text := o.text ++ "cd \"".toList ++ t ++ "\"\n".toList ++ ['('] ++ c ++ ")\n".toList } q hq hok2
            obtain ⟨k, a, b, rfl, rfl, _, hb, ht⟩ := Relative.relative_comps hE.proper hp hq hrel
            have htp : (∀ c ∈ t, c ≠ '"' ∧ c ≠ '$' ∧ c ≠ '`' ∧ c ≠ '\\' ∧ c ≠ '\n') ∧ t ≠ [] ∧ t.head? ≠ some '-' ∧ t.head? ≠ some '/' := by
              by_cases hab : a = [] ∧ b = []
              · rw [if_pos hab] at ht
                rw [ht]
                decide
              · rw [if_neg hab] at ht
                rw [ht]
                refine ⟨?_, ?_⟩
                · apply text_plain
                  intro e he
                  rcases List.mem_append.1 he with he | he
                  · rw [(List.mem_replicate.1 he).2]
                    decide
                  · exact (hqn e (List.mem_append_right _ he)).1
                · cases a with
                  | cons x a =>
                    rw [List.length_cons, List.replicate_succ, List.cons_append]
                    have := text_head (x := "..".toList) (by decide) (List.replicate a.length "..".toList ++ b)
                    exact ⟨this.2, by rw [this.1]; decide, by rw [this.1]; decide⟩
                  | nil =>
                    cases b with
                    | nil => exact absurd ⟨rfl, rfl⟩ hab
                    | cons y b =>
                      have := text_head (hb y List.mem_cons_self).1 b
                      refine ⟨this.2, ?_, ?_⟩
                      · show (text (y :: b)).head? ≠ _
                        rw [this.1]
                        exact (hqn y (by simp)).2
                      · show (text (y :: b)).head? ≠ _
                        rw [this.1]
                        exact name_head (hb y List.mem_cons_self)
            have hln : '\n' ∉ "cd ".toList ++ ('"' :: t ++ ['"']) := by
              have : '\n' ∉ t := fun h => (htp.1 _ h).2.2.2.2 rfl
              simp [this]
            refine ⟨("cd ".toList ++ ('"' :: t ++ ['"'])) ++ '\n' :: (('(' :: c ++ [')']) ++ '\n' :: body), (k ++ b, c) :: cs, by rw [h1]; simp, .command hd hq htx h2, fun w hw => ?_⟩
            rw [lines_cons hln, shell, read_cd, operand_some (word_quoted fun c hc => ⟨(htp.1 c hc).1, (htp.1 c hc).2.1, (htp.1 c hc).2.2.1, (htp.1 c hc).2.2.2.1⟩) htp.2.1 htp.2.2.1]
            simp only [Option.map_some]
            rw [if_neg htp.2.2.2, walk_relative hE.proper hp hq hrel (fun a b h => hw a (hqd a b h)), Option.bind_some, lines_cons hcn, shell, read_sub hc, runAll]
            simp only
            cases hx : K.exec w (k ++ b) c with
            | none => rfl
            | some w' => exact h3 w' fun r hr => K.keeps w _ c w' hx r (hw r hr)

end Tup.Generate
