import Verif.RunScript.Lemmas

/-!
C81: a script that a Tupfile runs sees in its own directory exactly what the database knows when the script starts, in a preloaded
directory what it knew after the `preload`, and no other directory of the project; its output is the rules it prints; and
the Tupfile depends on what the script was told.
-/

namespace Tup.RunScript

open Tup.Db Tup.PathList

variable {cx : Cx}

/-- Every line of a Tupfile is read in a state with a history. -/
theorem c81_reach {w : W} {env : List Nat} {ops : List Op} {st : St}
    (h : steps cx { w, dirs := [], ins := [], env, fail := false } ops = .ok st) : ∃ hist, Reach cx w env hist st :=
  steps_reach .start h

theorem run_log {st : St} {sc : Script} {e : Str × Option (List Str)} (h : e ∈ (run cx st sc).1) :
    ∃ dirs, genDirList cx st.w st.dirs cx.me = some dirs ∧ (run cx st sc).1 = (exec cx dirs sc st.fail).1 ∧
      e.2 = readdir cx dirs e.1 := by
  unfold run at h ⊢
  split at h
  · exact absurd h List.not_mem_nil
  next dirs hd =>
  have hlog : ∀ r : Log × Bool × Bool × Str, ((match r with
      | (log, fail, ok, out) =>
        if ok then
          match rules cx.rule st.w (st.ins ++ st.env) [] (out.takeWhile fun c => decide (c ≠ '\x00')) with
          | none => (log, none)
          | some (w, ins) => (log, some { st with w, dirs, ins, fail })
        else (log, none) : Log × Option St)).1 = r.1 := by
    rintro ⟨log, fail, ok, out⟩
    dsimp only
    split
    · split <;> rfl
    · rfl
  refine ⟨dirs, hd, hlog _, ?_⟩
  have h' : e ∈ (exec cx dirs sc st.fail).1 := hlog (exec cx dirs sc st.fail) ▸ h
  exact exec_log dirs sc st.fail e h'

/-- A script that reads a directory of the project is given the names that were visible the last time the directory was looked
at; if it never was, it is given nothing but an error. -/
theorem c81_sees (ho : ∀ l, (cx.order l).Perm l) {w0 : W} {env : List Nat} {h : List Moment} {st : St} {sc : Script}
    (hr : Reach cx w0 env h st) {q : Str} {a : Option (List Str)} (ha : (cx.top ++ q, a) ∈ (run cx st sc).1) :
    (∀ l, a = some l → ∃ w d, Latest cx (h ++ [(st.w, cx.me)]) q w d ∧ Lists cx w d l) ∧
      (a = none ↔ ∀ m ∈ h ++ [(st.w, cx.me)], ¬ SeenAt cx m.1.db m.2 q) := by
  obtain ⟨dirs, hd, _, he⟩ := run_log ha
  have hk := known_gen ho (reach_known ho hr) hd q
  have hpre : cx.top.isPrefixOf (cx.top ++ q) = true := List.isPrefixOf_iff_prefix.2 (List.prefix_append _ _)
  simp only [readdir, hpre, if_true, List.drop_left] at he
  cases hf : dirs.find? (fun e => decide (e.1 = q)) with
  | none =>
    rw [hf] at hk he
    rw [he]
    exact ⟨fun l hl => (by cases hl), ⟨fun _ => hk, fun _ => rfl⟩⟩
  | some e =>
    rw [hf] at hk he
    rw [he]
    obtain ⟨w, d, h1, h2⟩ := hk
    refine ⟨fun l hl => ⟨w, d, h1, (by cases hl; exact h2)⟩, ⟨fun hn => (by cases hn), fun hn => ?_⟩⟩
    obtain ⟨a1, a2, h3, h4, _⟩ := h1
    refine absurd h4 (hn (w, d) ?_)
    rw [h3]
    exact List.mem_append_right _ (List.mem_cons_self ..)

/-- The own directory is always as it is when the script starts, whatever happened before. -/
theorem c81_own (ho : ∀ l, (cx.order l).Perm l) {w0 : W} {env : List Nat} {h : List Moment} {st : St} {sc : Script}
    (hr : Reach cx w0 env h st) {q : Str} (hq : SeenAt cx st.w.db cx.me q) {a : Option (List Str)}
    (ha : (cx.top ++ q, a) ∈ (run cx st sc).1) : ∃ l, a = some l ∧ Lists cx st.w cx.me l := by
  obtain ⟨h1, h2⟩ := c81_sees ho hr ha
  cases a with
  | none => exact absurd hq (h2.1 rfl (st.w, cx.me) (List.mem_append_right _ (List.mem_singleton.2 rfl)))
  | some l =>
    refine ⟨l, rfl, ?_⟩
    obtain ⟨w, d, ⟨a1, a2, h3, h4, h5⟩, h6⟩ := h1 l rfl
    cases hrev : a2.reverse with
    | nil =>
      rw [List.reverse_eq_nil_iff] at hrev
      rw [hrev] at h3
      have h7 := List.append_inj_right' h3 rfl
      cases h7
      exact h6
    | cons m t =>
      have h8 : a2 = t.reverse ++ [m] := by rw [← List.reverse_reverse a2, hrev, List.reverse_cons]
      rw [h8, ← List.cons_append, ← List.append_assoc] at h3
      have h7 := List.append_inj_right' h3 rfl
      cases h7
      exact absurd hq (h5 (st.w, cx.me) (by rw [h8]; exact List.mem_append_right _ (List.mem_singleton.2 rfl)))

/-- `preload` looks at exactly the directories that its words name, after the Tupfiles in them have been parsed. -/
theorem c81_preload {st st' : St} {words : List Str} {ds : List Nat} (h : preload cx st words = .ok (st', ds)) :
    Each (Names cx st.w.db) words ds := by
  obtain ⟨ts, h1, rfl, _⟩ := preload_ok h
  exact (targets_ok h1).map fun _ _ _ h => h.1

/-- A Tupfile with a script that was refused a directory is not accepted, whatever the script makes of it. -/
theorem c81_refused {w : W} {env : List Nat} {ops ops' : List Op} {st : St} {sc : Script} {p : Str}
    (hs : steps cx { w, dirs := [], ins := [], env, fail := false } ops = .ok st) (hp : (p, none) ∈ (run cx st sc).1) :
    ∀ st', parse cx w env (ops ++ .run sc :: ops') ≠ .ok st' := by
  intro st' h
  unfold parse at h
  rw [steps_append, hs] at h
  dsimp only at h
  rw [steps, step] at h
  obtain ⟨dirs, hd, hlog, _⟩ := run_log hp
  cases hrun : (run cx st sc).2 with
  | none => rw [hrun] at h; cases h
  | some st1 =>
    rw [hrun] at h
    dsimp only at h
    have hf : st1.fail = true := by
      obtain ⟨dirs', hd', _, _, _, _, _, hf⟩ := run_ok hrun
      rw [hd] at hd'; cases hd'
      rw [hf, exec_fail, ← hlog]
      have : ((run cx st sc).1.any fun e => e.2.isNone) = true := List.any_eq_true.2 ⟨_, hp, rfl⟩
      rw [this, Bool.or_true]
    split at h
    · next st2 h2 =>
      rw [steps_fail h2 hf] at h
      cases h
    · cases h
    · cases h

/-- Directories outside of the project are as they are; one that cannot be opened looks empty. -/
theorem c81_outside {st : St} {sc : Script} {p : Str} {a : Option (List Str)} (hp : ¬ cx.top <+: p)
    (ha : (p, a) ∈ (run cx st sc).1) : (∀ l, cx.outside p = some l → a = some l) ∧ (cx.outside p = none → a = some []) := by
  obtain ⟨dirs, _, _, he⟩ := run_log ha
  have : cx.top.isPrefixOf p = false := by
    rw [← Bool.not_eq_true, List.isPrefixOf_iff_prefix]; exact hp
  simp only [readdir, this, Bool.false_eq_true, if_false] at he
  constructor
  · intro l hl; rw [hl] at he; exact he
  · intro hl; rw [hl] at he; exact he

/-- But a directory beside the project whose name begins like that of the project is refused. -/
theorem c81_sibling (ho : ∀ l, (cx.order l).Perm l) (hpath : ∀ db d, cx.path db d = [] ∨ ∃ r, cx.path db d = '/' :: r)
    {w0 : W} {env : List Nat} {h : List Moment} {st : St} {sc : Script} (hr : Reach cx w0 env h st) {c : Char} {r : Str} (hc : c ≠ '/')
    {a : Option (List Str)} (ha : (cx.top ++ c :: r, a) ∈ (run cx st sc).1) : a = none := by
  refine (c81_sees ho hr ha).2.2 fun m _ hs => ?_
  rw [shownAs_seen] at hs
  rcases hpath m.1.db (shownAs cx m.1.db m.2) with hn | ⟨x, hn⟩
  · rw [hn] at hs; cases hs
  · rw [hn] at hs; cases hs; exact hc rfl

/-- If a script is accepted then its rules are the lines it printed, before the first byte 0, that begin with a colon, in that
order; all other lines are empty or comments, and the last one is ended. -/
theorem c81_rules {st st' : St} {sc : Script} (h : (run cx st sc).2 = some st') :
    ∃ out s ls, Ends sc (run cx st sc).1 true out ∧ Before0 out s ∧ Lines s ls ∧
      Follows cx.rule st.w (st.ins ++ st.env) ls st'.w st'.ins := by
  obtain ⟨dirs, _, hok, hlog, hr, _⟩ := run_ok h
  obtain ⟨ls, h1, h2⟩ := (rules_spec _ [] _ _ List.not_mem_nil).1 hr
  refine ⟨_, _, ls, ?_, before0 _, h1, h2⟩
  rw [hlog, ← hok]
  exact exec_ends dirs sc st.fail

theorem listable {w : W} {d : Nat} (h : Listable cx w d) (dirs : Dirs) : (genDirList cx w dirs d).isSome = true := by
  obtain ⟨⟨n, hn⟩, hl, hs⟩ := h
  unfold genDirList
  rw [hn]
  dsimp only
  rw [if_neg (by have := hl _ ((shownAs_seen _ _ _).2 rfl); unfold pathMax; omega)]
  split
  · next s hr hsrc =>
    obtain ⟨m, hm⟩ := hs s ⟨hr, n, hn, hsrc⟩
    rw [hm]; rfl
  · rfl

/-- And every script that ends well with such an output is accepted. -/
theorem c81_accepts {st : St} {sc : Script} (hl : Listable cx st.w cx.me) {out s : Str} {ls : List Str} {w : W} {ins : List Nat}
    (he : Ends sc (run cx st sc).1 true out) (hb : Before0 out s) (hls : Lines s ls)
    (hf : Follows cx.rule st.w (st.ins ++ st.env) ls w ins) :
    ∃ st', (run cx st sc).2 = some st' ∧ st'.w = w ∧ st'.ins = ins := by
  obtain ⟨dirs, hd⟩ := Option.isSome_iff_exists.1 (listable hl st.dirs)
  have hdet : ∀ {sc log ok1 ok2 o1 o2}, Ends sc log ok1 o1 → Ends sc log ok2 o2 → ok1 = ok2 ∧ o1 = o2 := by
    intro sc log ok1 ok2 o1 o2 h1 h2
    induction h1 with
    | done => cases h2; exact ⟨rfl, rfl⟩
    | list _ ih => cases h2 with | list h2 => exact ih h2
  have hE := exec_ends (cx := cx) dirs sc st.fail
  have hr := (rules_spec (rule := cx.rule) (w' := w) (ins' := ins) s [] st.w (st.ins ++ st.env) List.not_mem_nil).2 ⟨ls, hls, hf⟩
  unfold run at he ⊢
  rw [hd] at he ⊢
  dsimp only at he ⊢
  cases hok : (exec cx dirs sc st.fail).2.2.1 with
  | false =>
    simp only [hok, Bool.false_eq_true, if_false] at he
    rw [hok] at hE
    exact absurd (hdet he hE).1 (by decide)
  | true =>
    have hfst : (exec cx dirs sc st.fail).2.2.2 = out := by
      rw [hok] at he hE
      simp only [if_true] at he
      split at he
      · exact (hdet hE he).2
      · exact (hdet hE he).2
    simp only [if_true]
    rw [hfst, ← before0_unique hb, hr]
    exact ⟨_, rfl, rfl, rfl⟩

/-- A Tupfile that is accepted depends on every directory that it preloads, other than its own, unless the path looks like that of a
group. -/
theorem c81_depends_preload {w : W} {env : List Nat} {ops ops' : List Op} {st st1 st' : St} {words : List Str} {ds : List Nat}
    (hk : AllKeep cx (ops ++ .preload words :: ops'))
    (hs : steps cx { w, dirs := [], ins := [], env, fail := false } ops = .ok st)
    (hp : preload cx st words = .ok (st1, ds)) (h : parse cx w env (ops ++ .preload words :: ops') = .ok st') :
    Each (fun s d => d = cx.me ∨ ('<' ∈ s ∧ '>' ∈ s) ∨ d ∈ st'.ins) words ds := by
  obtain ⟨ts, h1, rfl, w1, ins1, h2, _, h3, _⟩ := preload_ok hp
  have hgrow : ∀ i ∈ st1.ins, i ∈ st'.ins := by
    unfold parse at h
    rw [steps_append, hs] at h
    dsimp only at h
    rw [steps, step, hp] at h
    dsimp only at h
    split at h
    · next st2 h4 =>
      split at h
      · cases h
      · cases h
        exact steps_ins ⟨hk.1, fun f hf => hk.2 f (List.mem_append_right _ (List.mem_cons_of_mem _ hf))⟩ h4
    · cases h
    · cases h
  have hin := (parseAll_ins (w := st.w) h2).2
  have hall : ∀ t ∈ ts, t.1 = cx.me ∨ t.2 = true ∨ t.1 ∈ st'.ins := by
    rintro ⟨d, g⟩ ht
    by_cases hme : d = cx.me
    · exact .inl hme
    · cases g with
      | true => exact .inr (.inl rfl)
      | false => exact .inr (.inr (hgrow _ (h3 ▸ hin d ht hme)))
  refine (targets_ok h1).map fun s t ht hst => ?_
  rcases hall t ht with h5 | h5 | h5
  · exact .inl h5
  · exact .inr (.inl (newPl_group (hst.2.1 h5)))
  · exact .inr (.inr h5)

/-- And on every environment variable that is exported before a script is run. -/
theorem c81_depends_env {w : W} {env : List Nat} {ops ops' : List Op} {st st' : St} {sc : Script}
    (hk : AllKeep cx (ops ++ .run sc :: ops'))
    (hs : steps cx { w, dirs := [], ins := [], env, fail := false } ops = .ok st)
    (h : parse cx w env (ops ++ .run sc :: ops') = .ok st') {i : Nat} (hi : i ∈ env ∨ .exports i ∈ ops) : i ∈ st'.ins := by
  have henv : ∀ (ops : List Op) (st0 st : St), steps cx st0 ops = .ok st → i ∈ st0.env ∨ .exports i ∈ ops → i ∈ st.env := by
    intro ops
    induction ops with
    | nil => intro st0 st h hi; cases h; exact hi.elim id fun h => absurd h List.not_mem_nil
    | cons op ops ih =>
      intro st0 st h hi
      rw [steps] at h
      split at h
      · next st1 h1 =>
        refine ih st1 st h ?_
        rcases hi with hi | hi
        · exact .inl (step_env h1 |>.1 i hi)
        · rcases List.mem_cons.1 hi with rfl | hi
          · exact .inl (step_env h1 |>.2 i rfl)
          · exact .inr hi
      · cases h
      · cases h
  have h1 := henv ops _ st hs hi
  unfold parse at h
  rw [steps_append, hs] at h
  dsimp only at h
  rw [steps, step] at h
  cases hrun : (run cx st sc).2 with
  | none => rw [hrun] at h; cases h
  | some st1 =>
    rw [hrun] at h
    dsimp only at h
    have h2 := run_ins hk.1 hrun i (.inr h1)
    split at h
    · next st2 h4 =>
      split at h
      · cases h
      · cases h
        exact steps_ins ⟨hk.1, fun f hf => hk.2 f (List.mem_append_right _ (List.mem_cons_of_mem _ hf))⟩ h4 i h2
    · cases h
    · cases h

/-- An exclusion in a `preload` is undefined behaviour (a NULL pointer is used). -/
theorem c81_exclusion {st : St} {r : Str} (hre : cx.reOk r = true) : preload cx st ['^' :: r] = .ub := by
  have h : newPl none cx.reOk ('^' :: r) = some (.excl r) := by rw [newPl, if_pos hre]
  unfold preload
  rw [if_neg (by simp [h])]
  simp only [targets, target, h]

/-! ### A project

The project is `/p`, with the directories `/a`, `/b`, `/v` (a variant, whose directory `/v/a` comes from `/a`) and `/c<d>`. -/

def exNode : Nat → Option Node
  | 1 => some { dir := 0, kind := .dir, name := ['.'] }
  | 2 => some { dir := 1, kind := .dir, name := ['a'] }
  | 3 => some { dir := 1, kind := .dir, name := ['b'] }
  | 4 => some { dir := 2, kind := .file, name := ['x'] }
  | 5 => some { dir := 3, kind := .file, name := ['y'] }
  | 6 => some { dir := 2, kind := .generated, name := ['o'] }
  | 7 => some { dir := 2, kind := .ghost, name := ['g'] }
  | 8 => some { dir := 1, kind := .dir, name := ['$'] }
  | 9 => some { dir := 1, kind := .dir, name := ['v'] }
  | 10 => some { dir := 9, kind := .dir, name := ['a'], src := some 2 }
  | 11 => some { dir := 10, kind := .generated, name := ['x'] }
  | 12 => some { dir := 10, kind := .generated, name := ['z'] }
  | 13 => some { dir := 1, kind := .dir, name := ['c', '<', 'd', '>'] }
  | 14 => some { dir := 8, kind := .var, name := ['P'] }
  | _ => none

def exDb : Db :=
  { node := exNode, top := 15, normal := fun _ _ => false, sticky := fun _ _ => false, group := fun _ _ _ => false,
    vars := fun _ => none, config := fun _ => false, create := fun _ => false, modify := fun _ => false,
    variant := fun _ => false, transient := fun _ => false, ghosts := fun _ => false }

theorem exNode_bounded : ∀ i, 15 ≤ i → exNode i = none
  | 0, h | 1, h | 2, h | 3, h | 4, h | 5, h | 6, h | 7, h | 8, h | 9, h | 10, h | 11, h | 12, h | 13, h | 14, h => by omega
  | _ + 15, _ => rfl

/-- The generated file `o` lost its rule. -/
def exW : W := { db := exDb, gone := fun i => i == 6, ok := exNode_bounded }

/-- A rule puts a file into `/b`. -/
def exPut (w : W) (ins : List Nat) : Option (W × List Nat) :=
  some ({ db := { w.db with node := fun i => if i = w.db.top then some { dir := 3, kind := .generated, name := ['n'] } else w.db.node i,
                            top := w.db.top + 1 }, gone := w.gone,
          ok := fun i hi => by
            have h1 : w.db.top + 1 ≤ i := hi
            show (if i = w.db.top then _ else w.db.node i) = none
            rw [if_neg (by omega)]
            exact w.ok i (by omega) }, ins)

def exCx : Cx where
  me := 2
  root := true
  inRoot d := d < 9 || d == 13
  path _ d := match d with
    | 2 => ['/', 'a'] | 3 => ['/', 'b'] | 9 => ['/', 'v'] | 10 => ['/', 'v', '/', 'a'] | 13 => ['/', 'c', '<', 'd', '>'] | _ => []
  order := id
  top := ['/', 'p']
  outside p := if p = ['/', 'u'] then some [['s']] else none
  reOk _ := true
  fill _ s :=
    if s = ['.', '.', '/', 'b'] then some (1, ['b']) else if s = ['.', '.'] then some (2, ['.', '.'])
    else if s = ['.', '.', '/', 'c', '<', 'd', '>'] then some (1, ['c', '<', 'd', '>']) else none
  usable _ _ := true
  parse w _ := some w
  rule w ins _ := exPut w ins

/-- The Tupfile of `/v/a` instead. -/
def exVar : Cx := { exCx with me := 10, root := false }

def exStart : St := { w := exW, dirs := [], ins := [], env := [14], fail := false }

/-- A script that reads its own directory, `/b` and `/u`, and prints a rule for each of the names in the last. -/
def exScript : Script :=
  .list ['/', 'p', '/', 'a'] fun _ => .list ['/', 'p', '/', 'b'] fun _ => .list ['/', 'u'] fun r =>
    .done true ('#' :: 'h' :: '\n' :: ((match r with | some l => l | none => []).map fun s => ':' :: (s ++ ['\n'])).flatten)

def exPre : List Op := [.exports 14, .preload [['.', '.', '/', 'b'], ['.', '.']]]

def St.seen (st : St) : Dirs × List Nat × Bool × Nat := (st.dirs, st.ins, st.fail, st.w.db.top)

def Res.seen : Res St → Option (Dirs × List Nat × Bool × Nat)
  | .ok st => some st.seen
  | _ => none

/-- Ghosts, the virtual directory and the file that lost its rule are not listed.  The first script is accepted. -/
example : (run exCx exStart exScript).1 =
      [(['/', 'p', '/', 'a'], some [['x']]), (['/', 'p', '/', 'b'], none), (['/', 'u'], some [['s']])] ∧
    Res.seen (parse exCx exW [14] (exPre ++ [.run exScript])) =
      some ([(['/', 'a'], [['x']]), ([], [['a'], ['b'], ['v'], ['c', '<', 'd', '>']]), (['/', 'b'], [['y']])], [3, 1, 14, 14], false, 16) ∧
    Res.seen (parse exCx exW [14] [.run exScript]) = none := by decide +kernel

/-- The theorem on the own directory in a variant: a file that is in both trees is listed once. -/
example : (run exVar exStart (.list ['/', 'p', '/', 'a'] fun _ => .done true [])).1 =
    [(['/', 'p', '/', 'a'], some [['x'], ['z']])] := by decide +kernel

example : Reach exCx exW [14] [] exStart := .start

/-- A project beside this one. -/
example : (run exCx exStart (.list ['/', 'p', '2'] fun _ => .done true [])).1 = [(['/', 'p', '2'], none)] := by decide +kernel

example (db : Db) (d : Nat) : exCx.path db d = [] ∨ ∃ r, exCx.path db d = '/' :: r := by
  show (match d with
    | 2 => ['/', 'a'] | 3 => ['/', 'b'] | 9 => ['/', 'v'] | 10 => ['/', 'v', '/', 'a'] | 13 => ['/', 'c', '<', 'd', '>'] | _ => []) = ([] : Str) ∨ _
  unfold exCx
  dsimp only
  split <;> simp

theorem ex_own : SeenAt exCx exW.db exCx.me ['/', 'a'] := (shownAs_seen _ _ _).2 (by decide +kernel)

example : Listable exCx exW exCx.me := by
  refine ⟨⟨_, (rfl : exNode 2 = some _)⟩, fun q hq => ?_, fun s hs => absurd hs.1 (by decide)⟩
  rw [(shownAs_seen _ _ _).1 hq]
  decide +kernel

example : AllKeep exCx (exPre ++ [.run exScript]) := by
  refine ⟨fun s w ins w' ins' h i hi => ?_, fun f hf => ?_⟩
  · have h : exPut w ins = some (w', ins') := h
    cases h; exact hi
  · simp [exPre] at hf

/-- What is outdated: the rule that is read after the `preload` puts a file into `/b`, and a second script does not see it there, although
it would see such a file in its own directory. -/
theorem c81_stale : ∃ st st' : St, steps exCx exStart (exPre ++ [.other exPut]) = .ok st ∧
    Visible exCx st.w 3 ['n'] ∧ (run exCx st exScript).2 = some st' ∧
    (['/', 'p', '/', 'b'], some [['y']]) ∈ (run exCx st exScript).1 := by
  have hex : ∃ st, steps exCx exStart (exPre ++ [.other exPut]) = .ok st ∧
      st.w.db.node 15 = some { dir := 3, kind := .generated, name := ['n'] } ∧ st.w.gone 15 = false := by
    refine ⟨_, rfl, ?_, ?_⟩ <;> decide +kernel
  obtain ⟨st, h1, h2, h3⟩ := hex
  cases h1
  refine ⟨_, _, rfl, ⟨15, _, h2, rfl, .inl rfl, .inr (.inl rfl), h3, ?_⟩, rfl, ?_⟩
  · exact fun h => absurd h.1 (by decide)
  · decide +kernel

/-- What is missing: a directory whose name looks like a group is preloaded, but the Tupfile does not depend on it. -/
theorem c81_group_like : ∃ st', parse exCx exW [] [.preload [['.', '.', '/', 'c', '<', 'd', '>']]] = .ok st' ∧
    (∃ e ∈ st'.dirs, e.1 = ['/', 'c', '<', 'd', '>']) ∧ 13 ∉ st'.ins := by
  refine ⟨_, rfl, ?_, ?_⟩
  · exact ⟨_, List.mem_cons_self .., rfl⟩
  · decide +kernel

end Tup.RunScript
