import Verif.Generate.Script
import Verif.Generate.Order

/-! C72: the script that `tup generate` writes does what an update does. -/

namespace Tup.Generate

open Tup.Pel (Name text)
open Tup.Relative (Table Place Proper relative)
open Tup.Exec (Graph Cfg S Running WF HasJob Downstream)

theorem lines3 {a b c : Str} (ha : '\n' ∉ a) (hb : '\n' ∉ b) (hc : '\n' ∉ c) (s : Str) : lines (a ++ ['\n'] ++ b ++ ['\n'] ++ (c ++ ['\n']) ++ s) = a :: b :: c :: lines s := by
  have : a ++ ['\n'] ++ b ++ ['\n'] ++ (c ++ ['\n']) ++ s = a ++ '\n' :: (b ++ '\n' :: (c ++ '\n' :: s)) := by simp
  rw [this, lines_cons ha, lines_cons hb, lines_cons hc]

theorem header_lines {verbose : Bool} {args : List Str} (h : ∀ a ∈ args, '\n' ∉ a) (s : Str) : ∃ l1 l2 l3, lines (header verbose args ++ s) = l1 :: l2 :: l3 :: lines s ∧
    readLine l1 = some .nothing ∧ readLine l2 = some .nothing ∧ readLine l3 = some .nothing := by
  have e3 : "export tup_vardict=\"$(cd $(dirname $0) && pwd)/tup-generate.vardict\"\n".toList = "export tup_vardict=\"$(cd $(dirname $0) && pwd)/tup-generate.vardict\"".toList ++ ['\n'] := by
    decide
  have h1 : '\n' ∉ "#! /bin/sh -e".toList ++ (if verbose then ['x'] else []) := by cases verbose <;> decide
  have h2 : '\n' ∉ "# This file is automatically generated with: tup generate".toList ++ args.flatMap (fun a => ' ' :: a) := by
    rw [List.mem_append, not_or]
    refine ⟨by decide, ?_⟩
    rw [List.mem_flatMap]
    rintro ⟨a, ha, hc⟩
    rcases List.mem_cons.1 hc with hc | hc
    · exact absurd hc (by decide)
    · exact h a ha hc
  have h3 : '\n' ∉ "export tup_vardict=\"$(cd $(dirname $0) && pwd)/tup-generate.vardict\"".toList := by decide
  have hl := lines3 h1 h2 h3 s
  rw [← e3] at hl
  refine ⟨"#! /bin/sh -e".toList ++ (if verbose then ['x'] else []), "# This file is automatically generated with: tup generate".toList ++ args.flatMap (fun a => ' ' :: a),
    "export tup_vardict=\"$(cd $(dirname $0) && pwd)/tup-generate.vardict\"".toList, ?_, ?_, ?_, ?_⟩
  · unfold header
    rw [← hl]
    simp only [List.append_assoc]
  · rfl
  · rfl
  · rfl

variable {W : Type}

/-- The directories above one that tup makes. -/
theorem needs_above (K : World W) {E : Env} (hE : Sound E) {w0 : W}
    (ha : ∀ g m p a, E.genDir g = true → E.tab g = some ⟨m, some p⟩ → E.genDir p = false → Place E.tab p a → ∀ x y, a = x ++ y → K.isDir w0 x = true) {n q : _} (b : List Str) :
    ∀ {x : Nat}, Needs E n x → Place E.tab x (q ++ b) → K.isDir w0 q = true ∨ ∃ g, Needs E n g ∧ Place E.tab g q := by
  suffices h : ∀ k, ∀ b : List Str, b.length = k → ∀ {x : Nat}, Needs E n x → Place E.tab x (q ++ b) → K.isDir w0 q = true ∨ ∃ g, Needs E n g ∧ Place E.tab g q from fun {x} => h _ b rfl (x := x)
  intro k
  induction k with
  | zero =>
    intro b hb x hx hp
    rw [List.length_eq_zero_iff.1 hb, List.append_nil] at hp
    exact .inr ⟨x, hx, hp⟩
  | succ k ih =>
    intro b hb x hx hp
    have hgx : E.genDir x = true := by cases hx <;> assumption
    obtain ⟨m, y, p', h1, h2, h3⟩ := place_gen hE hgx hp
    have hb' : b = b.dropLast ++ [m] ∧ p' = q ++ b.dropLast := by
      have hne : b ≠ [] := by intro h; rw [h] at hb; cases hb
      rw [← List.dropLast_concat_getLast hne, ← List.append_assoc] at h3
      obtain ⟨e1, e2⟩ := List.append_inj' h3 rfl
      refine ⟨?_, e1.symm⟩
      rw [← e2]
      exact (List.dropLast_concat_getLast hne).symm
    rw [hb'.2] at h2
    cases hgy : E.genDir y with
    | false => exact .inl (ha x m y _ hgx h1 hgy h2 q b.dropLast rfl)
    | true =>
      refine ih b.dropLast ?_ (.up hx h1 hgy) h2
      rw [List.length_dropLast, hb]
      rfl

/-- C72. If the executor has gone through the graph of commands, then a script is written, and a shell that runs it in the top directory does this: it makes directories `ps`, so that besides
those that were there before there are those of the build directory and those that tup makes for the files of the graph, and no others; and then it runs the commands of the graph, each in
its own directory, until one fails: each command once, and after everything that it depends on. -/
theorem c72_script_runs_the_commands (K : World W) {E : Env} (hE : Sound E) {c : Cfg} {g0 : Graph} {root : Nat} {rest : List Nat} (hj : 0 < c.jobs) (hwf : WF g0 root rest)
    (htr : ∀ n, g0.trans n = .none) {s : S Out} (hs : Running c (Work E) g0 { cwd := E.top } s) (hd : s.pc = .done true) (w0 : W) (verbose : Bool) (args : List Str) (build : List Nat)
    (ht : Tame K E w0 args build g0.nodeList) :
    ∃ (t : Str) (order : List Nat) (cs : List (List Str × Str)) (ps : List (List Str)), script E verbose args build g0.nodeList s.db.text = some t ∧ order.Nodup ∧ (∀ n, n ∈ order ↔ HasJob c rest n) ∧
      (∀ u b v a, order = u ++ b :: v → Downstream g0 a b → HasJob c rest a → a ∈ u) ∧ Commands E order cs ∧
      (∀ q, K.isDir (ps.foldl K.make w0) q = true ↔ K.isDir w0 q = true ∨ (q ≠ [] ∧ ∃ v ∈ build, ∃ b, Place E.tab v (q ++ b)) ∨
        ∃ n ∈ g0.nodeList, E.genFile n = true ∧ ∃ g, Needs E n g ∧ Place E.tab g q) ∧
      shell K w0 [] (lines t) = runAll K (ps.foldl K.make w0) cs := by
  obtain ⟨hT, hlog, hok⟩ := told_done (o0 := { cwd := E.top }) rfl hj hwf htr hs hd
  obtain ⟨t0, htop⟩ := hE.top
  obtain ⟨body, cs, b1, b2, b3⟩ := shell_body K hE w0 ht.dirs ht.commands s.db.log.reverse { cwd := E.top } [] (.top htop) (by
    intro u n v h
    have h' : s.db.log = v.reverse ++ n :: u.reverse := by
      have := congrArg List.reverse h
      rw [List.reverse_reverse] at this
      rw [this]
      simp
    have := hok _ _ _ h'
    rw [List.reverse_reverse] at this
    exact this)
  rw [← hT.text, List.nil_append] at b1
  obtain ⟨bs, d1, d2, d3⟩ := buildDirs_eq hE build fun v hv => (ht.build v hv).imp fun p h => h.1
  obtain ⟨seen, ms, m1, m2, m3⟩ := mkdirAll_eq hE g0.nodeList [] [] (fun n hn hg => by
    obtain ⟨m, d, p, h1, h2, _⟩ := ht.files n hn hg
    exact ⟨m, d, p, h1, h2⟩) (by intro x hx; cases hx)
  rw [List.nil_append] at m1
  -- the lines
  have hbline : ∀ p ∈ bs, ∀ n ∈ p, Name n ∧ BareName n ∧ n.head? ≠ some '-' := by
    intro p hp n hn
    obtain ⟨v, hv, hpl⟩ := d2 p hp
    obtain ⟨p', hp', hb⟩ := ht.build v hv
    rw [place_fun hp' hpl] at hb
    exact ⟨place_names hE.proper hpl n hn, hb n hn⟩
  have hmline : ∀ p ∈ ms, p ≠ [] ∧ ∀ n ∈ p, Name n ∧ PlainName n := by
    intro p hp
    obtain ⟨n, x, hn, hg, hnx, hx⟩ := m2 p hp
    obtain ⟨m, d, p', h1, h2, h3⟩ := ht.files n hn hg
    have hgx : E.genDir x = true := by cases hnx <;> assumption
    refine ⟨?_, fun e he => ⟨place_names hE.proper hx e he, h3 x p hnx hx e he⟩⟩
    obtain ⟨m', q', p'', _, _, rfl⟩ := place_gen hE hgx hx
    simp
  have hbare : ∀ p ∈ bs, ∀ c ∈ (if p = [] then ['.'] else p.flatMap fun n => n ++ ['/']), c.isAlphanum = true ∨ c ∈ ['_', '.', '/', '-', '+', ',', ':', '@', '%'] := by
    intro p hp c hc
    split at hc
    · rw [List.mem_singleton.1 hc]
      exact .inr (by decide)
    · obtain ⟨n, hn, hc⟩ := List.mem_flatMap.1 hc
      rcases List.mem_append.1 hc with hc | hc
      · rcases (hbline p hp n hn).2.1 c hc with h | h
        · exact .inl h
        · refine .inr ?_
          simp only [List.mem_cons, List.not_mem_nil, or_false] at h ⊢
          rcases h with h | h | h | h | h | h | h | h <;> simp [h]
      · rw [List.mem_singleton.1 hc]
        exact .inr (by decide)
  have hnlb : ∀ p ∈ bs, '\n' ∉ "mkdir -p ".toList ++ (if p = [] then ['.'] else p.flatMap fun n => n ++ ['/']) := by
    intro p hp h
    rcases List.mem_append.1 h with h | h
    · exact absurd h (by decide)
    · exact absurd (hbare p hp _ h) (by decide)
  have hnlm : ∀ p ∈ ms, '\n' ∉ mkLine p := by
    intro p hp h
    unfold mkLine at h
    rcases List.mem_append.1 h with h | h
    · rcases List.mem_append.1 h with h | h
      · exact absurd h (by decide)
      · exact (text_plain (fun e he => (((hmline p hp).2 e he).2).1) _ h).2.2.2.2 rfl
    · exact absurd h (by decide)
  obtain ⟨l1, l2, l3, hl, r1, r2, r3⟩ := header_lines (verbose := verbose) ht.args
    ((bs.flatMap fun p => "mkdir -p ".toList ++ (if p = [] then ['.'] else p.flatMap fun n => n ++ ['/']) ++ ['\n']) ++ ((ms.flatMap fun p => mkLine p ++ ['\n']) ++ body))
  rw [lines_flat (fun p => "mkdir -p ".toList ++ (if p = [] then ['.'] else p.flatMap fun n => n ++ ['/'])) _ bs hnlb, lines_flat mkLine _ ms hnlm] at hl
  -- the build directory
  obtain ⟨w1, s1, ⟨ps1, s2⟩, s3⟩ := shell_mkdirs K (f := fun p => "mkdir -p ".toList ++ (if p = [] then ['.'] else p.flatMap fun n => n ++ ['/']))
    (g := fun p => if p = [] then ['.'] else p.flatMap fun n => n ++ ['/']) (P := fun p => p ∈ bs) (fun p _ => rfl) (by
      intro p hp
      have hw := word_bare (hbare p hp)
      refine ⟨_, operand_some hw ?_ ?_, ?_, ?_⟩
      · split
        · decide
        · rename_i h0
          cases p with
          | nil => exact absurd rfl h0
          | cons x p => simp
      · split
        · decide
        · cases p with
          | nil => simp
          | cons x p =>
            have := hbline _ hp x List.mem_cons_self
            cases x with
            | nil => exact absurd rfl this.1.1
            | cons c x => simpa using this.2.2
      · split
        · decide
        · cases p with
          | nil => simp
          | cons x p =>
            have := hbline _ hp x List.mem_cons_self
            have hh := name_head this.1
            cases x with
            | nil => exact absurd rfl this.1.1
            | cons c x => simpa using hh
      · split
        · rename_i h0
          exact .inr ⟨h0, by decide⟩
        · exact .inl (comps_slashes fun e he => ⟨(hbline p hp e he).1.1, (hbline p hp e he).1.2.1⟩))
    (fun p hp n hn => (hbline p hp n hn).1) (ms.map mkLine ++ lines body) bs w0 fun _ h => h
  -- the directories that tup makes
  obtain ⟨w2, s4, ⟨ps2, s5⟩, s6⟩ := shell_mkdirs K (f := mkLine) (g := fun p => '"' :: text p ++ ['"']) (P := fun p => p ∈ ms) (fun p _ => by
      have e1 : "mkdir -p \"".toList = "mkdir -p ".toList ++ ['"'] := by decide
      have e2 : "\"".toList = ['"'] := by decide
      unfold mkLine
      rw [e1, e2]
      simp only [List.append_assoc, List.cons_append, List.nil_append]) (by
      intro p hp
      have hpl := hmline p hp
      have htx := text_plain (l := p) fun e he => ((hpl.2 e he).2).1
      have hw := word_quoted fun c hc => ⟨(htx c hc).1, (htx c hc).2.1, (htx c hc).2.2.1, (htx c hc).2.2.2.1⟩
      cases p with
      | nil => exact absurd rfl hpl.1
      | cons x p =>
        have hx := hpl.2 x List.mem_cons_self
        have hh := text_head hx.1.1 p
        refine ⟨text (x :: p), operand_some hw hh.2 ?_, ?_, .inl (comps_text fun e he => ⟨(hpl.2 e he).1.1, (hpl.2 e he).1.2.1⟩)⟩
        · rw [hh.1]; exact hx.2.2
        · rw [hh.1]; exact name_head hx.1)
    (fun p hp n hn => ((hmline p hp).2 n hn).1) (lines body) ms w1 fun _ h => h
  refine ⟨header verbose args ++ ((bs.flatMap fun p => "mkdir -p ".toList ++ (if p = [] then ['.'] else p.flatMap fun n => n ++ ['/']) ++ ['\n']) ++
      ((ms.flatMap fun p => mkLine p ++ ['\n']) ++ body)), s.db.log.reverse, cs, ps1 ++ ps2, ?_, ?_, ?_, ?_, b2, ?_, ?_⟩
  · unfold script
    rw [d1, m1, b1]
    simp only [List.append_assoc]
  · exact (List.reverse_perm _).nodup_iff.2 hT.nodup
  · intro n
    rw [List.mem_reverse]
    exact hlog n
  · intro u b v a h hab ha
    have h' : s.db.log = v.reverse ++ b :: u.reverse := by
      have := congrArg List.reverse h
      rw [List.reverse_reverse] at this
      rw [this]
      simp
    exact List.mem_reverse.1 (hT.order a b _ _ h' hab ha)
  · intro q
    rw [List.foldl_append, ← s2, ← s5, s6, s3]
    constructor
    · rintro ((h | ⟨p, hp, b, rfl, h0⟩) | ⟨p, hp, b, rfl, h0⟩)
      · exact .inl h
      · obtain ⟨v, hv, h⟩ := d2 _ hp
        exact .inr (.inl ⟨h0, v, hv, b, h⟩)
      · obtain ⟨n, x, hn, hg, hnx, hx⟩ := m2 _ hp
        rcases needs_above K hE ht.above b hnx hx with h | ⟨g, h1, h2⟩
        · exact .inl h
        · exact .inr (.inr ⟨n, hn, hg, g, h1, h2⟩)
    · rintro (h | ⟨h0, v, hv, b, h⟩ | ⟨n, hn, hg, g, h1, h2⟩)
      · exact .inl (.inl h)
      · obtain ⟨p, hp, h'⟩ := d3 v hv
        exact .inl (.inr ⟨p, hp, b, place_fun h' h, h0⟩)
      · obtain ⟨p, hp, h'⟩ := (m3 n g hn hg h1).resolve_left (by simp)
        rw [place_fun h' h2] at hp
        exact .inr ⟨q, hp, [], (List.append_nil q).symm, (hmline q hp).1⟩
  · rw [hl, shell, r1, shell, r2, shell, r3]
    simp only
    rw [s1, s4, b3 w2 (fun q hq => (s6 q).2 (.inl ((s3 q).2 (.inl hq)))), List.foldl_append, ← s2, ← s5]

/-! ### Concrete cases -/

/-- Directories, and the commands that have run; the command `false` fails. -/
def exK : World (List (List Str) × List (List Str × Str)) where
  isDir w q := decide (q ∈ w.1)
  make w p := (p :: w.1, w.2)
  exec w d c := if c = "false".toList then none else some (w.1, w.2 ++ [(d, c)])
  make_dir w p q := by
    simp only [List.mem_cons]
    by_cases h1 : q = p <;> by_cases h2 : q ∈ w.1 <;> simp [h1, h2]
  keeps w d c w' h q hq := by
    split at h
    · cases h
    · cases h
      exact hq

/-- One round of an execution with the work function of the script. -/
def exRound (E : Env) (c : Cfg) (s : S Out) : S Out :=
  match Exec.mainStep c s with
  | some s' => s'
  | none =>
    match s.running with
    | [] => s
    | n :: _ => { s with running := s.running.erase n, fin := (n, (work E s.db n).2) :: s.fin, db := (work E s.db n).1 }

def exRounds (E : Env) (c : Cfg) : Nat → S Out → S Out
  | 0, s => s
  | k + 1, s => exRounds E c k (exRound E c s)

theorem exRounds_reach {E : Env} {c : Cfg} {s0 : S Out} : ∀ (k : Nat) (s : S Out), Exec.Reach c (Work E) s0 s → Exec.Reach c (Work E) s0 (exRounds E c k s) := by
  intro k
  induction k with
  | zero => intro s h; exact h
  | succ k ih =>
    intro s h
    refine ih _ ?_
    unfold exRound
    cases hm : Exec.mainStep c s with
    | some s' => exact .tail h (.main hm)
    | none =>
      simp only
      cases hr : s.running with
      | nil => exact h
      | cons n l =>
        have : n ∈ s.running := by rw [hr]; exact List.mem_cons_self
        have st : Exec.Step c (Work E) s _ := .finish this (show work E s.db n = ((work E s.db n).1, (work E s.db n).2) from rfl)
        rw [hr] at st
        exact .tail h st

/-- The top, `src`, `src/out`, `src/out/o`, the file `src/out/o/a.o`, `build` and `build/src`. -/
def exT : Table
  | 1 => some ⟨".".toList, none⟩
  | 2 => some ⟨"src".toList, some 1⟩
  | 3 => some ⟨"out".toList, some 2⟩
  | 4 => some ⟨"o".toList, some 3⟩
  | 5 => some ⟨"a.o".toList, some 4⟩
  | 6 => some ⟨"build".toList, some 1⟩
  | 7 => some ⟨"src".toList, some 6⟩
  | _ => none

/-- Node 10 is a command in `src` (written down in `build/src`), 11 one at the top. -/
def exE : Env where
  tab := exT
  fuel := 10
  top := 1
  genDir d := d = 3 || d = 4
  genFile n := n = 5
  inBuild d := d = 6 || d = 7
  dirOf n := if n = 10 then some 7 else if n = 11 then some 1 else none
  text n := if n = 10 then some "gcc -c a.c -o 'out/o/a.o'".toList else if n = 11 then some "cp src/out/o/a.o b".toList else none
  src d := if d = 7 then 2 else d

def exG : Graph := { nodeList := [0, 10, 5, 11], plist := [], edges := [(0, 10), (10, 5), (5, 11)], proc := fun _ => false, trans := fun _ => .none }

def exC : Cfg := { keepGoing := false, jobs := 1, expanded := fun _ => true }

def exS : S Out := exRounds exE exC 20 ((Exec.start exG { cwd := 1 }).get (by decide))

theorem exG_wf : WF exG 0 [10, 5, 11] where
  nodes := rfl
  nodup := by decide
  plist := rfl
  noproc := by intro _ _; rfl
  src := by intro a b h; simp only [exG, List.mem_cons, Prod.mk.injEq, List.not_mem_nil] at h ⊢; grind
  dst := by intro a b h; simp only [exG, List.mem_cons, Prod.mk.injEq, List.not_mem_nil] at h ⊢; grind
  reach := by
    intro b h
    simp only [List.mem_cons, List.not_mem_nil, or_false] at h
    rcases h with rfl | rfl | rfl
    · exact ⟨0, by decide⟩
    · exact ⟨10, by decide⟩
    · exact ⟨5, by decide⟩
  rootTrans := rfl
  notDelete := by intro n; simp [exG]
  transEdge := by intro a b _ h; simp [exG] at h

theorem exT_cases {i : Nat} {n : Relative.Node} (h : exT i = some n) : (i, n) ∈ [(1, ⟨".".toList, none⟩), (2, ⟨"src".toList, some 1⟩), (3, ⟨"out".toList, some 2⟩), (4, ⟨"o".toList, some 3⟩),
    (5, ⟨"a.o".toList, some 4⟩), (6, ⟨"build".toList, some 1⟩), ((7, ⟨"src".toList, some 6⟩) : Nat × Relative.Node)] := by
  unfold exT at h
  split at h <;> cases h <;> simp

theorem exT_proper : Proper exT where
  top := by
    intro i j n m h1 h2
    have h1 := exT_cases h1
    have h2 := exT_cases h2
    simp at h1 h2
    omega
  unique := by
    intro i j n h1 h2
    have h1 := exT_cases h1
    have h2 := exT_cases h2
    simp only [List.mem_cons, Prod.mk.injEq, List.not_mem_nil, or_false] at h1 h2
    rcases h1 with ⟨rfl, rfl⟩ | ⟨rfl, rfl⟩ | ⟨rfl, rfl⟩ | ⟨rfl, rfl⟩ | ⟨rfl, rfl⟩ | ⟨rfl, rfl⟩ | ⟨rfl, rfl⟩ <;> simp at h2 <;> omega
  names := by
    intro i n d h
    have h := exT_cases h
    simp only [List.mem_cons, Prod.mk.injEq, Relative.Node.mk.injEq, List.not_mem_nil, or_false] at h
    unfold Name
    rcases h with ⟨_, _, h⟩ | ⟨_, rfl, _⟩ | ⟨_, rfl, _⟩ | ⟨_, rfl, _⟩ | ⟨_, rfl, _⟩ | ⟨_, rfl, _⟩ | ⟨_, rfl, _⟩
    · cases h
    all_goals decide

theorem exE_sound : Sound exE where
  proper := exT_proper
  top := ⟨_, rfl⟩
  deep := by
    have : ∀ id p, Place exT id p → p.length < id ∧ id < 8 := by
      intro id p h
      induction h with
      | top h =>
        have := exT_cases h
        simp at this
        simp [this.1]
      | child h _ ih =>
        have := exT_cases h
        simp at this
        simp
        omega
    intro id p h
    have := this id p h
    show p.length < 10
    omega
  genTop := rfl
  genBuild := by
    intro d h
    have h : (decide (d = 3) || decide (d = 4)) = true := h
    show (decide (d = 6) || decide (d = 7)) = false
    simp only [Bool.or_eq_true, decide_eq_true_eq, Bool.or_eq_false_iff, decide_eq_false_iff_not] at h ⊢
    omega

theorem exT_src : Place exT 2 ["src".toList] := .child (p := []) rfl (.top rfl)
theorem exT_out : Place exT 3 ["src".toList, "out".toList] := .child (p := ["src".toList]) rfl exT_src
theorem exT_o : Place exT 4 ["src".toList, "out".toList, "o".toList] := .child (p := ["src".toList, "out".toList]) rfl exT_out
theorem exT_build : Place exT 6 ["build".toList] := .child (p := []) rfl (.top rfl)
theorem exT_bsrc : Place exT 7 ["build".toList, "src".toList] := .child (p := ["build".toList]) rfl exT_build

def exW : List (List Str) × List (List Str × Str) := ([[], ["src".toList]], [])

theorem exE_prefix {a x y : List Str} (h : Place exT 2 a) (hxy : a = x ++ y) : exK.isDir exW x = true := by
  rw [place_fun h exT_src] at hxy
  match x, y, hxy with
  | [], _, _ => decide
  | [_], _, h => injection h with h _; rw [← h]; decide
  | _ :: _ :: _, _, h => simp at h

theorem exE_tame : Tame exK exE exW ["x.sh".toList] [6, 7] exG.nodeList where
  args := by decide
  build := by
    intro v hv
    simp only [List.mem_cons, List.not_mem_nil, or_false] at hv
    rcases hv with rfl | rfl
    · exact ⟨_, exT_build, by unfold BareName; decide⟩
    · exact ⟨_, exT_bsrc, by unfold BareName; decide⟩
  files := by
    intro n _ hg
    have hn : n = 5 := of_decide_eq_true hg
    subst hn
    refine ⟨_, _, _, rfl, exT_o, ?_⟩
    intro g q hn hq
    have hg : exE.genDir g = true := by cases hn <;> assumption
    have hg : (decide (g = 3) || decide (g = 4)) = true := hg
    simp only [Bool.or_eq_true, decide_eq_true_eq] at hg
    unfold PlainName
    rcases hg with rfl | rfl
    · rw [place_fun hq exT_out]
      decide
    · rw [place_fun hq exT_o]
      decide
  above := by
    intro g m p a hg ht hp ha x y hxy
    have hg : (decide (g = 3) || decide (g = 4)) = true := hg
    simp only [Bool.or_eq_true, decide_eq_true_eq] at hg
    rcases hg with rfl | rfl
    · cases ht
      exact exE_prefix ha hxy
    · cases ht
      cases hp
  dirs := by
    intro n d h
    have h : (if n = 10 then some 7 else if n = 11 then some 1 else none) = some d := h
    split at h
    · cases h
      exact ⟨_, exT_src, fun a b h => exE_prefix exT_src h, by unfold PlainName; decide⟩
    split at h
    · cases h
      refine ⟨[], .top rfl, fun a b h => ?_, by simp⟩
      rw [(List.append_eq_nil_iff.1 h.symm).1]
      decide
    · cases h
  commands := by
    intro n d c _ h
    have h : (if n = 10 then some "gcc -c a.c -o 'out/o/a.o'".toList else if n = 11 then some "cp src/out/o/a.o b".toList else none) = some c := h
    split at h
    · cases h
      decide
    split at h
    · cases h
      decide
    · cases h

/-- A run of the executor that writes a script. -/
theorem exS_ok : Running exC (Work exE) exG { cwd := exE.top } exS ∧ exS.pc = .done true ∧ exS.db.log = [11, 5, 10] ∧
    exS.db.text = "cd \"src\"\n(gcc -c a.c -o 'out/o/a.o')\ncd \"..\"\n(cp src/out/o/a.o b)\n".toList := by
  refine ⟨⟨_, ?_, exRounds_reach 20 _ .refl⟩, ?_, ?_, ?_⟩
  · exact (Option.some_get _).symm
  all_goals decide +kernel

/-- The hypotheses are met in this case. -/
example : ∃ t, script exE false ["x.sh".toList] [6, 7] exG.nodeList exS.db.text = some t ∧
    t = ("#! /bin/sh -e\n# This file is automatically generated with: tup generate x.sh\nexport tup_vardict=\"$(cd $(dirname $0) && pwd)/tup-generate.vardict\"\n" ++
      "mkdir -p build/\nmkdir -p build/src/\nmkdir -p \"src/out\"\nmkdir -p \"src/out/o\"\ncd \"src\"\n(gcc -c a.c -o 'out/o/a.o')\ncd \"..\"\n(cp src/out/o/a.o b)\n").toList ∧
    shell exK exW [] (lines t) = some ([["src", "out", "o"], ["src", "out"], ["build", "src"], ["build"], [], ["src"]].map (fun p => p.map String.toList),
      [(["src".toList], "gcc -c a.c -o 'out/o/a.o'".toList), ([], "cp src/out/o/a.o b".toList)]) :=
  ⟨_, by decide +kernel, rfl, by decide +kernel⟩

example := c72_script_runs_the_commands exK exE_sound (c := exC) (by decide) exG_wf (fun _ => rfl) exS_ok.1 exS_ok.2.1 exW true ["x.sh".toList] [6, 7] exE_tame

/-! ### Where the hypotheses are needed -/

/-- The top, `build` (given with `--builddir`), the directory `build/out` that tup makes, and the file `build/out/a.o`. -/
def exE2 : Env where
  tab
    | 1 => some ⟨".".toList, none⟩
    | 2 => some ⟨"build".toList, some 1⟩
    | 3 => some ⟨"out".toList, some 2⟩
    | 4 => some ⟨"a.o".toList, some 3⟩
    | _ => none
  fuel := 10
  top := 1
  genDir d := d = 3
  genFile n := n = 4
  inBuild d := d = 2 || d = 3
  dirOf _ := none
  text _ := none

/-- C72, `Sound.genBuild`: for a directory that tup makes inside the build directory the script makes a directory with the name that is printed in messages, and not the one that the commands
write to (src/tup/updater.c:235, src/tup/entry.c:225-241). -/
theorem c72_build_directory_wrong : ∃ t w, script exE2 false [] [2] [4] [] = some t ∧ shell exK ([[]], []) [] (lines t) = some w ∧ Needs exE2 4 3 ∧
    Place exE2.tab 3 ["build".toList, "out".toList] ∧ exK.isDir w ["build".toList, "out".toList] = false ∧ exK.isDir w ["[build] out".toList] = true :=
  ⟨((script exE2 false [] [2] [4] []).get (by decide +kernel)), ((shell exK ([[]], []) [] (lines ((script exE2 false [] [2] [4] []).get (by decide +kernel)))).get (by decide +kernel)),
    (Option.some_get _).symm, (Option.some_get _).symm, .here rfl rfl, .child (p := ["build".toList]) rfl (.child (p := []) rfl (.top rfl)), by decide +kernel, by decide +kernel⟩

/-- One command in a directory with the name `d`. -/
def exE3 (d c : Str) : Env where
  tab
    | 1 => some ⟨".".toList, none⟩
    | 2 => some ⟨d, some 1⟩
    | _ => none
  fuel := 10
  top := 1
  genDir _ := false
  genFile _ := false
  dirOf n := if n = 10 then some 2 else none
  text n := if n = 10 then some c else none

/-- C72, `Tame.dirs`: the script for a command in a directory whose name has a dollar sign, or begins with a dash, does not run the command; with other names it does. -/
theorem c72_directory_names : ∀ d ∈ ["a$b".toList, "-".toList, "ok dir".toList],
    (shell exK ([[], [d]], []) [] (lines (work (exE3 d "make".toList) { cwd := 1 } 10).1.text)).map (·.2) = if d = "ok dir".toList then some [([d], "make".toList)] else none := by
  decide +kernel

/-- C72, `Tame.commands`: a comment at the end of a command takes the closing parenthesis away; so does a quote that is not closed. -/
theorem c72_command_texts : ∀ c ∈ ["make # all".toList, "echo 'a".toList, "make '#all'".toList],
    (shell exK ([[], ["d".toList]], []) [] (lines (work (exE3 "d".toList c) { cwd := 1 } 10).1.text)).map (·.2) = if c = "make '#all'".toList then some [(["d".toList], c)] else none := by
  decide +kernel

/-- C72, `Tame.build`: the name of the build directory is not quoted. -/
theorem c72_build_name : ∀ d ∈ ["my build".toList, "build".toList], ((buildDirs (exE3 d []) [2]).bind fun t => shell exK ([[]], []) [] (lines t)).map (·.1) = if d = "build".toList then some [[d], []] else none := by
  decide +kernel

/-- C72, `Tame.args`: what follows a newline in an argument of `tup generate` is a line of the script. -/
theorem c72_argument : (lines (header false ["a\nrm b".toList]))[2]? = some "rm b".toList := by decide +kernel

end Tup.Generate
