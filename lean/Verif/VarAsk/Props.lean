import Verif.VarAsk.Lemmas
import Verif.Links.Props
import Verif.DirInputs.Props

/-!
C101: the variables of tup.config that a command asks for become its inputs, so that it runs again when one of them changes, and
what it puts out does not depend on others.
-/

namespace Tup.VarAsk

open Tup.Db Tup.Links Tup.Lookup Tup.Pel

variable {w : World} {s : Info} {cwd : List Str}

theorem walk_dir (h : Home w cwd) (hf : Free s cwd) (l : List Str) :
    walk w s cwd ("@tup@".toList :: l) = walk w s (cwd ++ ["@tup@".toList]) l := by
  rw [walk, if_neg (by decide), if_neg (by decide), if_neg (by decide), pathText_eq]
  rw [(getattr_virtual (w := w) (foreign_home h hf [] (by simp) (by simp)) (virtual_home h [])).1 rfl]

theorem components_key {k : Str} (hk : '/' ∉ k) :
    components (virtualDir ++ '/' :: k) = if k = [] then [virtualDir] else [virtualDir, k] := by
  unfold components
  rw [splitSlash_cons (by decide), splitSlash_name hk]
  have hv : virtualDir.isEmpty = false := by decide
  cases k with
  | nil => simp [hv]
  | cons c k => simp [hv]

theorem takeWhile_nul {k : Str} (h : Char.ofNat 0 ∉ k) : k.takeWhile (· ≠ Char.ofNat 0) = k := by
  induction k with
  | nil => rfl
  | cons c k ih =>
    simp only [List.mem_cons, not_or] at h
    rw [List.takeWhile_cons, if_pos (by simpa using Ne.symm h.1), ih h.2]

/-- C101: a variable that is asked for in a directory of the project is noted, and nothing else. -/
theorem c101_noted (h : Home w cwd) (hf : Free s cwd) {n : Str} (hn : Askable n) :
    sendEvent w cwd s n = { s with vars := s.vars ++ [n] } := by
  obtain ⟨⟨h1, h2, h3, h4⟩, h5, h6, h7⟩ := hn
  have hl : virtualDir.length = 5 := by decide
  unfold sendEvent
  simp only
  rw [takeWhile_nul h7, if_neg (by rw [List.length_append, List.length_cons, hl]; omega), components_key h2, if_neg h1]
  have hd : virtualDir = "@tup@".toList := rfl
  rw [hd, walk_dir h hf, walk, if_neg h3, if_neg h4, if_neg (by unfold nameMax; omega), pathText_eq, List.append_assoc]
  have ht : ".tup".toList ∉ [n] := by
    intro ht
    rw [List.mem_singleton] at ht
    subst ht
    exact h5 (by decide)
  have e : ([n].flatMap fun n => '/' :: n) = '/' :: n := by simp
  rw [List.singleton_append,
    (getattr_virtual (w := w) (foreign_home h hf [n] (by simpa using h2) ht) (virtual_home h [n])).2 '/' n e]

/-- C101: the empty name, as in `@@`, notes nothing. -/
theorem c101_empty (h : Home w cwd) (hf : Free s cwd) : sendEvent w cwd s [] = s := by
  unfold sendEvent
  simp only
  have : ([] : Str).takeWhile (· ≠ Char.ofNat 0) = [] := rfl
  rw [this, if_neg (by decide), components_key (by simp), if_pos rfl]
  have hd : virtualDir = "@tup@".toList := rfl
  rw [hd, walk_dir h hf, walk]

theorem Free.vars (hf : Free s cwd) (l : List Str) : Free { s with vars := l } cwd := hf

/-- C101: the output of a program, and what is noted while it runs: the names it asked for. -/
theorem c101_program (h : Home w cwd) {look : Str → Option Str} {p : Prog} {out : Str} {keys : List Str}
    (hp : Runs look p out keys) (hk : ∀ n ∈ keys, n ≠ [] → Askable n) : ∀ {s : Info}, Free s cwd →
    p.run w look cwd s = (out, { s with vars := s.vars ++ keys.filter fun n => !n.isEmpty }) := by
  induction hp with
  | done => intro s hf; rw [Prog.run, List.filter_nil, List.append_nil]
  | ask hr ih =>
    rename_i key next out keys
    intro s hf
    have ih := @ih (fun n hn => hk n (List.mem_cons_of_mem _ hn))
    rw [Prog.run]
    by_cases hz : key = []
    · subst hz
      rw [c101_empty h hf, ih hf]
      rfl
    · rw [c101_noted h hf (hk key List.mem_cons_self hz), ih (hf.vars _)]
      have : (key :: keys).filter (fun n => !n.isEmpty) = key :: keys.filter fun n => !n.isEmpty := by
        rw [List.filter_cons, if_pos]
        cases key with
        | nil => exact absurd rfl hz
        | cons c k => rfl
      rw [this]
      simp only [List.append_assoc, List.singleton_append]

/-- C101: values of variables that a program does not ask for have no influence. -/
theorem runs_same {look look' : Str → Option Str} {p : Prog} {out : Str} {keys : List Str} (h : Runs look p out keys)
    (hs : ∀ n ∈ keys, look n = look' n) : Runs look' p out keys := by
  induction h with
  | done => exact .done
  | ask hr ih =>
    rename_i key next out keys
    refine .ask ?_
    rw [← hs key List.mem_cons_self]
    exact ih fun n hn => hs n (List.mem_cons_of_mem _ hn)

theorem runs_total (look : Str → Option Str) (p : Prog) : ∃ out keys, Runs look p out keys := by
  induction p with
  | done out => exact ⟨out, [], .done⟩
  | ask key next ih =>
    obtain ⟨out, keys, h⟩ := ih (look key)
    exact ⟨out, key :: keys, .ask h⟩

/-! ### tup varsed -/

theorem sed_eq (bin : Bool) (s out : Str) : sed bin s out =
    match s.dropWhile (· != '@') with
    | [] => .done (out ++ s.takeWhile (· != '@'))
    | _ :: r =>
      match r.dropWhile Config.isWord with
      | [] => .done (out ++ s.takeWhile (· != '@') ++ '@' :: r.takeWhile Config.isWord)
      | d :: t =>
        if d = '@' then
          .ask (r.takeWhile Config.isWord) fun v =>
            sed bin t (out ++ s.takeWhile (· != '@') ++ Config.value (fun _ => v) bin (r.takeWhile Config.isWord))
        else sed bin (d :: t) (out ++ s.takeWhile (· != '@') ++ '@' :: r.takeWhile Config.isWord) := by
  rw [sed]
  split
  · next h => simp only [h]
  · next h =>
    simp only [h]
    split
    · next h' => simp only [h']
    · next h' => simp only [h']

theorem sed_byte {bin : Bool} {c : Char} (hc : c ≠ '@') (s out : Str) : sed bin (c :: s) out = sed bin s (out ++ [c]) := by
  have h1 : (c :: s).dropWhile (· != '@') = s.dropWhile (· != '@') := by simp [hc]
  have h2 : (c :: s).takeWhile (· != '@') = c :: s.takeWhile (· != '@') := by simp [hc]
  rw [sed_eq, sed_eq (s := s), h1, h2]
  rw [show out ++ c :: s.takeWhile (· != '@') = out ++ [c] ++ s.takeWhile (· != '@') by simp]

theorem sed_at (bin : Bool) (r out : Str) : sed bin ('@' :: r) out =
    match r.dropWhile Config.isWord with
    | [] => .done (out ++ '@' :: r.takeWhile Config.isWord)
    | d :: t =>
      if d = '@' then
        .ask (r.takeWhile Config.isWord) fun v =>
          sed bin t (out ++ Config.value (fun _ => v) bin (r.takeWhile Config.isWord))
      else sed bin (d :: t) (out ++ '@' :: r.takeWhile Config.isWord) := by
  have h1 : ('@' :: r).dropWhile (· != '@') = '@' :: r := by simp
  have h2 : ('@' :: r).takeWhile (· != '@') = [] := by simp
  rw [sed_eq, h1, h2]
  simp only [List.append_nil]

theorem sed_bytes {bin : Bool} {n : Str} (hn : '@' ∉ n) (s out : Str) : sed bin (n ++ s) out = sed bin s (out ++ n) := by
  induction n generalizing out with
  | nil => rw [List.nil_append, List.append_nil]
  | cons c n ih =>
    simp only [List.mem_cons, not_or] at hn
    rw [List.cons_append, sed_byte (Ne.symm hn.1), ih hn.2]
    simp

theorem sed_runs {text : Str} {keys : List Str} (h : Refs text keys) (look : Str → Option Str) (bin : Bool) :
    ∀ out, Runs look (sed bin text out) (out ++ Config.replace look bin text) keys := by
  induction h with
  | nil =>
    intro out
    rw [sed_eq, Config.replace_nil]
    exact .done
  | @byte c _ _ hc _ ih =>
    intro out
    rw [sed_byte hc, Config.replace_byte hc]
    have := ih (out ++ [c])
    rwa [List.append_assoc] at this
  | @var n s l hn _ ih =>
    intro out
    obtain ⟨h1, h2⟩ := Config.span_word (n := n) (u := '@' :: s) hn (by intro c hc; cases hc; exact Config.isWord_at)
    rw [List.cons_append, Config.replace_at, sed_at, h2, h1]
    simp only [if_true]
    refine .ask ?_
    have := ih (out ++ Config.value look bin n)
    rwa [List.append_assoc] at this
  | @«at» s l h hr ih =>
    intro out
    rw [Config.replace_single h, sed_at]
    have hs : s = s.takeWhile Config.isWord ++ s.dropWhile Config.isWord := List.takeWhile_append_dropWhile.symm
    have hw := Config.word_takeWhile s
    have ih := ih (out ++ ['@'])
    cases hd : s.dropWhile Config.isWord with
    | nil =>
      rw [hd, List.append_nil] at hs
      rw [← hs]
      simp only
      have hb : sed bin s (out ++ ['@']) = .done (out ++ ['@'] ++ s) := by
        have := sed_bytes (bin := bin) (n := s) (by rw [hs]; exact Config.word_at hw) [] (out ++ ['@'])
        rw [List.append_nil] at this
        rw [this, sed_eq]
        simp
      have hre : Config.replace look bin s = s := by
        have := Config.replace_bytes (look := look) (bin := bin) (n := s) (s := []) (by rw [hs]; exact Config.word_at hw)
        rwa [List.append_nil, Config.replace_nil, List.append_nil] at this
      rw [hb, hre] at ih
      rw [hre]
      rwa [List.append_assoc] at ih
    | cons d t =>
      have hne : d ≠ '@' := by
        intro h0
        subst h0
        rw [hd] at hs
        exact h ⟨_, t, hw, hs⟩
      simp only
      rw [if_neg hne]
      rw [hd] at hs
      have hb : sed bin s (out ++ ['@']) = sed bin (d :: t) (out ++ '@' :: s.takeWhile Config.isWord) := by
        conv => lhs; rw [hs, sed_bytes (Config.word_at hw)]
        rw [List.append_assoc]
        rfl
      rw [hb] at ih
      rwa [List.append_assoc] at ih

theorem refs_exists (s : Str) : ∃ l, Refs s l := by
  generalize hn : s.length = n
  induction n using Nat.strongRecOn generalizing s with
  | ind n ih =>
    cases s with
    | nil => exact ⟨[], .nil⟩
    | cons c s =>
      simp only [List.length_cons] at hn
      by_cases hc : c = '@'
      · subst hc
        by_cases hx : ∃ n u, Config.Word n ∧ s = n ++ '@' :: u
        · obtain ⟨m, u, hm, rfl⟩ := hx
          simp only [List.length_append, List.length_cons] at hn
          obtain ⟨l, hl⟩ := ih u.length (by omega) u rfl
          exact ⟨m :: l, .var hm hl⟩
        · obtain ⟨l, hl⟩ := ih s.length (by omega) s rfl
          exact ⟨l, .at hx hl⟩
      · obtain ⟨l, hl⟩ := ih s.length (by omega) s rfl
        exact ⟨l, .byte hc hl⟩

theorem runs_unique {look : Str → Option Str} {p : Prog} {out out' : Str} {keys keys' : List Str} (h : Runs look p out keys)
    (h' : Runs look p out' keys') : out = out' ∧ keys = keys' := by
  induction h generalizing out' keys' with
  | done => cases h'; exact ⟨rfl, rfl⟩
  | ask hr ih =>
    cases h' with
    | ask hr' =>
      obtain ⟨h1, h2⟩ := ih hr'
      exact ⟨h1, by rw [h2]⟩

theorem refs_unique {s : Str} {l l' : List Str} (h : Refs s l) (h' : Refs s l') : l = l' :=
  (runs_unique (sed_runs h (fun _ => none) false []) (sed_runs h' (fun _ => none) false [])).2

/-- C101: `tup varsed` asks for the names between the at signs of its input, and puts out what C18 says. -/
theorem c101_varsed (look : Str → Option Str) (bin : Bool) (text : Str) :
    ∃ keys, Refs text keys ∧ (∀ l, Refs text l → l = keys) ∧
      ∀ t, Config.Sub look bin text t → Runs look (sed bin text []) t keys := by
  obtain ⟨keys, h⟩ := refs_exists text
  refine ⟨keys, h, fun l hl => refs_unique hl h, fun t ht => ?_⟩
  rw [Config.replace_sub ht]
  exact sed_runs h look bin []

/-! ### The inputs of the command -/

theorem elements_name {top n : Str} (hn : Name n) (hh : n ∉ hiddenNames) : elements top n = [n] := by
  obtain ⟨h1, h2, h3, h4⟩ := hn
  have hc : Comps n [n] := by
    have := Comps.cons (w := []) (e := n) (t := []) (l := []) (by simp) h1 h2 (by simp) (.nil (by simp))
    rwa [List.nil_append, List.append_nil] at this
  have hs : splitPath n = some (n.head? == some '/', ⟨[n], 0 + 1⟩) := by
    unfold splitPath
    rw [splitLoop_comps hc]
    simp only [List.foldlM_cons, List.foldlM_nil, addElem, if_neg h3, if_neg h4]
    rfl
  have hr : (n.head? == some '/') = false := by
    cases n with
    | nil => rfl
    | cons c n =>
      simp only [List.mem_cons, not_or] at h2
      simpa using Ne.symm h2.1
  have hi : isHidden [n] = false := by
    have : ignored n = false := by
      cases hg : ignored n with
      | false => rfl
      | true =>
        exfalso
        unfold ignored at hg
        simp only [Bool.or_eq_true, decide_eq_true_eq] at hg
        unfold hiddenNames at hh
        simp only [List.mem_cons, List.not_mem_nil, or_false] at hh
        grind
    unfold isHidden
    rw [List.any_cons, this, Bool.and_false]
    rfl
  unfold elements getPathElements
  rw [hs, hr]
  simp only [hi, if_neg Bool.false_ne_true, Bool.or_self]

theorem foldl_addId {groups l : List Nat} (hl : Asc l) : Asc (groups.foldl (fun l g => addId g l) l) ∧
    ∀ a, a ∈ groups.foldl (fun l g => addId g l) l ↔ a ∈ l ∨ a ∈ groups := by
  induction groups generalizing l with
  | nil => exact ⟨hl, fun a => by simp⟩
  | cons g groups ih =>
    obtain ⟨h1, h2⟩ := ih (asc_addId (i := g) hl)
    refine ⟨h1, fun a => ?_⟩
    rw [List.foldl_cons, h2, mem_addId, List.mem_cons]
    constructor
    · rintro ((h | h) | h) <;> simp [h]
    · rintro (h | h | h) <;> simp [h]

variable {top : Str} {db db' : Db} {env cmd vardt : Nat} {variant : Nat → Option Nat} {outputs groups : List Nat}
  {reads vars : List Str} {important : Bool}

theorem touched_asc (h : DirInputs.Good db) (v : Nat) (reads vars : List (List Str)) :
    Asc (DirInputs.touched db v reads vars).2 := by
  unfold DirInputs.touched
  obtain ⟨a1, a2, a3, a4, a5, a6⟩ := DirInputs.fold_ok 1 reads (db, []) h List.Pairwise.nil (by simp)
  obtain ⟨b1, b2, b3, b4, b5, b6⟩ := DirInputs.fold_ok v vars _ a1 a3 a4
  exact b3

theorem update_spec (h : DirInputs.Good db) (hg : ∀ g ∈ groups, (db.node g).isSome)
    (he : updateReads top db env cmd vardt variant outputs groups reads vars = some (db', true, important)) :
    DirInputs.Made db vardt (reads.map (elements top)) (vars.map (elements top)) db' ∧
      ∀ a, db'.normal a cmd = true ↔
        ((DirInputs.Used db' vardt (reads.map (elements top)) (vars.map (elements top)) a ∧ DirInputs.Plain db' a ∨
          a ∈ groups) ∧ (a ∉ outputs ∨ db.normal a cmd = true)) ∨
        (db.normal a cmd = true ∧ db.sticky a cmd = true ∧ inDir db' env a = true) := by
  unfold updateReads at he
  dsimp only at he
  obtain ⟨t1, t2, t3, t4, t5, t6⟩ := DirInputs.touched_ok h vardt (reads.map (elements top)) (vars.map (elements top))
  have hm := DirInputs.touched_made h vardt (reads.map (elements top)) (vars.map (elements top))
  obtain ⟨f1, f2⟩ := foldl_addId (groups := groups) (touched_asc h vardt (reads.map (elements top)) (vars.map (elements top)))
  generalize DirInputs.touched db vardt (reads.map (elements top)) (vars.map (elements top)) = r at *
  have hrs : ReadSet r.1 (groups.foldl (fun l g => addId g l) r.2) := by
    refine ⟨f1, fun a ha => ?_⟩
    rcases (f2 a).1 ha with ha | ha
    · exact t3 a ha
    · obtain ⟨n, hn⟩ := Option.isSome_iff_exists.1 (hg a ha)
      rw [t2.ghosts.kept a n hn]
      rfl
  obtain ⟨_, c2, c3, c4, c5⟩ := c24_accepted t1.sound hrs he
  have hnode : db'.node = r.1.node := by rw [c5]
  have hsticky : db'.sticky = r.1.sticky := by rw [c5]
  refine ⟨DirInputs.made_node_eq hnode hm, fun a => ?_⟩
  rw [c2, f2, t4 a]
  unfold EnvLink DirInputs.Used DirInputs.Plain inDir
  simp only [DirInputs.leads_node_eq hnode, hnode, t2.normal, t2.sticky]

/-- C101: when the command has ended and its inputs are accepted, each variable that was noted is an input of it; if tup.config
does not have the variable there is a ghost for it. -/
theorem c101_input (h : DirInputs.Good db) (hv : Vars db vardt) (ho : Others db vardt outputs)
    (hg : ∀ g ∈ groups, (db.node g).isSome)
    (he : updateReads top db env cmd vardt variant outputs groups reads vars = some (db', true, important))
    {n : Str} (hn : n ∈ vars) (hname : Name n) (hh : n ∉ hiddenNames) :
    ∃ a, At db' vardt n a ∧ db'.normal a cmd = true ∧ ((∀ b, ¬ At db vardt n b) → db'.isKind .ghost a = true) := by
  obtain ⟨hm, hi⟩ := update_spec h hg he
  have hel := elements_name (top := top) hname hh
  have hmem : [n] ∈ vars.map (elements top) := by rw [← hel]; exact List.mem_map_of_mem hn
  obtain ⟨a, ha⟩ := hm.var [n] hmem
  cases ha with
  | down h1 h2 =>
    cases h2 with
    | here =>
      obtain ⟨m, g1, g2, g3⟩ := h1
      have hkind : (m.kind = .var ∨ m.kind = .ghost) ∧ m.mtime.1 ≠ 0 ∧ a ∉ outputs ∧
          ((∀ b, ¬ At db vardt n b) → m.kind = .ghost) := by
        cases hz : db.node a with
        | some m' =>
          have := hm.ghosts.kept a m' hz
          rw [g1] at this
          cases this
          obtain ⟨k1, k2⟩ := hv a m hz g2
          refine ⟨k1, k2, fun hx => ?_, fun hno => absurd ⟨m, hz, g2, g3⟩ (hno a)⟩
          obtain ⟨m', l1, l2⟩ := ho a hx
          rw [hz] at l1
          cases l1
          exact l2 g2
        | none =>
          obtain ⟨k1, k2, k3⟩ := hm.ghosts.new a m g1 hz
          refine ⟨.inr k1, by rw [k2]; decide, fun hx => ?_, fun _ => k1⟩
          obtain ⟨m', l1, l2⟩ := ho a hx
          rw [hz] at l1
          cases l1
      obtain ⟨k1, k2, k3, k4⟩ := hkind
      refine ⟨a, ⟨m, g1, g2, g3⟩, (hi a).2 (.inl ⟨.inl ⟨.inr ⟨[n], hmem, by simp, ?_⟩, m, g1, ?_, ?_, k2⟩, .inl k3⟩), fun hno => ?_⟩
      · exact .down ⟨m, g1, g2, g3⟩ (.here _)
      · rcases k1 with k1 | k1 <;> rw [k1] <;> decide
      · rcases k1 with k1 | k1 <;> rw [k1] <;> decide
      · exact isKind_iff.2 ⟨m, g1, k4 hno⟩

/-- C101: no other variable is an input, unless a file that was read has the name of one (or an exported environment variable
lies there, which is not so: they are in the directory `env`). -/
theorem c101_only_asked (h : DirInputs.Good db) (hgr : Others db vardt groups) (henv : env ≠ vardt)
    (he : updateReads top db env cmd vardt variant outputs groups reads vars = some (db', true, important))
    (hnames : ∀ n ∈ vars, Name n ∧ n ∉ hiddenNames) {n : Str} {a : Nat} (ha : At db' vardt n a) (hin : db'.normal a cmd = true) :
    n ∈ vars ∨ ∃ f ∈ reads, elements top f ≠ [] ∧ DirInputs.Leads db' 1 (elements top f) a := by
  have hg : ∀ g ∈ groups, (db.node g).isSome := fun g hg => by
    obtain ⟨m, h1, _⟩ := hgr g hg
    rw [h1]; rfl
  obtain ⟨hm, hi⟩ := update_spec h hg he
  obtain ⟨m, g1, g2, g3⟩ := ha
  rcases (hi a).1 hin with ⟨⟨⟨p, hp, hne, hl⟩ | ⟨p, hp, hne, hl⟩, _⟩ | hx, _⟩ | ⟨_, _, hx⟩
  · obtain ⟨f, hf, rfl⟩ := List.mem_map.1 hp
    exact .inr ⟨f, hf, hne, hl⟩
  · obtain ⟨k, hk, rfl⟩ := List.mem_map.1 hp
    obtain ⟨h1, h2⟩ := hnames k hk
    rw [elements_name h1 h2] at hl
    cases hl with
    | down l1 l2 =>
      cases l2 with
      | here =>
        obtain ⟨m', k1, k2, k3⟩ := l1
        rw [g1] at k1
        cases k1
        rw [← g3, k3]
        exact .inl hk
  · obtain ⟨m', k1, k2⟩ := hgr a hx
    have := hm.ghosts.kept a m' k1
    rw [g1] at this
    cases this
    exact absurd g2 k2
  · unfold inDir at hx
    rw [g1] at hx
    simp only [decide_eq_true_eq] at hx
    exact absurd (hx.symm.trans g2) henv

/-- C101: a variable that the command has asked for and that changes causes the command to run again. -/
theorem c101_rerun (h : DirInputs.Good db) (hv : Vars db vardt) (ho : Others db vardt outputs)
    (hg : ∀ g ∈ groups, (db.node g).isSome) (hc : db.isKind .cmd cmd = true)
    (he : updateReads top db env cmd vardt variant outputs groups reads vars = some (db', true, important))
    {n : Str} (hn : n ∈ vars) (hname : Name n) (hh : n ∉ hiddenNames) :
    ∃ a, At db' vardt n a ∧ (db'.modifyByInput a).modify cmd = true := by
  obtain ⟨a, h1, h2, _⟩ := c101_input h hv ho hg he hn hname hh
  obtain ⟨hm, _⟩ := update_spec h hg he
  obtain ⟨m, k1, k2⟩ := isKind_iff.1 hc
  have hk : db'.isKind .cmd cmd = true := isKind_iff.2 ⟨m, hm.ghosts.kept cmd m k1, k2⟩
  exact ⟨a, h1, by simp only [Db.modifyByInput, h2, hk, Bool.true_or, Bool.and_self, Bool.or_true]⟩

/-- C101, all together: a command runs a program in a directory of the project, and its inputs are accepted.  As long as the
variables that are inputs of the command have the same values, the program puts out the same. -/
theorem c101_same (h : DirInputs.Good db) (hv : Vars db vardt) (ho : Others db vardt outputs)
    (hg : ∀ g ∈ groups, (db.node g).isSome) (hh : Home w cwd) (hf : Free s cwd)
    {look look' : Str → Option Str} {p : Prog} {out : Str} {keys : List Str} (hp : Runs look p out keys)
    (hk : ∀ n ∈ keys, n ≠ [] → Askable n)
    (he : updateReads top db env cmd vardt variant outputs groups (p.run w look cwd s).2.reads (p.run w look cwd s).2.vars =
      some (db', true, important))
    (h0 : look [] = look' [])
    (hs : ∀ n a, At db' vardt n a → db'.normal a cmd = true → look n = look' n) {s' : Info} (hf' : Free s' cwd) :
    (p.run w look' cwd s').1 = (p.run w look cwd s).1 := by
  have h1 := c101_program hh hp hk hf
  rw [h1] at he ⊢
  have hsame : ∀ n ∈ keys, look n = look' n := by
    intro n hn
    by_cases hz : n = []
    · rw [hz]; exact h0
    · have hmem : n ∈ s.vars ++ keys.filter fun n => !n.isEmpty := by
        refine List.mem_append_right _ (List.mem_filter.2 ⟨hn, ?_⟩)
        cases n with
        | nil => exact absurd rfl hz
        | cons c n => rfl
      obtain ⟨a, h2, h3, _⟩ := c101_input h hv ho hg he hmem (hk n hn hz).name (hk n hn hz).shown
      exact hs n a h2 h3
  rw [c101_program hh (runs_same hp hsame) hk hf']

/-! ### What else is taken for a variable -/

/-- C101: which lookups of files note a variable. -/
theorem c101_lookup (s : Info) (f v : Str) :
    (getattr w s f).2.vars = s.vars ++ [v] ↔ (∃ c, ∃ g, Virtual w.top g (c :: v) ∧
      (f ≠ ".tup/mnt".toList ∧ ¬ Occurs "/.tup/mnt".toList f) ∧ f ∉ s.tmpdirs ∧ g = (findMap f s.maps).getD f) := by
  have hne : ∀ l : List Str, l ≠ l ++ [v] := fun l h => by
    have := congrArg List.length h
    simp at this
  unfold getattr
  by_cases hm : f = ".tup/mnt".toList ∨ (strstr "/.tup/mnt".toList f).isSome = true
  · rw [if_pos hm]
    constructor
    · intro h; exact absurd h (hne _)
    · rintro ⟨c, g, _, ⟨h1, h2⟩, _⟩
      rcases hm with hm | hm
      · exact absurd hm h1
      · obtain ⟨q, hq⟩ := Option.isSome_iff_exists.1 hm
        exact absurd ⟨q.1, q.2, (strstr_some hq).1⟩ h2
  · rw [if_neg hm]
    have hm' : f ≠ ".tup/mnt".toList ∧ ¬ Occurs "/.tup/mnt".toList f := by
      refine ⟨fun h => hm (.inl h), fun h => hm (.inr ?_)⟩
      cases hs : strstr "/.tup/mnt".toList f with
      | none => exact absurd h (strstr_none.1 hs)
      | some q => rfl
    by_cases ht : f ∈ s.tmpdirs
    · rw [if_pos ht]
      constructor
      · intro h; exact absurd h (hne _)
      · rintro ⟨c, g, _, _, h, _⟩; exact absurd ht h
    · rw [if_neg ht]
      simp only
      cases hv : virtualVar w.top ((findMap f s.maps).getD f) with
      | none =>
        constructor
        · intro h
          exfalso
          have : (handleRead f s).vars = s.vars := by unfold handleRead; split <;> rfl
          rw [this] at h
          exact hne _ h
        · rintro ⟨c, g, h1, _, _, rfl⟩
          rw [virtualVar_iff.2 h1] at hv
          cases hv
      | some rest =>
        cases rest with
        | nil =>
          constructor
          · intro h; exact absurd h (hne _)
          · rintro ⟨c, g, h1, _, _, rfl⟩
            rw [virtualVar_iff.2 h1] at hv
            cases hv
        | cons c u =>
          constructor
          · intro h
            have : u = v := by simpa using h
            subst this
            exact ⟨c, _, virtualVar_iff.1 hv, hm', ht, rfl⟩
          · rintro ⟨c', g, h1, _, _, rfl⟩
            rw [virtualVar_iff.2 h1] at hv
            cases hv
            rfl

/-- C101: a file in the project with "@tup@" in its name (or in the name of a directory above it) that a command has not made
itself cannot be read by any command: it is reported as a directory or as an error, whatever is there, and is not noted as
an input. -/
theorem c101_shadow {f rest : Str} (hf : Foreign s f) (hv : Virtual w.top f rest) :
    (getattr w s f).1 ≠ .file ∧ (getattr w s f).2.reads = s.reads := by
  obtain ⟨h1, h2⟩ := getattr_virtual hf hv
  cases rest with
  | nil => rw [h1 rfl]; exact ⟨fun h => Ans.noConfusion h, rfl⟩
  | cons c v => rw [h2 c v rfl]; exact ⟨fun h => Ans.noConfusion h, rfl⟩

theorem strstr_isSome {p f : Str} : (strstr p f).isSome = true ↔ Occurs p f := by
  cases h : strstr p f with
  | none => simp [strstr_none.1 h]
  | some q => simp only [Option.isSome_some, true_iff]; exact ⟨q.1, q.2, (strstr_some h).1⟩

/-- C101: all other files are shown as they are (the command's own files with the content they have got), and are noted as read, but
for those that are not tracked; a temporary directory of the command is not noted. -/
theorem c101_files {f : Str} (hm : f ≠ ".tup/mnt".toList ∧ ¬ Occurs "/.tup/mnt".toList f)
    (hv : ∀ rest, ¬ Virtual w.top ((findMap f s.maps).getD f) rest) :
    (f ∈ s.tmpdirs → getattr w s f = (.dir, s)) ∧
    (f ∉ s.tmpdirs → ((getattr w s f).1 = .dir ↔ w.real ((findMap f s.maps).getD f) = some true) ∧
      ((getattr w s f).1 = .file ↔ w.real ((findMap f s.maps).getD f) = some false) ∧
      ((getattr w s f).1 = .error ↔ w.real ((findMap f s.maps).getD f) = none) ∧
      (Untracked f → (getattr w s f).2 = s) ∧ (¬ Untracked f → (getattr w s f).2 = { s with reads := s.reads ++ [f] })) := by
  have hm' : ¬ (f = ".tup/mnt".toList ∨ (strstr "/.tup/mnt".toList f).isSome = true) := by
    rintro (h | h)
    · exact hm.1 h
    · exact hm.2 (strstr_isSome.1 h)
  have hi : ignoreFile f = true ↔ Untracked f := by
    unfold ignoreFile ccache Untracked
    simp only [Bool.or_eq_true, strstr_isSome, isPrefixOf_iff, or_assoc]
  have hvv : virtualVar w.top ((findMap f s.maps).getD f) = none := by
    cases h : virtualVar w.top ((findMap f s.maps).getD f) with
    | none => rfl
    | some rest => exact absurd (virtualVar_iff.1 h) (hv rest)
  unfold getattr
  rw [if_neg hm']
  constructor
  · intro h
    rw [if_pos h]
  · intro h
    rw [if_neg h]
    dsimp only
    rw [hvv]
    have ha : ∀ r : Option Bool, (answer r = .dir ↔ r = some true) ∧ (answer r = .file ↔ r = some false) ∧ (answer r = .error ↔ r = none) := by
      intro r
      rcases r with _ | _ | _ <;> simp [answer]
    refine ⟨(ha _).1, (ha _).2.1, (ha _).2.2, fun hu => ?_, fun hu => ?_⟩
    · dsimp only [handleRead]; rw [if_pos (hi.2 hu)]
    · dsimp only [handleRead]; rw [if_neg (fun h => hu (hi.1 h))]

/-- C101: a variable that is asked for from a directory outside of the project is not noted. -/
theorem c101_outside (key : Str) (ho : ∀ l, ¬ ∃ r, pathText (cwd ++ l) = w.top ++ r) (hm : s.maps = [])
    (hk : '/' ∉ key) (h0 : Char.ofNat 0 ∉ key) (hd : key ≠ "..".toList) : (sendEvent w cwd s key).vars = s.vars := by
  have hg : ∀ l (s' : Info), s'.maps = [] → ∀ f, f = pathText (cwd ++ l) → (getattr w s' f).2.vars = s'.vars ∧
      (getattr w s' f).2.maps = [] := by
    intro l s' hs' f hf
    have hv : virtualVar w.top f = none := by
      unfold virtualVar
      rw [if_neg]
      intro h
      obtain ⟨r, hr⟩ := (isPrefixOf_iff _ _).1 h
      exact ho l ⟨r, hf ▸ hr⟩
    unfold getattr
    split
    · exact ⟨rfl, hs'⟩
    · split
      · exact ⟨rfl, hs'⟩
      · rw [hs']
        simp only [findMap, Option.getD_none, hv]
        unfold handleRead
        split
        · exact ⟨rfl, hs'⟩
        · exact ⟨rfl, hs'⟩
  have hw : ∀ (names : List Str), "..".toList ∉ names → ∀ l (s' : Info), s'.maps = [] →
      (walk w s' (cwd ++ l) names).vars = s'.vars := by
    intro names
    induction names with
    | nil => intro _ l s' _; rfl
    | cons n names ih =>
      intro hn l s' hs'
      simp only [List.mem_cons, not_or] at hn
      rw [walk, if_neg (Ne.symm hn.1)]
      split
      · exact ih hn.2 l s' hs'
      · split
        · rfl
        · obtain ⟨g1, g2⟩ := hg (l ++ [n]) s' hs' _ rfl
          rw [List.append_assoc]
          cases hx : getattr w s' (pathText (cwd ++ (l ++ [n]))) with
          | mk an s2 =>
            rw [hx] at g1 g2
            cases an with
            | dir => exact (ih hn.2 (l ++ [n]) s2 g2).trans g1
            | file => exact g1
            | error => exact g1
  unfold sendEvent
  simp only
  split
  · rfl
  · rw [takeWhile_nul h0, components_key hk]
    have := hw (if key = [] then [virtualDir] else [virtualDir, key]) ?_ [] s hm
    · rwa [List.append_nil] at this
    · split
      · decide
      · intro h
        rcases List.mem_cons.1 h with h | h
        · exact absurd h (by decide)
        · exact hd (List.mem_singleton.1 h).symm

/-- C101: names that are too long are not noted. -/
theorem c101_long {n : Str} (h0 : Char.ofNat 0 ∉ n) (hn : 4090 ≤ n.length) : sendEvent w cwd s n = s := by
  have hl : virtualDir.length = 5 := by decide
  unfold sendEvent
  simp only
  rw [takeWhile_nul h0, if_pos (by rw [List.length_append, List.length_cons, hl]; omega)]

/-- C101: of a name with a slash only what is before the slash is noted. -/
theorem c101_slash (h : Home w cwd) (hf : Free s cwd) {n m : Str} (hn : Askable n) (hm : Char.ofNat 0 ∉ m)
    (hl : n.length + m.length < 4089) :
    sendEvent w cwd s (n ++ "/".toList ++ m) = { s with vars := s.vars ++ [n] } := by
  have h1 : "/".toList = ['/'] := rfl
  have h2 : virtualDir.length = 5 := by decide
  have h3 : Char.ofNat 0 ∉ n ++ ['/'] ++ m := by
    intro h
    rcases List.mem_append.1 h with h | h
    · rcases List.mem_append.1 h with h | h
      · exact hn.nul h
      · exact absurd (List.mem_singleton.1 h) (by decide)
    · exact hm h
  have hone := c101_noted h hf hn
  unfold sendEvent at hone ⊢
  simp only at hone ⊢
  rw [takeWhile_nul hn.nul, if_neg (by rw [List.length_append, List.length_cons, h2]; have := hn.short; omega),
    components_key hn.name.2.1, if_neg hn.name.1] at hone
  rw [h1, takeWhile_nul h3, if_neg (by simp only [List.length_append, List.length_cons, h2, List.length_nil]; omega)]
  have hc : components (virtualDir ++ '/' :: (n ++ ['/'] ++ m)) = virtualDir :: n :: components m := by
    unfold components
    rw [splitSlash_cons (by decide), List.append_assoc, List.singleton_append, splitSlash_cons hn.name.2.1]
    have hv : virtualDir.isEmpty = false := by decide
    have hn' : n.isEmpty = false := by
      cases hz : n with
      | nil => exact absurd hz hn.name.1
      | cons c n => rfl
    rw [List.filter_cons, List.filter_cons, hv, hn']
    rfl
  rw [hc]
  have hd : virtualDir = "@tup@".toList := rfl
  rw [hd, walk_dir h hf] at hone ⊢
  rw [walk, if_neg hn.name.2.2.1, if_neg hn.name.2.2.2, if_neg (by unfold nameMax; have := hn.short; omega)] at hone ⊢
  have ht : ".tup".toList ∉ [n] := by
    intro ht
    rw [List.mem_singleton] at ht
    exact hn.shown (ht ▸ by decide)
  have e : ([n].flatMap fun n => '/' :: n) = '/' :: n := by simp
  rw [pathText_eq, List.append_assoc, List.singleton_append,
    (getattr_virtual (w := w) (foreign_home h hf [n] (by simpa using hn.name.2.1) ht) (virtual_home h [n])).2 '/' n e]

/-! A project in /p with a tup.config (2) that has the variable `A` (3), and a command (4) in the directory /p/sub (5).  There is a
file called a@tup@b. -/

def exWorld : World where
  top := "/p".toList
  real f := if f = "/p".toList ∨ f = "/p/sub".toList ∨ f = "/tmp".toList then some true
    else if f = "/p/a@tup@b".toList ∨ f = "/p/sub/in".toList then some false else none

def exCwd : List Str := ["p".toList, "sub".toList]

def exInfo : Info := ⟨[("/p/sub/out".toList, ".tup/tmp/0".toList)], [], ["/p/sub/in".toList], []⟩

theorem exHome : Home exWorld exCwd where
  place := ⟨["p".toList], ["sub".toList], by decide, by decide, by decide, by
    intro d hd
    rw [List.mem_singleton] at hd
    subst hd
    rintro ⟨a, b, h⟩
    have := congrArg List.length h
    have h5 : "@tup@".toList.length = 5 := by decide
    have h3 : "sub".toList.length = 3 := by decide
    rw [List.length_append, List.length_append, h5, h3] at this
    omega⟩
  names := by decide
  tup := by decide

theorem exFree : Free exInfo exCwd := by
  rintro f (h | ⟨t, h⟩) ⟨r, rfl⟩
  · cases h
  · have h := congrArg (fun p : Str × Str => p.1.take 8) (List.mem_singleton.1 h)
    dsimp only at h
    have h8 : (dirText (exCwd ++ ["@tup@".toList])).take 8 = "/p/sub/@".toList := by decide +kernel
    have hl : 8 ≤ (dirText (exCwd ++ ["@tup@".toList])).length := by decide +kernel
    rw [List.take_append_of_le_length hl, h8] at h
    exact absurd h (by decide +kernel)

theorem exAskable (n : Str) (h : n = "A".toList ∨ n = "B".toList) : Askable n := by
  rcases h with rfl | rfl <;> exact ⟨⟨by decide, by decide, by decide, by decide⟩, by decide, by decide, by decide⟩

example : sendEvent exWorld exCwd exInfo "A".toList = { exInfo with vars := ["A".toList] } :=
  c101_noted exHome exFree (exAskable _ (.inl rfl))

/-- `A` is asked for, and `B` only if `A` is set. -/
def exProg : Prog := .ask "A".toList fun
  | some v => .ask "B".toList fun u => .done (v ++ u.getD [])
  | none => .done []

example : Runs (fun n => if n = "A".toList then some "1".toList else none) exProg "1".toList ["A".toList, "B".toList] ∧
    Runs (fun _ => none) exProg [] ["A".toList] :=
  ⟨.ask (.ask .done), .ask .done⟩

/-- `tup varsed` on a text with two variables and an at sign. -/
example : Refs "x@A@ @B@@".toList ["A".toList, "B".toList] :=
  .byte (by decide) (.var (n := "A".toList) (s := " @B@@".toList) (by unfold Config.Word; decide)
    (.byte (by decide) (.var (n := "B".toList) (s := "@".toList) (by unfold Config.Word; decide)
      (.at (by
        rintro ⟨n, u, _, h⟩
        have := congrArg List.length h
        simp at this) .nil))))

def exRows : List (Nat × Node) := [
  (1, { dir := 0, kind := .dir, name := ".".toList }),
  (2, { dir := 1, kind := .file, name := "tup.config".toList, mtime := (9, 0) }),
  (3, { dir := 2, kind := .var, name := "A".toList }),
  (4, { dir := 5, kind := .cmd, name := "varsed in out".toList }),
  (5, { dir := 1, kind := .dir, name := "sub".toList }),
  (6, { dir := 5, kind := .file, name := "in".toList, mtime := (7, 0) }),
  (7, { dir := 5, kind := .generated, name := "out".toList })]

def exDb : Db where
  node i := exRows.lookup i
  top := 8
  normal a b := decide ((a, b) ∈ [(6, 4), (4, 7)])
  sticky a b := decide ((a, b) ∈ [(6, 4), (4, 7)])
  group _ _ _ := false
  vars _ := none
  config _ := false
  create _ := false
  modify _ := false
  variant _ := false
  transient _ := false
  ghosts _ := false

theorem exRow {i : Nat} {n : Node} (h : exDb.node i = some n) : (i, n) ∈ exRows := by
  have : exRows.lookup i = some n := h
  revert this
  generalize exRows = l
  induction l with
  | nil => intro h; cases h
  | cons x l ih =>
    obtain ⟨a, b⟩ := x
    intro h
    rw [List.lookup] at h
    split at h
    · rename_i he
      cases h
      rw [beq_iff_eq.1 he]
      exact List.mem_cons_self
    · exact List.mem_cons_of_mem _ (ih h)

theorem exGood : DirInputs.Good exDb := by
  have hlink : ∀ a b, decide ((a, b) ∈ [(6, 4), (4, 7)]) = true → (exDb.node a).isSome ∧ (exDb.node b).isSome := by
    intro a b h
    have := of_decide_eq_true h
    have key : ∀ x ∈ [(6, 4), (4, 7)], (exDb.node x.1).isSome ∧ (exDb.node x.2).isSome := by decide +kernel
    exact key _ this
  refine ⟨⟨fun a n h => ?_, hlink, hlink⟩, fun i j n m hn hm hd he => ?_⟩
  · have key : ∀ x ∈ exRows, 0 < x.1 ∧ x.1 < 8 := by decide +kernel
    exact key _ (exRow h)
  · have key : ∀ x ∈ exRows, ∀ y ∈ exRows, x.2.dir = y.2.dir → x.2.name = y.2.name → x.1 = y.1 := by decide +kernel
    exact key _ (exRow hn) _ (exRow hm) hd he

theorem exRooted : DirInputs.Rooted exDb := by
  intro i n h
  have key : ∀ x ∈ exRows, x.2.dir = 0 ∨ (exDb.node x.2.dir).isSome := by decide +kernel
  exact key _ (exRow h)

theorem exVars : Vars exDb 2 := by
  intro i n h hd
  have key : ∀ x ∈ exRows, x.2.dir = 2 → (x.2.kind = .var ∨ x.2.kind = .ghost) ∧ x.2.mtime.1 ≠ 0 := by decide +kernel
  exact key _ (exRow h) hd

theorem exOthers : Others exDb 2 [7] := by
  intro a ha
  rw [List.mem_singleton] at ha
  subst ha
  exact ⟨{ dir := 5, kind := .generated, name := "out".toList }, by decide +kernel, by decide⟩

/-- The command has read `in` and asked for `A` and for `B`, which tup.config does not have. -/
theorem exUpdate : ∃ db' important,
    updateReads "/p".toList exDb 9 4 2 (fun _ => none) [7] [] ["/p/sub/in".toList] ["A".toList, "B".toList] =
      some (db', true, important) := by
  have key : (updateReads "/p".toList exDb 9 4 2 (fun _ => none) [7] [] ["/p/sub/in".toList] ["A".toList, "B".toList]).map (·.2.1) =
      some true := by decide +kernel
  cases h : updateReads "/p".toList exDb 9 4 2 (fun _ => none) [7] [] ["/p/sub/in".toList] ["A".toList, "B".toList] with
  | none => rw [h] at key; cases key
  | some r =>
    rw [h] at key
    obtain ⟨a, b, c⟩ := r
    simp only [Option.map_some, Option.some.injEq] at key
    subst key
    exact ⟨a, c, rfl⟩

example : ∃ db' a b, At db' 2 "A".toList a ∧ db'.normal a 4 = true ∧ At db' 2 "B".toList b ∧ db'.normal b 4 = true ∧
    db'.isKind .ghost b = true ∧ ∀ n c, At db' 2 n c → db'.normal c 4 = true → n = "A".toList ∨ n = "B".toList ∨
      DirInputs.Leads db' 1 ["sub".toList, "in".toList] c := by
  obtain ⟨db', important, h⟩ := exUpdate
  obtain ⟨a, h1, h2, _⟩ := c101_input exGood exVars exOthers (by simp) h (n := "A".toList) (by simp)
    (exAskable _ (.inl rfl)).name (exAskable _ (.inl rfl)).shown
  obtain ⟨b, h3, h4, h5⟩ := c101_input exGood exVars exOthers (by simp) h (n := "B".toList) (by simp)
    (exAskable _ (.inr rfl)).name (exAskable _ (.inr rfl)).shown
  refine ⟨db', a, b, h1, h2, h3, h4, h5 ?_, fun n c hc hn => ?_⟩
  · rintro i ⟨n, g1, g2, g3⟩
    have key : ∀ x ∈ exRows, x.2.name ≠ "B".toList := by decide +kernel
    exact key _ (exRow g1) g3
  · rcases c101_only_asked exGood (fun g hg => by cases hg) (by decide) h (fun n hn => ⟨(exAskable n (by simpa using hn)).name, (exAskable n (by simpa using hn)).shown⟩) hc hn with hx | ⟨f, hf, _, hx⟩
    · simp only [List.mem_cons, List.not_mem_nil, or_false] at hx
      rcases hx with hx | hx
      · exact .inl hx
      · exact .inr (.inl hx)
    · rw [List.mem_singleton] at hf
      subst hf
      have : elements "/p".toList "/p/sub/in".toList = ["sub".toList, "in".toList] := by decide +kernel
      rw [this] at hx
      exact .inr (.inr hx)

/-- The whole: the program of above, with the values of `exLook`; only `A` and `B` matter. -/
example (look' : Str → Option Str) (h1 : look' "A".toList = some "1".toList) (h2 : look' "B".toList = none) (h0 : look' [] = none) :
    (exProg.run exWorld look' exCwd exInfo).1 = "1".toList := by
  have hp : Runs (fun n => if n = "A".toList then some "1".toList else none) exProg "1".toList ["A".toList, "B".toList] :=
    .ask (.ask .done)
  have hk : ∀ n ∈ ["A".toList, "B".toList], n ≠ [] → Askable n := fun n hn _ => exAskable n (by simpa using hn)
  have hrun := c101_program exHome hp hk exFree
  obtain ⟨db', important, h⟩ := exUpdate
  have he : updateReads "/p".toList exDb 9 4 2 (fun _ => none) [7] []
      (exProg.run exWorld (fun n => if n = "A".toList then some "1".toList else none) exCwd exInfo).2.reads
      (exProg.run exWorld (fun n => if n = "A".toList then some "1".toList else none) exCwd exInfo).2.vars =
      some (db', true, important) := by
    rw [hrun]
    exact h
  rw [c101_same exGood exVars exOthers (by simp) exHome exFree hp hk he (look' := look') ?_ ?_ exFree, hrun]
  · exact h0.symm
  · intro n a ha hn
    have hv : (exProg.run exWorld (fun n => if n = "A".toList then some "1".toList else none) exCwd exInfo).2.vars =
      ["A".toList, "B".toList] := by rw [hrun]; rfl
    rw [hrun] at he
    rcases c101_only_asked exGood (fun g hg => by cases hg) (by decide) h (fun n hn => ⟨(exAskable n (by simpa using hn)).name, (exAskable n (by simpa using hn)).shown⟩) ha hn with hx | ⟨f, hf, _, hx⟩
    · simp only [List.mem_cons, List.not_mem_nil, or_false] at hx
      rcases hx with rfl | rfl
      · exact h1.symm
      · exact h2.symm
    · exfalso
      rw [List.mem_singleton] at hf
      subst hf
      have he' : elements "/p".toList "/p/sub/in".toList = ["sub".toList, "in".toList] := by decide +kernel
      rw [he'] at hx
      obtain ⟨m, a1, a2, _⟩ := ha
      cases hx with
      | @down _ i _ _ _ hi hx =>
        cases hx with
        | down hj hx =>
          cases hx with
          | here =>
            obtain ⟨m', b1, b2, _⟩ := hj
            rw [a1] at b1
            cases b1
            obtain ⟨m2, c1, _, c3⟩ := hi
            rw [← b2, a2] at c1
            have hk := (update_spec exGood (by simp) h).1.ghosts.kept 2 _
              (show exDb.node 2 = some { dir := 1, kind := .file, name := "tup.config".toList, mtime := (9, 0) } by decide +kernel)
            rw [c1] at hk
            cases hk
            exact absurd c3 (by decide)

/-- The file a@tup@b of the project cannot be read; it is an error, and `b` without its first byte is noted as a variable. -/
example : exWorld.real "/p/a@tup@bc".toList = none ∧ exWorld.real "/p/a@tup@b".toList = some false ∧
    getattr exWorld exInfo "/p/a@tup@b".toList = (.error, { exInfo with vars := [[]] }) ∧
    getattr exWorld exInfo "/p/a@tup@".toList = (.dir, exInfo) := by
  refine ⟨by decide +kernel, by decide +kernel, ?_, ?_⟩
  · have hf : Foreign exInfo "/p/a@tup@b".toList := ⟨⟨by decide +kernel, strstr_none.1 (by decide +kernel)⟩, by decide, by
      intro t h
      have := congrArg Prod.fst (List.mem_singleton.1 h)
      exact absurd (show "/p/a@tup@b".toList = "/p/sub/out".toList from this) (by decide +kernel)⟩
    exact (getattr_virtual (w := exWorld) (rest := "b".toList) hf ((virtualVar_iff (rest := "b".toList)).1 (by decide +kernel))).2 'b' [] (by decide +kernel)
  · have hf : Foreign exInfo "/p/a@tup@".toList := ⟨⟨by decide +kernel, strstr_none.1 (by decide +kernel)⟩, by decide, by
      intro t h
      have := congrArg Prod.fst (List.mem_singleton.1 h)
      exact absurd (show "/p/a@tup@".toList = "/p/sub/out".toList from this) (by decide +kernel)⟩
    exact (getattr_virtual (w := exWorld) (rest := []) hf ((virtualVar_iff (rest := [])).1 (by decide +kernel))).1 rfl

/-- The file /p/sub/in is noted, /dev/null is not. -/
example : getattr exWorld exInfo "/p/sub/in".toList = (.file, { exInfo with reads := exInfo.reads ++ ["/p/sub/in".toList] }) ∧
    (getattr exWorld exInfo "/dev/null".toList).2 = exInfo := by
  have hv : ∀ f : Str, virtualVar exWorld.top f = none → ∀ rest, ¬ Virtual exWorld.top f rest := fun f h rest hv => by
    rw [virtualVar_iff.2 hv] at h
    cases h
  have h1 := c101_files (w := exWorld) (s := exInfo) (f := "/p/sub/in".toList) ⟨by decide +kernel, strstr_none.1 (by decide +kernel)⟩
    (hv _ (by decide +kernel))
  have h2 := c101_files (w := exWorld) (s := exInfo) (f := "/dev/null".toList) ⟨by decide +kernel, strstr_none.1 (by decide +kernel)⟩
    (hv _ (by decide +kernel))
  refine ⟨?_, (h2.2 (by decide)).2.2.2.1 (.inl ⟨"/null".toList, by decide⟩)⟩
  obtain ⟨_, a, _, _, b⟩ := h1.2 (by decide)
  have hn : ∀ p : Str, strstr p "/p/sub/in".toList = none → ¬ Occurs p "/p/sub/in".toList := fun p h => strstr_none.1 h
  have hp : ∀ p : Str, p.isPrefixOf "/p/sub/in".toList = false → ¬ ∃ r, "/p/sub/in".toList = p ++ r := by
    rintro p h ⟨r, e⟩
    rw [(isPrefixOf_iff p _).2 ⟨r, e⟩] at h
    cases h
  have hu : ¬ Untracked "/p/sub/in".toList := by
    rintro (h | h | h | h | h | h)
    · exact hp _ (by decide +kernel) h
    · exact hp _ (by decide +kernel) h
    · exact hp _ (by decide +kernel) h
    · exact hn _ (by decide +kernel) h
    · exact hn _ (by decide +kernel) h
    · exact hn _ (by decide +kernel) h
  exact Prod.ext (a.2 (by decide +kernel)) (b hu)

/-- In /tmp. -/
example : (sendEvent exWorld ["tmp".toList] ⟨[], [], [], []⟩ "A".toList).vars = [] :=
  c101_outside (s := ⟨[], [], [], []⟩) "A".toList (by
    rintro l ⟨r, h⟩
    have h1 : pathText (["tmp".toList] ++ l) = "/tmp".toList ++ l.flatMap fun n => '/' :: n := by
      unfold pathText
      rw [if_neg (by simp), List.singleton_append, List.flatMap_cons]
      rfl
    rw [h1] at h
    have h2 := congrArg (List.take 2) h
    have h3 : exWorld.top = "/p".toList := rfl
    rw [h3, List.take_append_of_le_length (by decide), List.take_append_of_le_length (by decide)] at h2
    exact absurd h2 (by decide)) rfl (by decide) (by decide) (by decide)

example : sendEvent exWorld exCwd exInfo ("A".toList ++ "/".toList ++ "B".toList) = { exInfo with vars := ["A".toList] } :=
  c101_slash exHome exFree (exAskable _ (.inl rfl)) (by decide) (by decide)

example : 4090 ≤ (List.replicate 4090 'a').length ∧ Char.ofNat 0 ∉ List.replicate 4090 'a' :=
  ⟨by rw [List.length_replicate]; omega, fun h => absurd (List.eq_of_mem_replicate h) (by decide)⟩

end Tup.VarAsk
