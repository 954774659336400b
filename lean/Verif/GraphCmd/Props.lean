import Verif.GraphCmd.Lemmas
import Verif.Combine.Props

/-! C100: what `tup graph` shows. -/

namespace Tup.GraphCmd

variable {db : Db} {o : Opts} {U args : List Nat} {fuel : Nat} {g : Combine.G}

theorem not_zero (hU : Within db U) (ha : ∀ x ∈ args, x ∈ U) : ¬ Shows db o (From db o args) 0 := fun h => hU.zero (shows_known hU ha h)

/-- C100: the graph can be built for every database, in as many rounds as there are nodes. -/
theorem c100_ends (hU : Within db U) (ha : ∀ x ∈ args, x ∈ U) (hf : U.length ≤ fuel) : ∃ g, build db o args fuel = some g := by
  obtain ⟨t, ht⟩ := loop_ends hU (start_inv (db := db) (o := o) args) (start_known hU ha) (Nat.le_trans (List.length_filter_le _ _) hf)
  exact ⟨_, by unfold build; rw [ht]; rfl⟩

/-- C100: the nodes of the graph are the given ones and all that depends on them or is in one of the directories, each once, and the root. -/
theorem c100_nodes (hU : Within db U) (ha : ∀ x ∈ args, x ∈ U) (h : build db o args fuel = some g) :
    g.root = 0 ∧ g.nodes.Nodup ∧ ∀ x, x ∈ g.nodes ↔ x = 0 ∨ Shows db o (From db o args) x := by
  unfold build at h
  obtain ⟨t, ht, rfl⟩ := Option.map_eq_some_iff.1 h
  obtain ⟨hi, hp⟩ := inv_loop (start_inv (db := db) (o := o) args) ht
  have hn : (if o.stickies then addStickies db t else t).nodes = t.nodes := by split <;> rfl
  refine ⟨rfl, ?_, fun x => ?_⟩
  · dsimp only
    rw [hn]
    have := hi.nodup
    rwa [hp, List.nil_append] at this
  · dsimp only
    rw [hn]
    exact nodes_iff hi hp (not_zero hU ha) x

theorem sticky_mem {s : St} {a b st : Nat} : (a, b, st) ∈ (addStickies db s).edges ↔
    (a, b, st) ∈ s.edges ∨ (st = stickyLink ∧ b ∈ s.nodes ∧ db.kind b = .cmd ∧ a ∈ db.sticky b ∧ a ∈ s.nodes) := by
  unfold addStickies
  simp only [List.mem_append, List.mem_flatMap, List.mem_filter, List.mem_map, decide_eq_true_eq, Prod.mk.injEq]
  refine or_congr_right ?_
  constructor
  · rintro ⟨c, ⟨h1, h2⟩, i, ⟨h3, h4⟩, rfl, rfl, rfl⟩
    exact ⟨rfl, h1, h2, h3, h4⟩
  · rintro ⟨rfl, h1, h2, h3, h4⟩
    exact ⟨b, ⟨h1, h2⟩, a, ⟨h3, h4⟩, rfl, rfl, rfl⟩

theorem edge_style {s : St} {F : Nat → Prop} (hi : Inv db o F s) {a b st : Nat} (ha : a ≠ 0) :
    (a, b, st) ∈ s.edges ↔ st = normal ∧ a ∈ s.nodes ∧ Arrow db o a b := by
  have he := hi.edges a ha
  have h1 : (a, b, st) ∈ s.edges ↔ (a, b, st) ∈ s.edges.filter fun e => e.1 = a := by rw [List.mem_filter]; simp
  rw [h1, he]
  split
  · rename_i hn
    rw [List.mem_map]
    constructor
    · rintro ⟨x, hx, e⟩
      simp only [Prod.mk.injEq] at e
      exact ⟨e.2.2.symm, hn, (mem_targets a b).1 (e.2.1 ▸ hx)⟩
    · rintro ⟨rfl, _, hb⟩
      exact ⟨b, (mem_targets a b).2 hb, rfl⟩
  · rename_i hn
    constructor
    · intro x; cases x
    · exact fun x => absurd x.2.1 hn

/-- C100: the edges of the graph, but for those of the root, are the links of the database between its nodes; with `--stickies` there is in addition an
edge from each sticky input of a command that is in the graph. -/
theorem c100_edges (hU : Within db U) (ha : ∀ x ∈ args, x ∈ U) (h : build db o args fuel = some g) {a b st : Nat} (h0 : a ≠ 0) :
    (a, b, st) ∈ g.edges ↔ (st = 1 ∧ Shows db o (From db o args) a ∧ Arrow db o a b) ∨
      (st = 2 ∧ o.stickies = true ∧ db.kind b = .cmd ∧ a ∈ db.sticky b ∧ a ∈ g.nodes ∧ b ∈ g.nodes) := by
  have hnodes := (c100_nodes hU ha h).2.2
  unfold build at h
  obtain ⟨t, ht, rfl⟩ := Option.map_eq_some_iff.1 h
  obtain ⟨hi, hp⟩ := inv_loop (start_inv (db := db) (o := o) args) ht
  have hn : (if o.stickies then addStickies db t else t).nodes = t.nodes := by split <;> rfl
  dsimp only at hnodes ⊢
  rw [hn] at hnodes ⊢
  have h1 : a ∈ t.nodes ↔ Shows db o (From db o args) a := by rw [hnodes]; simp [h0]
  rw [← h1]
  by_cases hs : o.stickies = true
  · rw [if_pos hs, sticky_mem, edge_style hi h0]
    refine or_congr Iff.rfl ⟨fun ⟨h1, h2, h3, h4, h5⟩ => ⟨h1, hs, h3, h4, h5, h2⟩, fun ⟨h1, _, h3, h4, h5, h6⟩ => ⟨h1, h6, h3, h4, h5⟩⟩
  · rw [if_neg hs, edge_style hi h0]
    constructor
    · exact .inl
    · rintro (h | h)
      · exact h
      · exact absurd h.2.1 hs

/-- C100: every edge leads between nodes of the graph, so that nothing is printed about nodes that are not shown. -/
theorem c100_proper (h : build db o args fuel = some g) : Combine.Proper g := by
  unfold build at h
  obtain ⟨t, ht, rfl⟩ := Option.map_eq_some_iff.1 h
  obtain ⟨hi, hp⟩ := inv_loop (start_inv (db := db) (o := o) args) ht
  have hn : (if o.stickies then addStickies db t else t).nodes = t.nodes := by split <;> rfl
  have hm : ∀ y, Mem t y ↔ y ∈ t.nodes := by intro y; unfold Mem; rw [hp]; simp
  refine ⟨?_, ?_⟩
  · dsimp only
    rw [hn]
    have := hi.nodup
    rwa [hp, List.nil_append] at this
  · rintro ⟨a, b, st⟩ he
    dsimp only at he ⊢
    rw [hn]
    by_cases hs : o.stickies = true
    · rw [if_pos hs] at he
      rcases sticky_mem.1 he with he | ⟨_, h1, _, _, h2⟩
      · exact ⟨(hm _).1 (hi.ends _ he).1, (hm _).1 (hi.ends _ he).2⟩
      · exact ⟨h2, h1⟩
    · rw [if_neg hs] at he
      exact ⟨(hm _).1 (hi.ends _ he).1, (hm _).1 (hi.ends _ he).2⟩

/-- C100: a link is drawn as often as it is in the database. -/
theorem c100_once (hl : ∀ a, (db.links a).Nodup) (hg : ∀ a, db.kind a ≠ .group ∨ db.groupLinks a = [] ∨ db.links a = [])
    (hgl : ∀ a, (db.groupLinks a).Nodup) (h : build db o args fuel = some g) {a : Nat} (h0 : a ≠ 0) :
    (g.edges.filter fun e => e.1 = a ∧ e.2.2 = 1).Nodup := by
  unfold build at h
  obtain ⟨t, ht, rfl⟩ := Option.map_eq_some_iff.1 h
  obtain ⟨hi, hp⟩ := inv_loop (start_inv (db := db) (o := o) args) ht
  have he : ((if o.stickies then addStickies db t else t).edges.filter fun e => e.1 = a ∧ e.2.2 = 1) =
      (t.edges.filter fun e => e.1 = a).filter fun e => e.2.2 = 1 := by
    have h1 : ∀ l : List Combine.Edge, (l.filter fun e => decide (e.1 = a ∧ e.2.2 = 1)) = (l.filter fun e => decide (e.1 = a)).filter fun e => decide (e.2.2 = 1) := by
      intro l
      rw [List.filter_filter]
      congr 1
      funext e
      simp [Bool.and_comm, Bool.decide_and]
    split
    · unfold addStickies
      dsimp only
      rw [List.filter_append, h1 t.edges]
      have h2 : (((t.nodes.filter fun c => decide (db.kind c = .cmd)).flatMap fun c =>
          ((db.sticky c).filter fun i => decide (i ∈ t.nodes)).map fun i => (i, c, stickyLink)).filter fun e => decide (e.1 = a ∧ e.2.2 = 1)) = [] := by
        rw [List.filter_eq_nil_iff]
        intro e he
        simp only [List.mem_flatMap, List.mem_map] at he
        obtain ⟨c, _, i, _, rfl⟩ := he
        simp [stickyLink]
      rw [h2, List.append_nil]
    · exact h1 _
  dsimp only
  rw [he, hi.edges a h0]
  refine List.Pairwise.filter _ ?_
  split
  · have ht : (targets db o a).Nodup := by
      unfold targets
      rcases hg a with h | h | h
      · rw [if_neg h, List.append_nil]; exact (hl a).filter _
      · rw [h]; split <;> (rw [List.append_nil]; exact (hl a).filter _)
      · rw [h, List.filter_nil, List.nil_append]
        split
        · exact hgl a
        · exact List.nodup_nil
    exact List.Pairwise.map _ (fun x y hxy e => hxy (by simpa using e)) ht
  · exact List.nodup_nil

theorem info_layout {x : Nat} : Combine.Layout (info db) x ↔ Layout db x := by
  have hk : ((info db).kind x = .dir ↔ db.kind x = .dir) ∧ ((info db).kind x = .generatedDir ↔ db.kind x = .generatedDir) ∧
      ((info db).kind x = .file ↔ db.kind x = .file) ∧ ((info db).kind x = .generated ↔ db.kind x = .generated) := by
    unfold info
    dsimp only
    cases db.kind x <;> simp
  obtain ⟨h1, h2, h3, h4⟩ := hk
  unfold Combine.Layout Layout IsDir
  rw [h1, h2, h3, h4]
  show _ ∨ _ ∨ (_ ∧ (db.name x = _ ∨ db.name x = _ ∨ db.name x = _)) ∨ (_ ∧ db.name x = _) ↔ _
  rw [or_assoc]

/-- C100: what is printed (without `--combine`).  There is a line for each node that is to be shown; without `--dirs` directories, Tupfiles and generated
.gitignore files are left out.  There is a line for each link between two nodes that have a line. -/
theorem c100_printed (hU : Within db U) (ha : ∀ x ∈ args, x ∈ U) (h : build db o args fuel = some g) (hs : o.stickies = false)
    (cmdHash fileHash : Combine.G → Nat → Int) :
    (∀ x, (∃ l n w, Combine.Line.node x l n w ∈ Combine.dumpGraph (info db) cmdHash fileHash o.dirs false g) ↔
      Shows db o (From db o args) x ∧ (o.dirs = true ∨ ¬ Layout db x)) ∧
    (∀ a b st, Combine.Line.edge b a st ∈ Combine.dumpGraph (info db) cmdHash fileHash o.dirs false g ↔
      st = 1 ∧ Shows db o (From db o args) a ∧ Arrow db o a b ∧ (o.dirs = true ∨ (¬ Layout db a ∧ ¬ Layout db b))) := by
  simp only [← info_layout]
  obtain ⟨hr, hn, hm⟩ := c100_nodes hU ha h
  have h0 := not_zero (db := db) (o := o) hU ha
  obtain ⟨_, h1, h2, _⟩ := Combine.c93_dump (i := info db) (cmdHash := cmdHash) (fileHash := fileHash) (g := g) o.dirs
  have hsn : ∀ x, x ∈ (Combine.shown (info db) o.dirs g).nodes ↔ x ∈ g.nodes ∧ (o.dirs = true ∨ ¬ Combine.Layout (info db) x) := by
    intro x
    unfold Combine.shown
    by_cases hd : o.dirs = true
    · rw [if_pos hd]; simp [hd]
    · rw [if_neg hd, Combine.c93_hidden.2.1]; simp [hd]
  have hse : ∀ e, e ∈ (Combine.shown (info db) o.dirs g).edges ↔
      e ∈ g.edges ∧ (o.dirs = true ∨ (¬ Combine.Layout (info db) e.1 ∧ ¬ Combine.Layout (info db) e.2.1)) := by
    intro e
    unfold Combine.shown
    by_cases hd : o.dirs = true
    · rw [if_pos hd]; simp [hd]
    · rw [if_neg hd, Combine.c93_hidden.2.2.2.1 (c100_proper h)]; simp [hd]
  constructor
  · intro x
    constructor
    · rintro ⟨l, n, w, hx⟩
      obtain ⟨h3, h4, _⟩ := (h1 x l n w).1 hx
      rw [hr] at h4
      obtain ⟨h5, h6⟩ := (hsn x).1 h3
      exact ⟨((hm x).1 h5).resolve_left h4, h6⟩
    · rintro ⟨h3, h4⟩
      exact ⟨_, _, _, (h1 x _ _ _).2 ⟨(hsn x).2 ⟨(hm x).2 (.inr h3), h4⟩, by rw [hr]; exact fun e => h0 (e ▸ h3), rfl, rfl, rfl⟩⟩
  · intro a b st
    rw [h2, hsn, hse, hr]
    constructor
    · rintro ⟨⟨h3, h4⟩, h5, h6, h7⟩
      rcases (c100_edges hU ha h h5).1 h6 with ⟨rfl, h8, h9⟩ | h8
      · exact ⟨rfl, h8, h9, h7⟩
      · rw [hs] at h8; exact absurd h8.2.1 (by decide)
    · rintro ⟨rfl, h3, h4, h5⟩
      have ha0 : a ≠ 0 := fun e => h0 (e ▸ h3)
      exact ⟨⟨(hm a).2 (.inr h3), h5.imp id (·.1)⟩, ha0, (c100_edges hU ha h ha0).2 (.inl ⟨rfl, h3, h4⟩), h5⟩

/-- C100: an option counts wherever it is on the command line; everything else must be the name of a node. -/
theorem c100_args (find : Str → Option Nat) {l l' : List Nat} {argv : List Str} (hp : "--prune".toList ∉ argv) {o' : Opts} {r : Option (List Str)} :
    parseArgs find o l argv = some (o', l', r) ↔
      (∀ a ∈ argv, a ∈ flags ∨ (find a).isSome) ∧
      o' = ⟨o.dirs || decide ("--dirs".toList ∈ argv), o.ghosts || decide ("--ghosts".toList ∈ argv), o.env || decide ("--env".toList ∈ argv),
        o.combine || decide ("--combine".toList ∈ argv), o.stickies || decide ("--stickies".toList ∈ argv)⟩ ∧
      l' = l ++ (argv.filter fun a => a ∉ flags).filterMap find ∧ r = none := by
  unfold flags
  generalize e1 : "--dirs".toList = w1 at *
  generalize e2 : "--ghosts".toList = w2 at *
  generalize e3 : "--env".toList = w3 at *
  generalize e4 : "--combine".toList = w4 at *
  generalize e5 : "--stickies".toList = w5 at *
  generalize e6 : "--prune".toList = w6 at *
  have hne : w1 ≠ w2 ∧ w1 ≠ w3 ∧ w1 ≠ w4 ∧ w1 ≠ w5 ∧ w2 ≠ w3 ∧ w2 ≠ w4 ∧ w2 ≠ w5 ∧ w3 ≠ w4 ∧ w3 ≠ w5 ∧ w4 ≠ w5 := by
    rw [← e1, ← e2, ← e3, ← e4, ← e5]; decide
  induction argv generalizing o l with
  | nil =>
    unfold parseArgs
    simp only [Option.some.injEq, Prod.mk.injEq, List.not_mem_nil, decide_false, Bool.or_false, List.filter_nil, List.filterMap_nil, List.append_nil,
      false_implies, implies_true, true_and]
    constructor
    · rintro ⟨rfl, rfl, rfl⟩; exact ⟨rfl, rfl, rfl⟩
    · rintro ⟨rfl, rfl, rfl⟩; exact ⟨rfl, rfl, rfl⟩
  | cons a rest ih =>
    rw [List.mem_cons, not_or] at hp
    unfold parseArgs
    rw [e1, e2, e3, e4, e5, e6]
    obtain ⟨n1, n2, n3, n4, n5, n6, n7, n8, n9, n10⟩ := hne
    by_cases h1 : a = w1
    · subst h1
      rw [if_pos rfl]
      refine (ih hp.2).trans ?_
      simp [n1.symm, n2.symm, n3.symm, n4.symm]
    rw [if_neg h1]
    by_cases h2 : a = w2
    · subst h2
      rw [if_pos rfl]
      refine (ih hp.2).trans ?_
      simp [n1, n5.symm, n6.symm, n7.symm]
    rw [if_neg h2]
    by_cases h3 : a = w3
    · subst h3
      rw [if_pos rfl]
      refine (ih hp.2).trans ?_
      simp [n2, n5, n8.symm, n9.symm]
    rw [if_neg h3]
    by_cases h4 : a = w4
    · subst h4
      rw [if_pos rfl]
      refine (ih hp.2).trans ?_
      simp [n3, n6, n8, n10.symm]
    rw [if_neg h4]
    by_cases h5 : a = w5
    · subst h5
      rw [if_pos rfl]
      refine (ih hp.2).trans ?_
      simp [n4, n7, n9, n10]
    rw [if_neg h5, if_neg (fun e => hp.1 e.symm)]
    cases hf : find a with
    | none => simp [h1, h2, h3, h4, h5, hf]
    | some x =>
      dsimp only
      refine (ih hp.2).trans ?_
      simp [h1, h2, h3, h4, h5, hf, Ne.symm h1, Ne.symm h2, Ne.symm h3, Ne.symm h4, Ne.symm h5]

/-- C100: what is behind `--prune` is left for the pruning. -/
theorem c100_prune (find : Str → Option Nat) {l : List Nat} {argv rest : List Str} (hp : "--prune".toList ∉ argv) :
    parseArgs find o l (argv ++ "--prune".toList :: rest) = (parseArgs find o l argv).map fun x => (x.1, x.2.1, some rest) := by
  generalize e6 : "--prune".toList = w6 at *
  have hne : w6 ∉ flags := by rw [← e6]; decide
  unfold flags at hne
  simp only [List.mem_cons, List.not_mem_nil, or_false, not_or] at hne
  induction argv generalizing o l with
  | nil =>
    rw [List.nil_append]
    unfold parseArgs
    rw [if_neg hne.1, if_neg hne.2.1, if_neg hne.2.2.1, if_neg hne.2.2.2.1, if_neg hne.2.2.2.2, if_pos e6.symm]
    rfl
  | cons a argv ih =>
    rw [List.mem_cons, not_or] at hp
    rw [List.cons_append]
    unfold parseArgs
    rw [e6, if_neg (show ¬ a = w6 from fun e => hp.1 e.symm), if_neg (show ¬ a = w6 from fun e => hp.1 e.symm)]
    repeat' split
    all_goals first | exact ih hp.2 | rfl

/-! `src/a.c` is compiled to `src/a.o`, which is in the group `src/<objs>` and is linked to `prog`; the compiler also looked for `src/a.h`. -/

def exDb : Db where
  kind := fun
    | 1 | 2 => .dir | 3 | 9 => .file | 4 | 7 => .cmd | 5 | 8 => .generated | 6 => .group | 10 => .ghost | _ => .other
  name := fun
    | 1 => ".".toList | 2 => "src".toList | 3 => "a.c".toList | 4 => "cc".toList | 5 => "a.o".toList | 6 => "<objs>".toList | 7 => "ld".toList
    | 8 => "prog".toList | 9 => "Tupfile".toList | 10 => "a.h".toList | _ => "$".toList
  display := fun _ => none
  dir := fun
    | 1 | 11 => 0 | 2 | 7 | 8 => 1 | _ => 2
  env := 11
  links := fun
    | 3 | 10 => [4] | 4 => [5, 6] | 6 => [7] | 7 => [8] | 9 => [2] | _ => []
  groupLinks := fun _ => []
  inDir := fun
    | 1 => [2, 7, 8] | 2 => [3, 4, 5, 6, 9, 10] | _ => []
  sticky := fun
    | 4 => [3] | 7 => [6] | _ => []
  create := [2]
  modify := [4]

def exU : List Nat := [1, 2, 3, 4, 5, 6, 7, 8, 9, 10, 11]
def exO : Opts := ⟨false, false, false, false, false⟩

theorem ex_within : Within exDb exU where
  zero := by decide
  links := by
    intro a b h
    simp only [exDb] at h
    split at h <;> simp at h <;> (first | (rcases h with rfl | rfl <;> decide) | (subst h; decide))
  groups := by intro a b h; cases h
  dirs := by
    intro a b h
    simp only [exDb] at h
    split at h <;> simp at h
    · rcases h with rfl | rfl | rfl <;> decide
    · rcases h with rfl | rfl | rfl | rfl | rfl | rfl <;> decide
  create := by intro b h; rw [List.mem_singleton.1 h]; decide
  modify := by intro b h; rw [List.mem_singleton.1 h]; decide

/-- `tup graph src/a.c`. -/
example : build exDb exO [3] 11 = some ⟨0, [5, 8, 7, 6, 4, 3, 0], [(3, 4, 1), (4, 5, 1), (4, 6, 1), (6, 7, 1), (7, 8, 1)]⟩ := by decide
example : (build exDb { exO with stickies := true } [3] 11).map (·.edges) =
    some [(3, 4, 1), (4, 5, 1), (4, 6, 1), (6, 7, 1), (7, 8, 1), (6, 7, 2), (3, 4, 2)] := by decide
/-- `tup graph src`, without and with `--ghosts`. -/
example : (build exDb exO [2] 11).map (·.nodes) = some [3, 4, 5, 8, 7, 6, 9, 2, 0] := by decide
example : (build exDb { exO with ghosts := true } [2] 11).map (·.nodes) = some [3, 4, 5, 8, 7, 6, 9, 10, 2, 0] := by decide

example : ∃ g, build exDb exO [3] 11 = some g := c100_ends ex_within (by decide) (by decide)
example {g : Combine.G} (h : build exDb exO [3] 11 = some g) : 8 ∈ g.nodes ∧ 10 ∉ g.nodes := by
  have hs : Shows exDb exO (From exDb exO [3]) 3 := .given (.inl ⟨by decide, by decide⟩)
  have hm : ∀ x, x ∈ [4, 6, 7, 8] → May exDb exO x ∧ (IsDir exDb x → exO.dirs = true) := by
    intro x hx
    unfold May IsDir
    simp only [List.mem_cons, List.not_mem_nil, or_false] at hx
    rcases hx with rfl | rfl | rfl | rfl <;> decide
  have h4 := Shows.arrow hs (.link (b := 4) (by decide) (hm 4 (by decide)).1 (hm 4 (by decide)).2)
  have h6 := Shows.arrow h4 (.link (b := 6) (by decide) (hm 6 (by decide)).1 (hm 6 (by decide)).2)
  have h7 := Shows.arrow h6 (.link (b := 7) (by decide) (hm 7 (by decide)).1 (hm 7 (by decide)).2)
  have h8 := Shows.arrow h7 (.link (b := 8) (by decide) (hm 8 (by decide)).1 (hm 8 (by decide)).2)
  refine ⟨((c100_nodes ex_within (by decide) h).2.2 8).2 (.inr h8), ?_⟩
  have e : (build exDb exO [3] 11).map (·.nodes) = some [5, 8, 7, 6, 4, 3, 0] := by decide
  rw [h] at e
  simp only [Option.map_some, Option.some.injEq] at e
  rw [e]
  decide

example {g : Combine.G} (h : build exDb exO [3] 11 = some g) (c f : Combine.G → Nat → Int) : ∃ l n w,
    Combine.Line.node 3 l n w ∈ Combine.dumpGraph (info exDb) c f false false g := by
  refine ((c100_printed ex_within (by decide) h rfl c f).1 3).2 ⟨.given (.inl ⟨by decide, by decide⟩), .inr ?_⟩
  unfold Layout IsDir
  decide

/-- The claim that `tup graph` without arguments shows what the next update will do is false: directories that are to be parsed are left out
with all that is in them, unless there is `--dirs`.  A new rule in `src/Tupfile` puts `src` on the list. -/
theorem c100_false_default : (build { exDb with modify := [] } exO [] 11).map (·.nodes) = some [0] ∧
    (build { exDb with modify := [] } { exO with dirs := true } [] 11).map (·.nodes) = some [3, 4, 5, 8, 7, 6, 9, 2, 0] := by decide

example : parseArgs (fun s => if s = "a.c".toList then some 3 else none) exO [] ["--ghosts".toList, "a.c".toList, "--env".toList] =
    some (⟨false, true, true, false, false⟩, [3], none) := by decide
example : parseArgs (fun s => if s = "a.c".toList then some 3 else none) exO [] ["b.c".toList] = none := by decide
example : parseArgs (fun s => if s = "a.c".toList then some 3 else none) exO [] ["a.c".toList, "--prune".toList, "prog".toList] =
    some (exO, [3], some ["prog".toList]) := by decide

end Tup.GraphCmd
