import Verif.GraphCmd.Spec

namespace Tup.GraphCmd

variable {db : Db} {o : Opts} {s s' : St} {F : Nat → Prop} {U : List Nat}

/-- The node is in the graph. -/
def Mem (s : St) (x : Nat) : Prop := x ∈ s.plist ∨ x ∈ s.nodes

def addAll (s : St) (l : List Nat) : St := l.foldl add s

theorem add_nodes (s : St) (x : Nat) : (add s x).nodes = s.nodes := by unfold add; split <;> rfl
theorem add_edges (s : St) (x : Nat) : (add s x).edges = s.edges := by unfold add; split <;> rfl

theorem add_mem (s : St) (x y : Nat) : Mem (add s x) y ↔ Mem s y ∨ y = x := by
  unfold add
  split
  · rename_i h
    constructor
    · exact .inl
    · rintro (h' | rfl)
      · exact h'
      · exact h
  · unfold Mem
    simp only [List.mem_cons]
    constructor
    · rintro ((h | h) | h)
      · exact .inr h
      · exact .inl (.inl h)
      · exact .inl (.inr h)
    · rintro ((h | h) | h)
      · exact .inl (.inr h)
      · exact .inr h
      · exact .inl (.inl h)

theorem add_nodup {s : St} (h : (s.plist ++ s.nodes).Nodup) (x : Nat) : ((add s x).plist ++ (add s x).nodes).Nodup := by
  unfold add
  split
  · exact h
  · rename_i hx
    rw [List.cons_append, List.nodup_cons, List.mem_append]
    exact ⟨hx, h⟩

theorem add_suffix (s : St) (x y : Nat) (h : y ∈ s.plist) : y ∈ (add s x).plist := by
  unfold add
  split
  · exact h
  · exact List.mem_cons_of_mem _ h

theorem addAll_nodes (l : List Nat) : ∀ s, (addAll s l).nodes = s.nodes := by
  induction l with
  | nil => intro s; rfl
  | cons x l ih => intro s; exact (ih (add s x)).trans (add_nodes s x)

theorem addAll_edges (l : List Nat) : ∀ s, (addAll s l).edges = s.edges := by
  induction l with
  | nil => intro s; rfl
  | cons x l ih => intro s; exact (ih (add s x)).trans (add_edges s x)

theorem addAll_mem (l : List Nat) (y : Nat) : ∀ s, Mem (addAll s l) y ↔ Mem s y ∨ y ∈ l := by
  induction l with
  | nil => intro s; simp [addAll]
  | cons x l ih =>
    intro s
    rw [show addAll s (x :: l) = addAll (add s x) l from rfl, ih, add_mem, List.mem_cons, or_assoc]

theorem addAll_nodup (l : List Nat) : ∀ {s : St}, (s.plist ++ s.nodes).Nodup → ((addAll s l).plist ++ (addAll s l).nodes).Nodup := by
  induction l with
  | nil => exact fun h => h
  | cons x l ih => exact fun h => ih (add_nodup h x)

theorem addAll_suffix (l : List Nat) {y : Nat} : ∀ {s : St}, y ∈ s.plist → y ∈ (addAll s l).plist := by
  induction l with
  | nil => exact fun h => h
  | cons x l ih => exact fun h => ih (add_suffix _ x y h)

theorem add_with (s : St) (e : List Combine.Edge) (x : Nat) : add { s with edges := e } x = { add s x with edges := e } := by
  unfold add
  dsimp only
  split <;> rfl

theorem addAll_with (l : List Nat) (e : List Combine.Edge) : ∀ s : St, addAll { s with edges := e } l = { addAll s l with edges := e } := by
  induction l with
  | nil => intro s; rfl
  | cons x l ih =>
    intro s
    show addAll (add _ x) l = { addAll (add s x) l with edges := e }
    rw [add_with, ih]

theorem cb_some (c : Nat) (l : List Nat) : ∀ s, l.foldl (graphCb db o (some c)) s =
    { addAll s (l.filter fun x => !skipped db o (some c) x) with
      edges := s.edges ++ (l.filter fun x => !skipped db o (some c) x).map fun x => (c, x, normal) } := by
  induction l with
  | nil => intro s; simp [addAll]
  | cons x l ih =>
    intro s
    rw [List.foldl_cons, ih]
    unfold graphCb
    by_cases h : skipped db o (some c) x = true
    · rw [if_pos h, List.filter_cons_of_neg (by simp [h])]
    · rw [if_neg h, List.filter_cons_of_pos (by simp [h])]
      dsimp only [edge]
      rw [addAll_with, add_edges, List.map_cons, List.append_assoc, List.singleton_append]
      rfl

theorem cb_none (l : List Nat) : ∀ s, l.foldl (graphCb db o none) s = addAll s (l.filter fun x => !skipped db o none x) := by
  induction l with
  | nil => intro s; rfl
  | cons x l ih =>
    intro s
    rw [List.foldl_cons, ih]
    unfold graphCb
    by_cases h : skipped db o none x = true
    · rw [if_pos h, List.filter_cons_of_neg (by simp [h])]
    · rw [if_neg h, List.filter_cons_of_pos (by simp [h])]
      rfl

theorem cb_group (c : Nat) (l : List Nat) : ∀ s, l.foldl (groupCb c) s = { addAll s l with edges := s.edges ++ l.map fun x => (c, x, normal) } := by
  induction l with
  | nil => intro s; simp [addAll]
  | cons x l ih =>
    intro s
    rw [List.foldl_cons, ih]
    unfold groupCb
    dsimp only [edge]
    rw [addAll_with, add_edges, List.map_cons, List.append_assoc, List.singleton_append]
    rfl

theorem skipped_some (c x : Nat) : (!skipped db o (some c) x) = true ↔ May db o x ∧ (IsDir db x → o.dirs = true) := by
  unfold skipped May IsDir
  cases o.ghosts <;> cases o.env <;> cases o.dirs <;> simp <;> grind

theorem skipped_none (x : Nat) : (!skipped db o none x) = true ↔ May db o x := by
  unfold skipped May
  cases o.ghosts <;> cases o.env <;> cases o.dirs <;> simp

/-- The nodes that a node has arrows to. -/
def targets (db : Db) (o : Opts) (c : Nat) : List Nat :=
  ((db.links c).filter fun x => !skipped db o (some c) x) ++ if db.kind c = .group then db.groupLinks c else []

theorem mem_targets (c x : Nat) : x ∈ targets db o c ↔ Arrow db o c x := by
  unfold targets
  rw [List.mem_append, List.mem_filter, skipped_some]
  constructor
  · rintro (⟨h1, h2, h3⟩ | h)
    · exact .link h1 h2 h3
    · split at h
      · rename_i hk; exact .group hk h
      · simp at h
  · rintro (⟨h1, h2, h3⟩ | ⟨h1, h2⟩)
    · exact .inl ⟨h1, h2, h3⟩
    · exact .inr (by rw [if_pos h1]; exact h2)

/-- The nodes that a directory brings with it. -/
def insides (db : Db) (o : Opts) (c : Nat) : List Nat :=
  if db.name c ≠ tupConfig then (db.inDir c).filter fun x => !skipped db o none x else []

theorem mem_insides (c x : Nat) : x ∈ insides db o c ↔ db.name c ≠ "tup.config".toList ∧ x ∈ db.inDir c ∧ May db o x := by
  unfold insides
  split
  · rename_i h; rw [List.mem_filter, skipped_none]; exact ⟨fun x => ⟨h, x⟩, fun x => x.2⟩
  · rename_i h; simp only [List.not_mem_nil, false_iff]; exact fun x => h x.1

theorem addAll_append (l m : List Nat) (s : St) : addAll (addAll s l) m = addAll s (l ++ m) := by unfold addAll; rw [List.foldl_append]

/-- A round of the loop. -/
theorem step_eq (c : Nat) : step db o s c = addAll
    ⟨(addAll s (targets db o c)).plist.erase c, c :: s.nodes, s.edges ++ (targets db o c).map fun x => (c, x, normal)⟩ (insides db o c) := by
  unfold step
  dsimp only
  have h1 : (if db.kind c = .group then (db.groupLinks c).foldl (groupCb c) ((db.links c).foldl (graphCb db o (some c)) s)
      else (db.links c).foldl (graphCb db o (some c)) s) =
      { addAll s (targets db o c) with edges := s.edges ++ (targets db o c).map fun x => (c, x, normal) } := by
    rw [cb_some]
    unfold targets
    split
    · rw [cb_group]
      dsimp only
      rw [addAll_with, addAll_append, List.map_append, List.append_assoc]
    · rw [List.append_nil]
  rw [h1]
  dsimp only
  rw [addAll_nodes]
  unfold insides
  split
  · rw [cb_none]
  · rfl

/-- What is so before and after each round. -/
structure Inv (db : Db) (o : Opts) (F : Nat → Prop) (s : St) : Prop where
  nodup : (s.plist ++ s.nodes).Nodup
  root : 0 ∈ s.nodes
  sound : ∀ x, Mem s x → x = 0 ∨ Shows db o F x
  given : ∀ x, F x → Mem s x
  arrows : ∀ a ∈ s.nodes, a ≠ 0 → ∀ b, Arrow db o a b → Mem s b
  inside : ∀ d ∈ s.nodes, d ≠ 0 → ∀ x, x ∈ insides db o d → Mem s x
  edges : ∀ a, a ≠ 0 → (s.edges.filter fun e => e.1 = a) = if a ∈ s.nodes then (targets db o a).map fun x => (a, x, normal) else []
  ends : ∀ e ∈ s.edges, Mem s e.1 ∧ Mem s e.2.1

theorem Inv.step (h : Inv db o F s) {c : Nat} (hc : c ∈ s.plist) : Inv db o F (step db o s c) := by
  have hcn : c ∉ s.nodes := fun x => (List.nodup_append.1 h.nodup).2.2 c hc c x rfl
  have hc0 : c ≠ 0 := fun e => hcn (e ▸ h.root)
  have hs : Shows db o F c := (h.sound c (.inl hc)).resolve_left hc0
  rw [step_eq]
  generalize ht : addAll s (targets db o c) = t
  have hn : (t.plist ++ t.nodes).Nodup := ht ▸ addAll_nodup _ h.nodup
  have htn : t.nodes = s.nodes := ht ▸ addAll_nodes _ s
  have htm : ∀ x, Mem t x ↔ Mem s x ∨ x ∈ targets db o c := fun x => ht ▸ addAll_mem _ x s
  have htc : c ∈ t.plist := ht ▸ addAll_suffix _ hc
  have hpn : t.plist.Nodup := (List.nodup_append.1 hn).1
  generalize hu : (⟨t.plist.erase c, c :: s.nodes, s.edges ++ (targets db o c).map fun x => (c, x, normal)⟩ : St) = u
  have hum : ∀ x, Mem u x ↔ Mem t x := by
    intro x
    rw [← hu]
    unfold Mem
    dsimp only
    rw [htn, List.mem_cons]
    by_cases e : x = c
    · subst e; exact ⟨fun _ => .inl htc, fun _ => .inr (.inl rfl)⟩
    · rw [List.mem_erase_of_ne e]
      constructor
      · rintro (h | h | h)
        · exact .inl h
        · exact absurd h e
        · exact .inr h
      · rintro (h | h)
        · exact .inl h
        · exact .inr (.inr h)
  have hun : (u.plist ++ u.nodes).Nodup := by
    rw [← hu]
    dsimp only
    rw [htn] at hn
    obtain ⟨_, h2, h3⟩ := List.nodup_append.1 hn
    rw [List.nodup_append]
    refine ⟨hpn.erase c, List.nodup_cons.2 ⟨hcn, h2⟩, fun a ha b hb e => ?_⟩
    rcases List.mem_cons.1 hb with rfl | hb
    · exact (List.Nodup.mem_erase_iff hpn).1 ha |>.1 e
    · exact h3 a (List.mem_of_mem_erase ha) b hb e
  have hunodes : u.nodes = c :: s.nodes := by rw [← hu]
  have huedges : u.edges = s.edges ++ (targets db o c).map fun x => (c, x, normal) := by rw [← hu]
  have hm : ∀ x, Mem (addAll u (insides db o c)) x ↔ Mem s x ∨ x ∈ targets db o c ∨ x ∈ insides db o c := by
    intro x
    rw [addAll_mem, hum, htm, or_assoc]
  refine ⟨addAll_nodup _ hun, ?_, ?_, ?_, ?_, ?_, ?_, ?_⟩
  · rw [addAll_nodes, hunodes]; exact List.mem_cons_of_mem _ h.root
  · intro x hx
    rcases (hm x).1 hx with hx | hx | hx
    · exact h.sound x hx
    · exact .inr (.arrow hs ((mem_targets c x).1 hx))
    · obtain ⟨h1, h2, h3⟩ := (mem_insides c x).1 hx
      exact .inr (.inside hs h1 h2 h3)
  · exact fun x hx => (hm x).2 (.inl (h.given x hx))
  · intro a ha ha0 b hb
    rw [addAll_nodes, hunodes, List.mem_cons] at ha
    rw [hm]
    rcases ha with rfl | ha
    · exact .inr (.inl ((mem_targets a b).2 hb))
    · exact .inl (h.arrows a ha ha0 b hb)
  · intro d hd hd0 x hx
    rw [addAll_nodes, hunodes, List.mem_cons] at hd
    rw [hm]
    rcases hd with rfl | hd
    · exact .inr (.inr hx)
    · exact .inl (h.inside d hd hd0 x hx)
  · intro a ha0
    rw [addAll_edges, huedges, addAll_nodes, hunodes, List.filter_append, h.edges a ha0]
    by_cases e : a = c
    · subst e
      rw [if_neg hcn, if_pos List.mem_cons_self, List.nil_append, List.filter_eq_self]
      intro e he
      obtain ⟨x, _, rfl⟩ := List.mem_map.1 he
      exact decide_eq_true rfl
    · have : (((targets db o c).map fun x => (c, x, normal)).filter fun e => decide (e.1 = a)) = [] := by
        rw [List.filter_eq_nil_iff]
        intro e' he'
        obtain ⟨x, _, rfl⟩ := List.mem_map.1 he'
        simp only [decide_eq_true_eq]
        exact fun x => e x.symm
      rw [this, List.append_nil]
      simp only [List.mem_cons, e, false_or]
  · intro e he
    rw [addAll_edges, huedges, List.mem_append] at he
    rw [hm, hm]
    rcases he with he | he
    · exact ⟨.inl (h.ends e he).1, .inl (h.ends e he).2⟩
    · obtain ⟨x, hx, rfl⟩ := List.mem_map.1 he
      exact ⟨.inl (.inl hc), .inr (.inl hx)⟩

theorem inv_loop : ∀ {fuel : Nat} {s : St}, Inv db o F s → ∀ {t}, loop db o fuel s = some t → Inv db o F t ∧ t.plist = [] := by
  intro fuel
  induction fuel with
  | zero =>
    intro s h t ht
    unfold loop at ht
    split at ht
    · rename_i e; cases ht; exact ⟨h, e⟩
    · cases ht
  | succ n ih =>
    intro s h t ht
    unfold loop at ht
    split at ht
    · rename_i e; cases ht; exact ⟨h, e⟩
    · rename_i c l e
      exact ih (h.step (c := c) (by rw [e]; exact List.mem_cons_self)) ht

/-- All nodes are of the database. -/
def Known (U : List Nat) (s : St) : Prop := ∀ x ∈ s.plist, x ∈ U

theorem targets_known (hU : Within db U) {c x : Nat} (h : x ∈ targets db o c) : x ∈ U := by
  rcases (mem_targets c x).1 h with ⟨h, _⟩ | ⟨_, h⟩
  · exact hU.links h
  · exact hU.groups h

theorem mem_plist_addAll {l : List Nat} {s : St} {x : Nat} (h : x ∈ (addAll s l).plist) : x ∈ s.plist ∨ x ∈ l := by
  induction l generalizing s with
  | nil => exact .inl h
  | cons y l ih =>
    rcases ih (s := add s y) h with h | h
    · unfold add at h
      split at h
      · exact .inl h
      · rcases List.mem_cons.1 h with rfl | h
        · exact .inr List.mem_cons_self
        · exact .inl h
    · exact .inr (List.mem_cons_of_mem _ h)

theorem known_step (hU : Within db U) (h : Known U s) (c : Nat) : Known U (step db o s c) := by
  rw [step_eq]
  intro x hx
  rcases mem_plist_addAll hx with hx | hx
  · rcases mem_plist_addAll (List.mem_of_mem_erase hx) with hx | hx
    · exact h x hx
    · exact targets_known hU hx
  · exact hU.dirs ((mem_insides c x).1 hx).2.1

theorem filter_less {l : List Nat} {p q : Nat → Bool} (hpq : ∀ x, q x = true → p x = true) {c : Nat} (hc : c ∈ l) (h1 : p c = true) (h2 : q c = false) :
    (l.filter q).length < (l.filter p).length := by
  induction l with
  | nil => cases hc
  | cons y l ih =>
    have hle : (l.filter q).length ≤ (l.filter p).length := by
      clear ih hc
      induction l with
      | nil => exact Nat.le_refl _
      | cons z l ih =>
        simp only [List.filter_cons]
        by_cases hq : q z = true
        · rw [if_pos hq, if_pos (hpq z hq)]; exact Nat.succ_le_succ ih
        · rw [if_neg hq]
          split
          · exact Nat.le_succ_of_le ih
          · exact ih
    by_cases e : y = c
    · subst e
      rw [List.filter_cons_of_pos h1, List.filter_cons_of_neg (by simp [h2])]
      exact Nat.lt_succ_of_le hle
    · have ih := ih ((List.mem_cons.1 hc).resolve_left (fun x => e x.symm))
      simp only [List.filter_cons]
      by_cases hq : q y = true
      · rw [if_pos hq, if_pos (hpq y hq)]; exact Nat.succ_lt_succ ih
      · rw [if_neg hq]
        split
        · exact Nat.lt_succ_of_lt ih
        · exact ih

theorem loop_ends (hU : Within db U) : ∀ {fuel : Nat} {s : St}, Inv db o F s → Known U s → (U.filter fun x => x ∉ s.nodes).length ≤ fuel →
    ∃ t, loop db o fuel s = some t := by
  intro fuel
  induction fuel with
  | zero =>
    intro s h hk hf
    unfold loop
    split
    · exact ⟨s, rfl⟩
    · rename_i c l e
      have hc : c ∈ s.plist := by rw [e]; exact List.mem_cons_self
      have : c ∈ U.filter fun x => x ∉ s.nodes :=
        List.mem_filter.2 ⟨hk c hc, decide_eq_true fun x => (List.nodup_append.1 h.nodup).2.2 c hc c x rfl⟩
      rw [List.length_eq_zero_iff.1 (Nat.le_zero.1 hf)] at this
      cases this
  | succ n ih =>
    intro s h hk hf
    unfold loop
    split
    · exact ⟨s, rfl⟩
    · rename_i c l e
      have hc : c ∈ s.plist := by rw [e]; exact List.mem_cons_self
      refine ih (h.step hc) (known_step hU hk c) ?_
      have hn : (step db o s c).nodes = c :: s.nodes := by rw [step_eq, addAll_nodes]
      rw [hn]
      have := filter_less (l := U) (p := fun x => decide (x ∉ s.nodes)) (q := fun x => decide (x ∉ c :: s.nodes)) (c := c)
        (by intro x hx; simp only [decide_eq_true_eq] at hx ⊢; exact fun y => hx (List.mem_cons_of_mem _ y)) (hk c hc)
        (decide_eq_true fun x => (List.nodup_append.1 h.nodup).2.2 c hc c x rfl) (decide_eq_false (by simp))
      omega

theorem inv_of {s : St} (h1 : (s.plist ++ s.nodes).Nodup) (h2 : s.nodes = [0]) (h3 : ∀ x, Mem s x ↔ x = 0 ∨ F x)
    (h4 : ∀ e ∈ s.edges, e.1 = 0 ∧ Mem s e.2.1) : Inv db o F s where
  nodup := h1
  root := by rw [h2]; exact List.mem_cons_self
  sound := fun x hx => ((h3 x).1 hx).imp id .given
  given := fun x hx => (h3 x).2 (.inr hx)
  arrows := fun a ha ha0 => absurd (by rw [h2] at ha; exact List.mem_singleton.1 ha) ha0
  inside := fun a ha ha0 => absurd (by rw [h2] at ha; exact List.mem_singleton.1 ha) ha0
  edges := by
    intro a ha
    rw [h2, if_neg (by simpa using ha), List.filter_eq_nil_iff]
    intro e he
    simp only [decide_eq_true_eq]
    exact fun x => ha (x.symm.trans (h4 e he).1)
  ends := fun e he => ⟨(h3 _).2 (.inl (h4 e he).1), (h4 e he).2⟩

theorem init_nodup : (init.plist ++ init.nodes).Nodup := by decide
theorem init_mem (x : Nat) : Mem init x ↔ x = 0 := by simp [Mem, init]

theorem start_inv (args : List Nat) : Inv db o (From db o args) (start db o args) := by
  unfold start
  split
  · rename_i he
    subst he
    rw [cb_some, cb_some, addAll_with, addAll_append, ← List.filter_append]
    have hm : ∀ x, Mem (addAll init ((db.create ++ db.modify).filter fun x => !skipped db o (some 0) x)) x ↔ x = 0 ∨ From db o [] x := by
      intro x
      rw [addAll_mem, init_mem, List.mem_filter, skipped_some, List.mem_append]
      unfold From
      simp
    refine inv_of ?_ ?_ hm ?_
    · exact addAll_nodup _ init_nodup
    · exact addAll_nodes _ init
    · intro e he
      dsimp only at he
      rw [show init.edges = [] from rfl, List.nil_append, ← List.map_append, ← List.filter_append] at he
      obtain ⟨x, hx, rfl⟩ := List.mem_map.1 he
      exact ⟨rfl, (addAll_mem _ x init).2 (.inr hx)⟩
  · rename_i he
    refine inv_of (addAll_nodup args init_nodup) (addAll_nodes args init) ?_ ?_
    · intro x
      show Mem (addAll init args) x ↔ _
      rw [addAll_mem, init_mem]
      unfold From
      simp [he]
    · intro e h
      rw [show args.foldl add init = addAll init args from rfl, addAll_edges] at h
      cases h

theorem start_known (hU : Within db U) {args : List Nat} (ha : ∀ x ∈ args, x ∈ U) : Known U (start db o args) := by
  intro x hx
  have h0 : init.plist = [] := rfl
  unfold start at hx
  split at hx
  · rw [cb_some, cb_some, addAll_with, addAll_append, ← List.filter_append] at hx
    rcases mem_plist_addAll hx with hx | hx
    · cases hx
    · rcases List.mem_append.1 (List.mem_filter.1 hx).1 with h | h
      · exact hU.create h
      · exact hU.modify h
  · rcases mem_plist_addAll (show x ∈ (addAll init args).plist from hx) with hx | hx
    · cases hx
    · exact ha x hx

/-- When nothing is left to look at, the nodes are those that are to be shown. -/
theorem nodes_iff (h : Inv db o F s) (hp : s.plist = []) (h0 : ¬ Shows db o F 0) (x : Nat) : x ∈ s.nodes ↔ x = 0 ∨ Shows db o F x := by
  have hm : ∀ y, Mem s y ↔ y ∈ s.nodes := by intro y; unfold Mem; rw [hp]; simp
  constructor
  · exact fun hx => h.sound x ((hm x).2 hx)
  · rintro (rfl | hx)
    · exact h.root
    · have : x ≠ 0 → x ∈ s.nodes := by
        induction hx with
        | given hx => exact fun _ => (hm _).1 (h.given _ hx)
        | arrow ha hb ih => exact fun _ => (hm _).1 (h.arrows _ (ih (fun e => h0 (e ▸ ha))) (fun e => h0 (e ▸ ha)) _ hb)
        | inside hd hn hx hm' ih =>
          exact fun _ => (hm _).1 (h.inside _ (ih (fun e => h0 (e ▸ hd))) (fun e => h0 (e ▸ hd)) _ ((mem_insides _ _).2 ⟨hn, hx, hm'⟩))
      exact this (fun e => h0 (e ▸ hx))

theorem shows_known (hU : Within db U) {args : List Nat} (ha : ∀ x ∈ args, x ∈ U) {x : Nat} (h : Shows db o (From db o args) x) : x ∈ U := by
  cases h with
  | given h =>
    rcases h with ⟨_, h⟩ | ⟨_, h | h, _⟩
    · exact ha x h
    · exact hU.create h
    · exact hU.modify h
  | arrow _ h =>
    rcases h with ⟨h, _⟩ | ⟨_, h⟩
    · exact hU.links h
    · exact hU.groups h
  | inside _ _ h _ => exact hU.dirs h

end Tup.GraphCmd
