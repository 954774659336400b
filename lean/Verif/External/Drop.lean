import Verif.External.Steps

/-! When the option is switched off, everything below `/` goes away. -/

namespace Tup.External

open Tup.Db

/-- The rows `N` are removed, and the links of `L`; nothing is scheduled. -/
structure Drop (db db' : Db) (N L : Nat → Prop) : Prop where
  out : ∀ j, N j → db'.node j = none
  keep : ∀ j, ¬ N j → db'.node j = db.node j
  normal : ∀ a b, db'.normal a b = true ↔ db.normal a b = true ∧ ¬ L a ∧ ¬ L b
  sticky : ∀ a b, db'.sticky a b = true ↔ db.sticky a b = true ∧ ¬ L a ∧ ¬ L b
  group : ∀ a b c, db'.group a b c = true ↔ db.group a b c = true ∧ ¬ L c
  modify : db'.modify = db.modify
  create : db'.create = db.create
  config : db'.config = db.config
  top : db'.top = db.top
  vars : db'.vars = db.vars
  variant : db'.variant = db.variant
  transient : db'.transient = db.transient

theorem Drop.trans {db db₁ db₂ : Db} {N N' L L' : Nat → Prop} (h : Drop db db₁ N L) (h' : Drop db₁ db₂ N' L') :
    Drop db db₂ (fun j => N j ∨ N' j) (fun j => L j ∨ L' j) := by
  refine ⟨?_, ?_, ?_, ?_, ?_, h'.modify.trans h.modify, h'.create.trans h.create, h'.config.trans h.config,
    h'.top.trans h.top, h'.vars.trans h.vars, h'.variant.trans h.variant, h'.transient.trans h.transient⟩
  · intro j hj
    by_cases hn : N' j
    · exact h'.out j hn
    · rw [h'.keep j hn]
      exact h.out j (hj.resolve_right hn)
  · intro j hj
    rw [h'.keep j fun hn => hj (.inr hn), h.keep j fun hn => hj (.inl hn)]
  · intro a b; rw [h'.normal, h.normal]; grind
  · intro a b; rw [h'.sticky, h.sticky]; grind
  · intro a b c; rw [h'.group, h.group]; grind

theorem Drop.congr {db db' : Db} {N N' L L' : Nat → Prop} (h : Drop db db' N L) (hn : ∀ j, N j ↔ N' j)
    (hl : ∀ j, L j ↔ L' j) : Drop db db' N' L' := by
  have h1 : N = N' := by funext j; exact propext (hn j)
  have h2 : L = L' := by funext j; exact propext (hl j)
  exact h1 ▸ h2 ▸ h

theorem Drop.links {db : Db} {i : Nat} (hk : db.isKind .group i = false) :
    Drop db (db.deleteLinks i) (fun _ => False) (fun j => j = i) := by
  have : db.deleteLinks i = (db.ghostChecks i).dropLinks i := by
    unfold Db.deleteLinks Db.flagGroupUsers
    rw [show (db.ghostChecks i).isKind .group i = false from hk]
    rfl
  rw [this]
  refine ⟨fun _ h => h.elim, fun _ _ => rfl, ?_, ?_, ?_, rfl, rfl, rfl, rfl, rfl, rfl, rfl⟩
  · intro a b
    show (db.normal a b && !decide (a = i) && !decide (b = i)) = true ↔ _
    simp [and_assoc]
  · intro a b
    show (db.sticky a b && !decide (a = i) && !decide (b = i)) = true ↔ _
    simp [and_assoc]
  · intro a b c
    show (db.group a b c && !decide (c = i)) = true ↔ _
    simp

theorem Drop.node {db : Db} {i : Nat} : Drop db (dropNode db i) (fun j => j = i) (fun _ => False) := by
  refine ⟨?_, ?_, ?_, ?_, ?_, rfl, rfl, rfl, rfl, rfl, rfl, rfl⟩
  · intro j hj
    show (if j = i then none else db.node j) = _
    rw [if_pos hj]
  · intro j hj
    show (if j = i then none else db.node j) = _
    rw [if_neg hj]
  all_goals (intros; simp [dropNode])

theorem Drop.none {db : Db} : Drop db db (fun _ => False) (fun _ => False) := by
  refine ⟨fun _ h => h.elim, fun _ _ => rfl, ?_, ?_, ?_, rfl, rfl, rfl, rfl, rfl, rfl, rfl⟩ <;> (intros; simp)

theorem Drop.sub {db db' : Db} {N L : Nat → Prop} (h : Drop db db' N L) {j : Nat} {n : Node} (hn : db'.node j = some n) :
    db.node j = some n ∧ ¬ N j := by
  by_cases hj : N j
  · rw [h.out j hj] at hn; cases hn
  · rw [h.keep j hj] at hn; exact ⟨hn, hj⟩

theorem Drop.wf {db db' : Db} {N L : Nat → Prop} (h : Drop db db' N L) (hw : Wf db) : Wf db' := by
  constructor
  · intro j hj
    rw [h.top] at hj
    by_cases hn : N j
    · exact h.out j hn
    · rw [h.keep j hn]; exact hw.bounded j hj
  · intro j n hn
    exact hw.down j n (h.sub hn).1

theorem Drop.under_back {db db' : Db} {N L : Nat → Prop} (h : Drop db db' N L) {a j : Nat} (hu : Under db' a j) :
    Under db a j := by
  induction hu with
  | refl => exact .refl
  | sub _ hn ih => exact .sub ih (h.sub hn).1

theorem Drop.under {db db' : Db} {N L : Nat → Prop} (h : Drop db db' N L) {a j : Nat} (hu : Under db a j)
    (hk : ∀ i, Under db a i → ¬ N i) : Under db' a j := by
  induction hu with
  | refl => exact .refl
  | sub hu hn ih => exact .sub ih (by rw [h.keep _ (hk _ (.sub hu hn)), hn])

def DropGood (drop : Db → Nat → Option Db) (low top : Nat) : Prop :=
  ∀ db i, Wf db → db.top = top → low < i → i < top → db.isKind .group i = false →
    (∀ j n, Under db i j → j ≠ i → db.node j = some n → n.kind = .ghost) →
    ∃ db', drop db i = some db' ∧ Drop db db' (fun j => Under db i j ∧ j ≠ i) (Under db i)

theorem dropAll_spec {drop : Db → Nat → Option Db} {dt top : Nat} (hg : DropGood drop dt top) (cs : List Nat) :
    ∀ db, Wf db → db.top = top → cs.Nodup → (∀ c ∈ cs, ∃ n, db.node c = some n ∧ n.dir = dt) →
      (∀ c ∈ cs, ∀ j n, Under db c j → db.node j = some n → n.kind = .ghost) →
      ∃ db', dropAll drop db cs = some db' ∧
        Drop db db' (fun j => ∃ c ∈ cs, Under db c j) (fun j => ∃ c ∈ cs, Under db c j) := by
  induction cs with
  | nil => intro db _ _ _ _ _; exact ⟨db, rfl, Drop.none.congr (by simp) (by simp)⟩
  | cons c cs ih =>
    intro db hw htop hnd hc hgh
    obtain ⟨n, hn, hd⟩ := hc c (List.mem_cons_self ..)
    have hkind : n.kind = .ghost := hgh c (List.mem_cons_self ..) c n .refl hn
    have hnd' := List.nodup_cons.1 hnd
    obtain ⟨db₁, he, h1⟩ := hg db c hw htop (by have := hw.down _ _ hn; omega) (htop ▸ lt_top hw.bounded hn)
      (by unfold Db.isKind; rw [hn]; simp [hkind])
      (fun j m hu _ hm => hgh c (List.mem_cons_self ..) j m hu hm)
    have h2 : Drop db (dropNode db₁ c) (Under db c) (Under db c) := by
      refine (h1.trans (Drop.node (i := c))).congr (fun j => ?_) (fun j => by simp)
      constructor
      · rintro (h | rfl)
        · exact h.1
        · exact .refl
      · intro h
        by_cases hj : j = c
        · exact .inr hj
        · exact .inl ⟨h, hj⟩
    generalize hdb₂ : dropNode db₁ c = db₂ at h2
    have hdisj : ∀ c' ∈ cs, ∀ i, Under db c i → Under db c' i → False := by
      intro c' hc' i hu hu'
      obtain ⟨m, hm, hmd⟩ := hc c' (List.mem_cons_of_mem _ hc')
      exact Under.disjoint hw hn hm (hd.trans hmd.symm) (fun h => hnd'.1 (h ▸ hc')) hu hu'
    have hund : ∀ c' ∈ cs, ∀ j, Under db₂ c' j ↔ Under db c' j := by
      intro c' hc' j
      exact ⟨h2.under_back, fun hu => h2.under hu fun i hi hi' => hdisj c' hc' i hi' hi⟩
    obtain ⟨db₃, he', h3⟩ := ih db₂ (h2.wf hw) (h2.top.trans htop) hnd'.2
      (by
        intro c' hc'
        obtain ⟨m, hm, hmd⟩ := hc c' (List.mem_cons_of_mem _ hc')
        exact ⟨m, by rw [h2.keep c' fun h => hdisj c' hc' c' h .refl, hm], hmd⟩)
      (by
        intro c' hc' j m hu hm
        exact hgh c' (List.mem_cons_of_mem _ hc') j m ((hund c' hc' j).1 hu) (h2.sub hm).1)
    have hset : ∀ j, (Under db c j ∨ ∃ c' ∈ cs, Under db₂ c' j) ↔ ∃ c' ∈ c :: cs, Under db c' j := by
      intro j
      constructor
      · rintro (h | ⟨c', hc', h⟩)
        · exact ⟨c, List.mem_cons_self .., h⟩
        · exact ⟨c', List.mem_cons_of_mem _ hc', (hund c' hc' j).1 h⟩
      · rintro ⟨c', hc', h⟩
        rcases List.mem_cons.1 hc' with rfl | hc'
        · exact .inl h
        · exact .inr ⟨c', hc', (hund c' hc' j).2 h⟩
    refine ⟨db₃, ?_, (h2.trans h3).congr hset hset⟩
    simp only [dropAll, hn, hkind, he]
    rw [if_neg (by simp), hdb₂]
    exact he'

theorem dropTree_spec {sort : List Nat → List Nat} (hs : ∀ l, (sort l).Perm l) (fuel : Nat) :
    ∀ db i, Wf db → db.top < fuel + i → i < db.top → db.isKind .group i = false →
    (∀ j n, Under db i j → j ≠ i → db.node j = some n → n.kind = .ghost) →
    ∃ db', dropTree sort fuel db i = some db' ∧ Drop db db' (fun j => Under db i j ∧ j ≠ i) (Under db i) := by
  induction fuel with
  | zero => intro db i _ h1 h2; omega
  | succ fuel ih =>
    intro db i hw hfuel htop hk hgh
    have hmem : ∀ c, c ∈ sort (children db i) ↔ ∃ n, db.node c = some n ∧ n.dir = i :=
      fun c => (hs _).mem_iff.trans (mem_children hw)
    have h1 := Drop.links hk
    have hund : ∀ a j, Under (db.deleteLinks i) a j ↔ Under db a j :=
      fun a j => ⟨h1.under_back, fun h => h1.under h fun _ _ h => h⟩
    have hrow : ∀ j, (db.deleteLinks i).node j = db.node j := fun j => h1.keep j id
    have hchild : ∀ c n, db.node c = some n → n.dir = i → Under db i c := fun c n hn hd => .sub (hd ▸ .refl) hn
    obtain ⟨db', he, h2⟩ := dropAll_spec (drop := dropTree sort fuel) (dt := i) (top := db.top)
      (by
        intro db' j hw' ht hlow hj hk' hgh'
        exact ih db' j hw' (by omega) (by omega) hk' hgh')
      (sort (children db i)) (db.deleteLinks i) (h1.wf hw) h1.top ((hs _).nodup_iff.2 (nodup_children db i))
      (fun c hc => by rw [hrow]; exact (hmem c).1 hc)
      (by
        intro c hc j n hu hn
        obtain ⟨m, hm, hmd⟩ := (hmem c).1 hc
        rw [hund] at hu
        rw [hrow] at hn
        refine hgh j n ((hchild c m hm hmd).trans hu) ?_ hn
        have h3 := hu.le hw
        have h4 := hw.down c m hm
        omega)
    have hset : ∀ j, (∃ c ∈ sort (children db i), Under (db.deleteLinks i) c j) ↔ Under db i j ∧ j ≠ i := by
      intro j
      constructor
      · rintro ⟨c, hc, hu⟩
        obtain ⟨m, hm, hmd⟩ := (hmem c).1 hc
        rw [hund] at hu
        refine ⟨(hchild c m hm hmd).trans hu, ?_⟩
        have h3 := hu.le hw
        have h4 := hw.down c m hm
        omega
      · rintro ⟨hu, hne⟩
        have : ∃ c n, db.node c = some n ∧ n.dir = i ∧ Under db c j := by
          induction hu with
          | refl => exact absurd rfl hne
          | @sub j n hu hn ih =>
            by_cases h : n.dir = i
            · exact ⟨j, n, hn, h, .refl⟩
            · obtain ⟨c, m, h1, h2, h3⟩ := ih h
              exact ⟨c, m, h1, h2, .sub h3 hn⟩
        obtain ⟨c, n, hn, hd, hu'⟩ := this
        exact ⟨c, (hmem c).2 ⟨n, hn, hd⟩, (hund c j).2 hu'⟩
    refine ⟨db', he, (h1.trans h2).congr (fun j => ?_) (fun j => ?_)⟩
    · rw [hset]; simp
    · rw [hset]
      constructor
      · rintro (rfl | h)
        · exact .refl
        · exact h.1
      · intro h
        by_cases hj : j = i
        · exact .inl hj
        · exact .inr ⟨h, hj⟩

theorem under_below {db : Db} {s j : Nat} (h : Under db s j) : ∃ p, Below db s j p ∧ (j ≠ s → p ≠ []) := by
  induction h with
  | refl => exact ⟨[], .top, fun h => absurd rfl h⟩
  | sub _ hn ih =>
    obtain ⟨p, hp, _⟩ := ih
    exact ⟨_, .sub hp hn rfl, fun _ => by simp⟩

end Tup.External
