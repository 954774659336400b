import Verif.Mempool.Spec

/-! The invariant of the pools. -/

namespace Tup.Mempool

variable {c : Cfg}

/-- The unused end of the last block of a pool: `n` objects from `mem` on. -/
def Sep (c : Cfg) (p q : Pool) : Prop :=
  p.count ≠ 0 → q.count ≠ 0 →
    p.mem + p.count.toNat * c.item ≤ q.mem ∨ q.mem + q.count.toNat * c.item ≤ p.mem

/-- What is true of one pool among given blocks and objects. -/
structure PoolOk (c : Cfg) (blocks : List (Nat × Nat)) (objs : List Nat) (p : Pool) : Prop where
  nat : 0 ≤ p.count
  rest : p.count ≠ 0 → c.align ∣ p.mem ∧
    (∃ blk ∈ blocks, blk.1 + header ≤ p.mem ∧ p.mem + p.count.toNat * c.item ≤ blk.1 + blk.2) ∧
    ∀ a ∈ objs, a + c.item ≤ p.mem ∨ p.mem + p.count.toNat * c.item ≤ a
  next : p.next = 0 ∨ ∃ k < 20, p.next = 4096 * 2 ^ k

/-- All objects that have been handed out. -/
def objs (s : S) : List Nat := given s ++ s.live

/-- The invariant: the objects in use and given back are apart from each other and inside of blocks, and so are the
unused ends of blocks. -/
structure Inv (c : Cfg) (s : S) : Prop where
  apart : (objs s).Pairwise (Apart c.item)
  inside : ∀ a ∈ objs s, c.align ∣ a ∧ ∃ blk ∈ s.blocks, Inside c.item a blk
  pool : ∀ p ∈ s.pools, PoolOk c s.blocks (objs s) p
  sep : s.pools.Pairwise (Sep c)

theorem align_pos (h : Good c) : 0 < c.align := Nat.pos_of_dvd_of_pos h.align (by decide)

theorem offset_spec (h : Good c) : header ≤ offset c ∧ offset c ≤ 16 ∧ c.align ∣ offset c := by
  have h1 := h.align
  have h2 : c.align ≤ 16 := Nat.le_of_dvd (by decide) h1
  have h3 := align_pos h
  unfold offset header
  refine ⟨?_, ?_, Nat.dvd_mul_left _ _⟩
  · have := Nat.div_add_mod (8 + (c.align - 1)) c.align
    have h4 := Nat.mod_lt (8 + (c.align - 1)) h3
    rw [Nat.mul_comm] at this
    omega
  · generalize c.align = a at *
    have : a = 1 ∨ a = 2 ∨ a = 4 ∨ a = 8 ∨ a = 16 := by
      have key : ∀ x < 17, x ∣ 16 → 0 < x → x = 1 ∨ x = 2 ∨ x = 4 ∨ x = 8 ∨ x = 16 := by decide
      exact key a (by omega) h1 h3
    rcases this with rfl | rfl | rfl | rfl | rfl <;> decide

theorem apart_comm {n a b : Nat} (h : Apart n a b) : Apart n b a := by unfold Apart at *; omega

theorem sep_comm {p q : Pool} (h : Sep c p q) : Sep c q p := fun h1 h2 => (h h2 h1).symm

theorem PoolOk.mono {blocks blocks' : List (Nat × Nat)} {o o' : List Nat} {p : Pool} (h : PoolOk c blocks o p)
    (hb : ∀ b ∈ blocks, b ∈ blocks') (ho : ∀ a ∈ o', a ∈ o) : PoolOk c blocks' o' p :=
  ⟨h.nat, fun hn => by
    obtain ⟨q1, ⟨blk, q2, q3⟩, q4⟩ := h.rest hn
    exact ⟨q1, ⟨blk, hb blk q2, q3⟩, fun a ha => q4 a (ho a ha)⟩, h.next⟩

/-- Replacing one pool. -/
theorem sep_replace {l r : List Pool} {p p' : Pool} (h : (l ++ p :: r).Pairwise (Sep c))
    (hp : ∀ q, Sep c p q → Sep c p' q) : (l ++ p' :: r).Pairwise (Sep c) := by
  have h1 : (p :: (l ++ r)).Pairwise (Sep c) := (List.perm_middle.pairwise_iff sep_comm).1 h
  refine (List.perm_middle.pairwise_iff sep_comm).2 ?_
  rw [List.pairwise_cons] at h1 ⊢
  exact ⟨fun q hq => hp q (h1.1 q hq), h1.2⟩

/-- The objects of a state as those of one pool and the others. -/
theorem objs_perm (l r : List Pool) (p : Pool) (blocks : List (Nat × Nat)) (live : List Nat) :
    (objs ⟨l ++ p :: r, blocks, live⟩).Perm (p.free ++ (given ⟨l ++ r, blocks, live⟩ ++ live)) := by
  unfold objs given
  simp only [List.flatMap_append, List.flatMap_cons, List.append_assoc]
  refine List.Perm.trans ?_ (List.perm_append_comm_assoc _ _ _)
  exact List.Perm.refl _

/-- If the objects stay the same and the pool stays separate, the invariant is kept. -/
theorem inv_same {l r : List Pool} {p p' : Pool} {blocks : List (Nat × Nat)} {live live' : List Nat}
    (hi : Inv c ⟨l ++ p :: r, blocks, live⟩)
    (hperm : (objs ⟨l ++ p :: r, blocks, live⟩).Perm (objs ⟨l ++ p' :: r, blocks, live'⟩))
    (hm : p'.mem = p.mem) (hc : p'.count = p.count) (hn : p'.next = p.next) :
    Inv c ⟨l ++ p' :: r, blocks, live'⟩ := by
  refine ⟨(hperm.pairwise_iff apart_comm).1 hi.apart, fun a ha => hi.inside a (hperm.mem_iff.2 ha), ?_, ?_⟩
  · intro q hq
    have hq' : q = p' ∨ q ∈ l ++ p :: r := by simp at hq ⊢; grind
    rcases hq' with rfl | hq'
    · have := (hi.pool p (by simp)).mono (fun _ h => h) (fun a ha => hperm.mem_iff.2 ha)
      exact ⟨by rw [hc]; exact this.nat, by rw [hc, hm]; exact this.rest, by rw [hn]; exact this.next⟩
    · exact (hi.pool q hq').mono (fun _ h => h) (fun a ha => hperm.mem_iff.2 ha)
  · exact sep_replace hi.sep (fun q hq => by unfold Sep at *; rw [hc, hm]; exact hq)

theorem inv_thread {pools : List Pool} {blocks : List (Nat × Nat)} {live : List Nat}
    (hi : Inv c ⟨pools, blocks, live⟩) : Inv c ⟨pools ++ [init], blocks, live⟩ := by
  have he : objs ⟨pools ++ [init], blocks, live⟩ = objs ⟨pools, blocks, live⟩ := by simp [objs, given, init]
  refine ⟨by rw [he]; exact hi.apart, by rw [he]; exact hi.inside, ?_, ?_⟩
  · intro p hp
    rw [he]
    rcases List.mem_append.1 hp with h | h
    · exact hi.pool p h
    · rw [List.mem_singleton] at h
      subst h
      exact ⟨by decide, fun h => absurd rfl h, Or.inr ⟨0, by decide, rfl⟩⟩
  · refine List.pairwise_append.2 ⟨hi.sep, List.pairwise_singleton _ _, ?_⟩
    intro p _ q hq
    rw [List.mem_singleton] at hq
    subst hq
    exact fun _ h => absurd rfl h

theorem inv_release {l r : List Pool} {p : Pool} {blocks : List (Nat × Nat)} {live : List Nat} {a : Nat}
    (hi : Inv c ⟨l ++ p :: r, blocks, live⟩) (ha : a ∈ live) :
    Inv c ⟨l ++ release a p :: r, blocks, live.erase a⟩ := by
  refine inv_same hi ?_ rfl rfl rfl
  refine (objs_perm l r p blocks live).trans (List.Perm.trans ?_ (objs_perm l r (release a p) blocks _).symm)
  have e : given ⟨l ++ r, blocks, live.erase a⟩ = given ⟨l ++ r, blocks, live⟩ := rfl
  rw [e]
  simp only [release, List.cons_append]
  refine (((List.perm_cons_erase ha).append_left _).append_left _).trans ?_
  rw [← List.append_assoc, ← List.append_assoc]
  exact List.perm_middle

/-- Taking the next object of the block. -/
theorem take_spec (h : Good c) {l r : List Pool} {p : Pool} {blocks : List (Nat × Nat)} {live : List Nat}
    (hi : Inv c ⟨l ++ p :: r, blocks, live⟩) (h0 : p.count ≠ 0) :
    Inv c ⟨l ++ (take c p).1 :: r, blocks, (take c p).2.toList ++ live⟩ ∧ (take c p).2 = some p.mem ∧
      ∀ b ∈ objs ⟨l ++ p :: r, blocks, live⟩, Apart c.item p.mem b := by
  have hpk := hi.pool p (by simp)
  obtain ⟨q1, ⟨blk, q2, q3, q4⟩, q5⟩ := hpk.rest h0
  obtain ⟨k, hk⟩ : ∃ k, p.count.toNat = k + 1 := ⟨p.count.toNat - 1, by have := hpk.nat; omega⟩
  have hk' : (p.count - 1).toNat = k := by omega
  rw [hk, Nat.succ_mul] at q4 q5
  have hap : ∀ b ∈ objs ⟨l ++ p :: r, blocks, live⟩, Apart c.item p.mem b := by
    intro b hb
    rcases q5 b hb with r | r
    · exact Or.inr r
    · exact Or.inl (by omega)
  have hr : take c p = ({ p with mem := p.mem + c.item, count := p.count - 1 }, some p.mem) := by
    rw [take, if_neg (by rw [Classical.not_not]; exact Nat.mod_eq_zero_of_dvd q1)]
  rw [hr]
  refine ⟨?_, rfl, hap⟩
  simp only [Option.toList]
  generalize hp' : { p with mem := p.mem + c.item, count := p.count - 1 } = p'
  have e1 : p'.mem = p.mem + c.item := by rw [← hp']
  have e2 : p'.count = p.count - 1 := by rw [← hp']
  have e3 : p'.next = p.next := by rw [← hp']
  have e4 : p'.free = p.free := by rw [← hp']
  have hperm : (objs ⟨l ++ p' :: r, blocks, [p.mem] ++ live⟩).Perm (p.mem :: objs ⟨l ++ p :: r, blocks, live⟩) := by
    have : given ⟨l ++ p' :: r, blocks, [p.mem] ++ live⟩ = given ⟨l ++ p :: r, blocks, live⟩ := by
      simp [given, e4]
    unfold objs
    rw [this]
    exact List.perm_middle
  refine ⟨?_, ?_, ?_, ?_⟩
  · exact (hperm.pairwise_iff apart_comm).2 (List.pairwise_cons.2 ⟨hap, hi.apart⟩)
  · intro a ha
    rcases List.mem_cons.1 (hperm.mem_iff.1 ha) with rfl | ha
    · exact ⟨q1, blk, q2, q3, by omega⟩
    · exact hi.inside a ha
  · intro q hq
    have hq' : q = p' ∨ q ∈ l ++ r := by simp at hq ⊢; grind
    rcases hq' with rfl | hq'
    · refine ⟨by have := hpk.nat; omega, ?_, by rw [e3]; exact hpk.next⟩
      intro _
      rw [e1, e2, hk']
      refine ⟨Nat.dvd_add q1 h.size, ⟨blk, q2, by omega, by omega⟩, ?_⟩
      intro a ha
      rcases List.mem_cons.1 (hperm.mem_iff.1 ha) with rfl | ha
      · exact Or.inl (Nat.le_refl _)
      · rcases q5 a ha with r | r
        · exact Or.inl (by omega)
        · exact Or.inr (by omega)
    · have hk2 := hi.pool q (by simp at hq' ⊢; grind)
      refine ⟨hk2.nat, ?_, hk2.next⟩
      intro hn
      obtain ⟨s1, s2, s3⟩ := hk2.rest hn
      refine ⟨s1, s2, ?_⟩
      intro a ha
      rcases List.mem_cons.1 (hperm.mem_iff.1 ha) with rfl | ha
      · have h1 : (p :: (l ++ r)).Pairwise (Sep c) := (List.perm_middle.pairwise_iff sep_comm).1 hi.sep
        have := (List.pairwise_cons.1 h1).1 q hq' h0 hn
        rw [hk, Nat.succ_mul] at this
        omega
      · exact s3 a ha
  · refine sep_replace hi.sep ?_
    intro q hs _ hn
    have := hs h0 hn
    rw [e1, e2, hk']
    rw [hk, Nat.succ_mul] at this
    omega

theorem refill_count (h : Good c) {p : Pool} {b k : Nat} (hk : k < 20) (hn : p.next = 4096 * 2 ^ k) :
    (refill c b p).count = ((p.next - offset c) / c.item : Nat) ∧ 0 < (p.next - offset c) / c.item ∧
    4096 ≤ p.next := by
  obtain ⟨o1, o2, o3⟩ := offset_spec h
  have hp := h.pointer
  have hfit := h.fits
  unfold header at hp
  have hge : 4096 ≤ p.next := by rw [hn]; exact Nat.le_mul_of_pos_right _ (Nat.two_pow_pos _)
  have hlt : p.next ≤ 2 ^ 31 := by
    rw [hn]
    have : 2 ^ k ≤ 2 ^ 19 := Nat.pow_le_pow_right (by decide) (by omega)
    calc 4096 * 2 ^ k ≤ 4096 * 2 ^ 19 := Nat.mul_le_mul_left _ this
      _ = 2 ^ 31 := by decide
  have hsub : (p.next + 2 ^ 64 - offset c) % 2 ^ 64 = p.next - offset c := by omega
  refine ⟨?_, Nat.div_pos (by omega) (by omega), hge⟩
  simp only [refill]
  rw [hsub]
  have h1 : (p.next - offset c) / c.item ≤ (p.next - offset c) / 8 := Nat.div_le_div_left hp (by decide)
  have h2 : (p.next - offset c) / c.item < 2 ^ 31 := by omega
  unfold toInt
  generalize (p.next - offset c) / c.item = q at h2
  rw [if_pos (by omega)]
  congr 1
  omega

theorem next_double {k : Nat} (hk : k < 20) : 4096 * 2 ^ k * 2 % 2 ^ 32 = if k = 19 then 0 else 4096 * 2 ^ (k + 1) := by
  have : ∀ k < 20, 4096 * 2 ^ k * 2 % 2 ^ 32 = if k = 19 then 0 else 4096 * 2 ^ (k + 1) := by decide
  exact this k hk

/-- Getting a new block. -/
theorem refill_spec (h : Good c) {l r : List Pool} {p : Pool} {blocks : List (Nat × Nat)} {live : List Nat} {b : Nat}
    (hi : Inv c ⟨l ++ p :: r, blocks, live⟩) (hb : Honest blocks [(b, p.next)]) (h0 : p.next ≠ 0) :
    Inv c ⟨l ++ refill c b p :: r, (b, p.next) :: blocks, live⟩ ∧ (refill c b p).count ≠ 0 := by
  obtain ⟨o1, o2, o3⟩ := offset_spec h
  obtain ⟨hb1, hb2⟩ := hb (b, p.next) (by simp)
  simp only at hb1 hb2
  have hpk := hi.pool p (by simp)
  obtain ⟨k, hk, hn⟩ := hpk.next.resolve_left h0
  obtain ⟨hcnt, hpos, hge⟩ := refill_count (b := b) h hk hn
  have hmul := Nat.div_mul_le_self (p.next - offset c) c.item
  have he : objs ⟨l ++ refill c b p :: r, (b, p.next) :: blocks, live⟩ = objs ⟨l ++ p :: r, blocks, live⟩ := by
    simp [objs, given, refill]
  refine ⟨⟨by rw [he]; exact hi.apart, ?_, ?_, ?_⟩, by rw [hcnt]; omega⟩
  · rw [he]
    intro a ha
    obtain ⟨q1, blk, q2, q3⟩ := hi.inside a ha
    exact ⟨q1, blk, List.mem_cons_of_mem _ q2, q3⟩
  · intro q hq
    rw [he]
    have hq' : q = refill c b p ∨ q ∈ l ++ p :: r := by simp at hq ⊢; grind
    rcases hq' with rfl | hq'
    · refine ⟨by rw [hcnt]; omega, fun _ => ?_, ?_⟩
      · rw [hcnt, Int.toNat_natCast]
        refine ⟨?_, ⟨(b, p.next), List.mem_cons_self, ?_, ?_⟩, ?_⟩
        · simp only [refill]
          exact Nat.dvd_add (Nat.dvd_trans h.align hb1) o3
        · simp only [refill]; omega
        · simp only [refill]; omega
        · intro a ha
          obtain ⟨_, blk, q2, q3⟩ := hi.inside a ha
          unfold Inside at q3
          simp only [refill]
          rcases hb2 blk q2 with r | r
          · left; omega
          · right; omega
      · simp only [refill]
        rw [hn, next_double hk]
        split
        · exact Or.inl rfl
        · exact Or.inr ⟨k + 1, by omega, rfl⟩
    · exact (hi.pool q hq').mono (fun x hx => List.mem_cons_of_mem _ hx) (fun _ h => h)
  · have h1 : (p :: (l ++ r)).Pairwise (Sep c) := (List.perm_middle.pairwise_iff sep_comm).1 hi.sep
    refine (List.perm_middle.pairwise_iff sep_comm).2 ?_
    rw [List.pairwise_cons] at h1 ⊢
    refine ⟨?_, h1.2⟩
    intro q hq _ hqc
    have hqk := hi.pool q (by simp at hq ⊢; grind)
    obtain ⟨_, ⟨blk, s1, s2, s3⟩, _⟩ := hqk.rest hqc
    rw [hcnt, Int.toNat_natCast]
    simp only [refill]
    rcases hb2 blk s1 with r | r
    · right; omega
    · left; omega

/-- What one allocation does in a good state. -/
theorem alloc_spec (h : Good c) {l r : List Pool} {p : Pool} {blocks : List (Nat × Nat)} {live : List Nat}
    {m : Option Nat} (hi : Inv c ⟨l ++ p :: r, blocks, live⟩) (hm : Honest blocks (asked c m p))
    (h0 : ∀ b ∈ asked c m p, b.2 ≠ 0) :
    Inv c ⟨l ++ (alloc c m p).1 :: r, asked c m p ++ blocks, (alloc c m p).2.toList ++ live⟩ ∧
    ((alloc c m p).2 = none → p.free = [] ∧ p.count = 0 ∧ m = none ∧ (alloc c m p).1 = p) ∧
    ∀ a, (alloc c m p).2 = some a → ∀ b ∈ live, Apart c.item a b := by
  unfold alloc asked at *
  cases hf : p.free with
  | cons a free =>
    simp only [reduceCtorEq, false_and, if_false, List.nil_append, Option.toList, List.cons_append]
    have hap := ((objs_perm l r p blocks live).pairwise_iff apart_comm).1 hi.apart
    rw [hf, List.cons_append, List.pairwise_cons] at hap
    refine ⟨?_, by simp, ?_⟩
    · refine inv_same hi ?_ rfl rfl rfl
      refine (objs_perm l r p blocks live).trans (List.Perm.trans ?_ (objs_perm l r _ blocks _).symm)
      have e : given ⟨l ++ r, blocks, a :: live⟩ = given ⟨l ++ r, blocks, live⟩ := rfl
      rw [e, hf]
      simp only
      rw [List.cons_append, ← List.append_assoc, ← List.append_assoc]
      exact List.perm_middle.symm
    · intro x hx b hb
      simp only [Option.some.injEq] at hx
      subst hx
      exact hap.1 b (by simp [hb])
  | nil =>
    simp only [true_and] at *
    by_cases hc : p.count = 0
    · rw [if_pos hc, if_neg (Nat.not_lt.2 h.pointer)]
      rw [if_pos ⟨hf, hc, Nat.not_lt.2 h.pointer⟩] at hm h0
      rw [if_pos ⟨hc, Nat.not_lt.2 h.pointer⟩]
      cases m with
      | none =>
        exact ⟨hi, fun _ => ⟨hc, rfl, rfl⟩, by simp⟩
      | some b =>
        obtain ⟨r1, r2⟩ := refill_spec h hi hm (h0 (b, p.next) (by simp))
        obtain ⟨t1, t2, t3⟩ := take_spec h r1 r2
        refine ⟨t1, by simp [t2], ?_⟩
        intro a ha x hx
        simp only [t2, Option.some.injEq] at ha
        subst ha
        exact t3 x (by simp [objs, hx])
    · rw [if_neg hc, if_neg (fun h => hc h.1)]
      obtain ⟨t1, t2, t3⟩ := take_spec h hi hc
      refine ⟨t1, by simp [t2], ?_⟩
      intro a ha x hx
      simp only [t2, Option.some.injEq] at ha
      subst ha
      exact t3 x (by simp [objs, hx])

theorem reach_inv (h : Good c) {s : S} (hr : Reach c s) : Inv c s := by
  induction hr with
  | init => exact ⟨.nil, (by intro a ha; cases ha), (by intro a ha; cases ha), .nil⟩
  | thread _ ih => exact inv_thread ih
  | alloc _ hm hl ih => exact (alloc_spec h ih hm hl).1
  | release _ ha ih => exact inv_release ih ha

end Tup.Mempool
