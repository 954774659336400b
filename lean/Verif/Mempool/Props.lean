import Verif.Mempool.Lemmas

/-! Property C63 (see /verif/properties.jsonl). -/

namespace Tup.Mempool

variable {c : Cfg}

/-- At every moment the objects in use have no byte in common, with each other or with the objects that were given back
(in which the allocator writes); each is aligned and lies inside of memory got from malloc, behind the allocator's own
link. -/
theorem c63_objects (h : Good c) {s : S} (hr : Reach c s) :
    s.live.Pairwise (Apart c.item) ∧ (∀ a ∈ s.live, ∀ b ∈ given s, Apart c.item a b) ∧
    (given s).Pairwise (Apart c.item) ∧
    ∀ a ∈ s.live ++ given s, c.align ∣ a ∧ ∃ blk ∈ s.blocks, Inside c.item a blk := by
  have hi := reach_inv h hr
  obtain ⟨h1, h2, h3⟩ := List.pairwise_append.1 hi.apart
  refine ⟨h2, fun a ha b hb => apart_comm (h3 b hb a ha), h1, ?_⟩
  intro a ha
  refine hi.inside a ?_
  rw [List.mem_append] at ha
  exact List.mem_append.2 ha.symm

/-- An allocation gives an object that has nothing in common with those in use; it fails only if malloc does, and then
changes nothing. -/
theorem c63_alloc (h : Good c) {l r : List Pool} {p : Pool} {blocks : List (Nat × Nat)} {live : List Nat}
    {m : Option Nat} (hr : Reach c ⟨l ++ p :: r, blocks, live⟩) (hm : Honest blocks (asked c m p))
    (h0 : ∀ b ∈ asked c m p, b.2 ≠ 0) :
    (∃ a, (alloc c m p).2 = some a ∧ ∀ b ∈ live, Apart c.item a b) ∨
    ((alloc c m p).2 = none ∧ m = none ∧ p.free = [] ∧ (alloc c m p).1 = p) := by
  obtain ⟨_, h2, h3⟩ := alloc_spec h (reach_inv h hr) hm h0
  cases hq : (alloc c m p).2 with
  | some a => exact Or.inl ⟨a, rfl, h3 a hq⟩
  | none =>
    obtain ⟨q1, _, q3, q4⟩ := h2 hq
    exact Or.inr ⟨rfl, q3, q1, q4⟩

/-- Memory is used again: what a thread gives back is what it gets next. -/
theorem c63_reuse (a : Nat) (p : Pool) (m : Option Nat) :
    alloc c m (release a p) = (p, some a) ∧ asked c m (release a p) = [] := by
  simp [alloc, release, asked]

/-- There is room behind all blocks. -/
theorem room (blocks : List (Nat × Nat)) : ∃ b, 16 ∣ b ∧ ∀ blk ∈ blocks, blk.1 + blk.2 ≤ b := by
  induction blocks with
  | nil => exact ⟨0, Nat.dvd_zero _, by intro b hb; cases hb⟩
  | cons x xs ih =>
    obtain ⟨b, h1, h2⟩ := ih
    refine ⟨b + 16 * (x.1 + x.2), Nat.dvd_add h1 (Nat.dvd_mul_right _ _), ?_⟩
    intro y hy
    rcases List.mem_cons.1 hy with rfl | hy
    · omega
    · have := h2 y hy; omega

/-- All of the last block can be used. -/
theorem drain (h : Good c) (n : Nat) : ∀ {p : Pool} {blocks : List (Nat × Nat)} {live : List Nat},
    Reach c ⟨[p], blocks, live⟩ → p.free = [] → p.count = n →
    ∃ p' live', Reach c ⟨[p'], blocks, live'⟩ ∧ p'.free = [] ∧ p'.count = 0 ∧ p'.next = p.next := by
  induction n with
  | zero => exact fun {p _ live} h1 h2 h3 => ⟨p, live, h1, h2, h3, rfl⟩
  | succ n ih =>
    intro p blocks live h1 h2 h3
    have hc : p.count ≠ 0 := by omega
    have ha : asked c none p = [] := by simp [asked]
    have hr := Reach.alloc (l := []) (r := []) (m := none) h1 (by rw [ha]; intro b hb; cases hb)
      (by rw [ha]; intro b hb; cases hb)
    have hk := ((reach_inv h h1).pool p (by simp)).rest hc
    have ht : (alloc c none p).1 = { p with mem := p.mem + c.item, count := p.count - 1 } := by
      unfold alloc
      rw [h2]
      simp only
      rw [if_neg hc, take, if_neg (by rw [Classical.not_not]; exact Nat.mod_eq_zero_of_dvd hk.1), h2]
    rw [ha, ht] at hr
    obtain ⟨p', live', q1, q2, q3, q4⟩ := ih hr h2 (by simp only; omega)
    exact ⟨p', live', q1, q2, q3, q4⟩

/-- After `k` blocks. -/
theorem blocks_reach (h : Good c) (k : Nat) (hk : k ≤ 20) :
    ∃ p blocks live, Reach c ⟨[p], blocks, live⟩ ∧ p.free = [] ∧ p.count = 0 ∧
      p.next = if k = 20 then 0 else 4096 * 2 ^ k := by
  induction k with
  | zero => exact ⟨init, [], [], .thread .init, rfl, rfl, rfl⟩
  | succ k ih =>
    obtain ⟨p, blocks, live, h1, h2, h3, h4⟩ := ih (by omega)
    rw [if_neg (by omega)] at h4
    obtain ⟨b, b1, b2⟩ := room blocks
    have ha : asked c (some b) p = [(b, p.next)] := by
      rw [asked, if_pos ⟨h2, h3, Nat.not_lt.2 h.pointer⟩]; rfl
    obtain ⟨e1, e2, e3⟩ := refill_count (b := b) h (by omega) h4
    have hon : Honest blocks [(b, p.next)] := by
      intro x hx
      rw [List.mem_singleton] at hx
      subst hx
      exact ⟨b1, fun blk hb => Or.inl (b2 blk hb)⟩
    have hr := Reach.alloc (l := []) (r := []) (m := some b) h1 (by rw [ha]; exact hon)
      (by rw [ha]; intro x hx; rw [List.mem_singleton] at hx; subst hx; simp only; omega)
    have hi := (refill_spec (l := []) (r := []) h (reach_inv h h1) hon (by omega)).1
    have hal := ((hi.pool (refill c b p) (by simp)).rest (by rw [e1]; omega)).1
    have ht : (alloc c (some b) p).1 =
        { refill c b p with mem := (refill c b p).mem + c.item, count := (refill c b p).count - 1 } := by
      unfold alloc
      rw [h2]
      simp only
      rw [if_pos h3, if_neg (Nat.not_lt.2 h.pointer), take,
        if_neg (by rw [Classical.not_not]; exact Nat.mod_eq_zero_of_dvd hal)]
    rw [ha, ht] at hr
    obtain ⟨p', live', q1, q2, q3, q4⟩ := drain h ((p.next - offset c) / c.item - 1) hr h2 (by simp only [e1]; omega)
    refine ⟨p', _, live', q1, q2, q3, ?_⟩
    rw [q4]
    show (refill c b p).next = _
    simp only [refill]
    rw [h4, next_double (by omega)]
    by_cases e : k = 19
    · rw [if_pos e, if_pos (by omega)]
    · rw [if_neg e, if_neg (by omega)]

/-- The condition on malloc is needed: when a thread has used up 20 blocks (4 GB less 4 KB), the size of the next block
is 0, and an object is handed out that does not lie in memory got from malloc (whatever malloc answers to the request
for 0 bytes). -/
theorem c63_four_gigabytes (h : Good c) :
    ∃ p blocks live, Reach c ⟨[p], blocks, live⟩ ∧
      ∃ b, 16 ∣ b ∧ (∀ blk ∈ blocks, blk.1 + blk.2 ≤ b) ∧ Honest blocks (asked c (some b) p) ∧
        ∃ a, (alloc c (some b) p).2 = some a ∧ ∀ blk ∈ asked c (some b) p ++ blocks, ¬Inside c.item a blk := by
  obtain ⟨p, blocks, live, h1, h2, h3, h4⟩ := blocks_reach h 20 (Nat.le_refl _)
  rw [if_pos rfl] at h4
  obtain ⟨b, b1, b2⟩ := room blocks
  have ha : asked c (some b) p = [(b, p.next)] := by
    rw [asked, if_pos ⟨h2, h3, Nat.not_lt.2 h.pointer⟩]; rfl
  obtain ⟨o1, _, o3⟩ := offset_spec h
  refine ⟨p, blocks, live, h1, b, b1, b2, ?_, b + offset c, ?_, ?_⟩
  · rw [ha]
    intro x hx
    rw [List.mem_singleton] at hx
    subst hx
    exact ⟨b1, fun blk hb => Or.inl (b2 blk hb)⟩
  · unfold alloc
    rw [h2]
    simp only
    have hd : (b + offset c) % c.align = 0 := Nat.mod_eq_zero_of_dvd (Nat.dvd_add (Nat.dvd_trans h.align b1) o3)
    rw [if_pos h3, if_neg (Nat.not_lt.2 h.pointer), take, if_neg (by rw [Classical.not_not]; exact hd)]
    rfl
  · rw [ha]
    have hp := h.pointer
    unfold header at hp o1
    intro blk hb hin
    unfold Inside at hin
    rcases List.mem_append.1 hb with hb | hb
    · rw [List.mem_singleton] at hb
      subst hb
      simp only [h4] at hin
      omega
    · have := b2 blk hb
      omega

/-! ### A case -/

/-- The type `struct tent_list` has 24 bytes. -/
def tl : Cfg := ⟨24, 8⟩

theorem tl_good : Good tl := ⟨by decide, by decide, by decide, by decide⟩

/-- One thread allocates two objects, another thread gives one back and uses it again, and gets a block of its own for
the next one. -/
example : ∃ p q, Reach tl ⟨[p, q], [(8192, 4096), (64, 4096)], [8200, 72, 96]⟩ := by
  have e0 : Reach tl ⟨[init, init], [], []⟩ := .thread (.thread .init)
  have e1 := Reach.alloc (l := []) (r := [init]) (m := some 64) e0
    (by intro b hb; rw [show b = (64, 4096) from List.mem_singleton.1 hb]; exact ⟨by decide, by simp⟩)
    (by intro b hb; rw [show b = (64, 4096) from List.mem_singleton.1 hb]; decide)
  have e2 := Reach.alloc (l := []) (r := [init]) (m := none) e1 (by intro b hb; cases hb) (by intro b hb; cases hb)
  have e3 := Reach.release (l := [_]) (r := []) (a := 72) e2 (by decide)
  have e4 := Reach.alloc (l := [_]) (r := []) (m := none) e3 (by intro b hb; cases hb) (by intro b hb; cases hb)
  have e5 := Reach.alloc (l := [_]) (r := []) (m := some 8192) e4
    (by
      intro b hb
      rw [show b = (8192, 4096) from List.mem_singleton.1 hb]
      refine ⟨by decide, ?_⟩
      intro blk hblk
      rw [show blk = (64, 4096) from List.mem_singleton.1 hblk]
      decide)
    (by intro b hb; rw [show b = (8192, 4096) from List.mem_singleton.1 hb]; decide)
  exact ⟨_, _, e5⟩

end Tup.Mempool
