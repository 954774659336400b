import Verif.Mempool.Model

/-! Correct use of the pools of one type, and what they promise.  Each thread has a pool of its own (`_Thread_local`,
for instance file.c:49), and an object may be given back by another thread than the one that allocated it. -/

namespace Tup.Mempool

/-- Two objects of a size have no byte in common. -/
def Apart (size a b : Nat) : Prop := a + size ≤ b ∨ b + size ≤ a

/-- The object at `a` lies in the block, behind the link to the next block. -/
def Inside (size a : Nat) (blk : Nat × Nat) : Prop := blk.1 + header ≤ a ∧ a + size ≤ blk.1 + blk.2

/-- A type: its size is a multiple of its alignment, which malloc provides (16), it has room for a pointer, and an
object fits into the first block. -/
structure Good (c : Cfg) : Prop where
  align : c.align ∣ 16
  size : c.align ∣ c.item
  pointer : header ≤ c.item
  fits : 16 + c.item ≤ 4096

/-- The pools of the threads, the memory that has been got from malloc (address and size), and the objects in use. -/
structure S where
  pools : List Pool
  blocks : List (Nat × Nat)
  live : List Nat

/-- What malloc promises: memory that is aligned and has nothing in common with what it gave before. -/
def Honest (blocks new : List (Nat × Nat)) : Prop :=
  ∀ b ∈ new, 16 ∣ b.1 ∧ ∀ blk ∈ blocks, blk.1 + blk.2 ≤ b.1 ∨ b.1 + b.2 ≤ blk.1

/-- The histories: threads are started; they allocate objects; they give back objects in use.  The
allocator never asks malloc for 0 bytes (see `c63_four_gigabytes`). -/
inductive Reach (c : Cfg) : S → Prop where
  | init : Reach c ⟨[], [], []⟩
  | thread {pools blocks live} : Reach c ⟨pools, blocks, live⟩ → Reach c ⟨pools ++ [init], blocks, live⟩
  | alloc {l p r blocks live m} : Reach c ⟨l ++ p :: r, blocks, live⟩ → Honest blocks (asked c m p) →
    (∀ b ∈ asked c m p, b.2 ≠ 0) →
    Reach c ⟨l ++ (alloc c m p).1 :: r, asked c m p ++ blocks, (alloc c m p).2.toList ++ live⟩
  | release {l p r blocks live a} : Reach c ⟨l ++ p :: r, blocks, live⟩ → a ∈ live →
    Reach c ⟨l ++ release a p :: r, blocks, live.erase a⟩

/-- The objects that have been given back. -/
def given (s : S) : List Nat := s.pools.flatMap (·.free)

end Tup.Mempool
