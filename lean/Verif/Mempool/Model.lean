/-!
Model of the allocator for objects of one type (src/tup/mempool.c, src/tup/mempool.h).  Addresses are natural numbers.
The list of all blocks, which is for valgrind only, is not modelled (mempool.c:27-28, 60-62, 99-108).
-/

namespace Tup.Mempool

/-- The constants of a pool: `item_size` and `alignment`, mempool.h:33-35. -/
structure Cfg where
  item : Nat
  align : Nat

/-- `sizeof(struct mementry)`, mempool.h:26-28: one pointer. -/
def header : Nat := 8

/-- The variables of `struct mempool`, mempool.h:31-38.  The free list is a list of addresses: the link in each object
is not modelled. -/
structure Pool where
  free : List Nat
  mem : Nat
  count : Int
  next : Nat
deriving DecidableEq, Repr

/-- `MEMPOOL_INITIALIZER`, mempool.h:41-42. -/
def init : Pool := ⟨[], 0, 0, 4096⟩

/-- Conversion of a `size_t` to `int` in the assignment mempool.c:74, as compilers do it. -/
def toInt (n : Nat) : Int := if n % 2 ^ 32 < 2 ^ 31 then (n % 2 ^ 32 : Nat) else (n % 2 ^ 32 : Nat) - 2 ^ 32

/-- `mem_offset`, mempool.c:72. -/
def offset (c : Cfg) : Nat := (header + (c.align - 1)) / c.align * c.align

/-- mempool.c:72-75: a new block at `b`.  The subtraction is one of `size_t` and the doubling one of `unsigned int`. -/
def refill (c : Cfg) (b : Nat) (p : Pool) : Pool :=
  { p with
    mem := b + offset c
    count := toInt ((p.next + 2 ^ 64 - offset c) % 2 ^ 64 / c.item)
    next := p.next * 2 % 2 ^ 32 }

/-- mempool.c:81-88: the next object of the block.  The alignment is a power of two, so that the test of the low bits is
one of divisibility. -/
def take (c : Cfg) (p : Pool) : Pool × Option Nat :=
  if p.mem % c.align ≠ 0 then (p, none)
  else ({ p with mem := p.mem + c.item, count := p.count - 1 }, some p.mem)

/-- `mempool_alloc`, mempool.c:30-89; `m` is what malloc answers if it is called, `none` is NULL. -/
def alloc (c : Cfg) (m : Option Nat) (p : Pool) : Pool × Option Nat :=
  match p.free with
  | a :: free => ({ p with free := free }, some a)
  | [] =>
    if p.count = 0 then
      if c.item < header then (p, none)
      else match m with
        | none => (p, none)
        | some b => take c (refill c b p)
    else take c p

/-- The block that `mempool_alloc` gets from malloc, if any, with its size: the call in mempool.c:55. -/
def asked (c : Cfg) (m : Option Nat) (p : Pool) : List (Nat × Nat) :=
  if p.free = [] ∧ p.count = 0 ∧ ¬c.item < header then m.toList.map (·, p.next) else []

/-- `mempool_free`, mempool.c:91-97, for an item that is not NULL. -/
def release (a : Nat) (p : Pool) : Pool := { p with free := a :: p.free }

end Tup.Mempool
