import Mathlib.Logic.Function.Basic
/-!
The pool allocator of /repo/src/ovxx/huge_page_allocator.cpp l.69-205.

The pool is words of memory at byte addresses; a free block at `p` holds the pointer to the next free block at `p` and its size at `p + 8` (0: null
pointer).  Everything the program stores in memory it was given is in the same words.
Simplified: opening the file and mapping it (l.36-67) always succeed, and the number of pages is such that `pages * 0x1000000` (l.71) does not
overflow `int`.  `none`: a read or write outside the pool, an assertion that fails, or a walk along the free list that does not end (more than `fuel`
steps).
-/
namespace Verif.Huge

structure Pool where
  mem : Nat → Nat
  /-- `pool_`, `size_` -/
  base : Nat
  size : Nat
  /-- `free_` -/
  free : Nat
  /-- `total_avail_` -/
  avail : Nat

/-- l.69-77 -/
def create (mem : Nat → Nat) (base size : Nat) : Pool :=
  ⟨Function.update (Function.update mem base 0) (base + 8) size, base, size, base, size⟩

/-- the two words at `p` are in the pool -/
def inPool (s : Pool) (p : Nat) : Bool := decide (s.base ≤ p ∧ p + 16 ≤ s.base + s.size)

/-- l.81-87, 134-139; `size_t` wraps -/
def round (size : Nat) : Nat :=
  let size := if size < 16 then 16 else size
  if size % 128 ≠ 0 then (size + (128 - size % 128)) % 18446744073709551616 else size

/-- l.89-98 -/
def fit (s : Pool) (size : Nat) : Nat → Nat → Nat → Option (Nat × Nat)
  | 0, _, _ => none
  | fuel + 1, prev, ptr =>
    if ptr = 0 then some (prev, 0)
    else if inPool s ptr then if s.mem (ptr + 8) < size then fit s size fuel ptr (s.mem ptr) else some (prev, ptr)
    else none

/-- l.141-148 -/
def place (s : Pool) (r : Nat) : Nat → Nat → Nat → Option (Nat × Nat)
  | 0, _, _ => none
  | fuel + 1, prev, ptr =>
    if ptr ≠ 0 ∧ ptr < r then if inPool s ptr then place s r fuel ptr (s.mem ptr) else none
    else some (prev, ptr)

/-- a store to one word -/
def Pool.set (s : Pool) (p v : Nat) : Pool := { s with mem := Function.update s.mem p v }

/-- the assignment of the link to `p`: `free_ = v` or `*(char**)prev = v` -/
def link (s : Pool) (prev v : Nat) : Pool := if prev = 0 then { s with free := v } else s.set prev v

/-- l.79-130; the result is the block, or nothing when `bad_alloc` is thrown -/
def allocate (fuel : Nat) (s : Pool) (n : Nat) : Option (Pool × Option Nat) :=
  (fit s (round n) fuel 0 s.free).bind fun (prev, ptr) =>
    if ptr = 0 then some (s, none)
    else
      let size := round n
      let avail := s.mem (ptr + 8)
      let s := { s with avail := (s.avail + (18446744073709551616 - size)) % 18446744073709551616 }
      if avail = size then some (link s prev (s.mem ptr), some ptr)
      else if inPool s (ptr + size) then
        let s := link s prev (ptr + size)
        let s := s.set (ptr + size) (s.mem ptr)
        some (s.set (ptr + size + 8) (avail - size), some ptr)
      else none

/-- l.132-205 -/
def deallocate (fuel : Nat) (s : Pool) (r n : Nat) : Option Pool :=
  (place s r fuel 0 s.free).bind fun (prev, ptr) =>
    let size := round n
    let done (s : Pool) : Pool := { s with avail := (s.avail + size) % 18446744073709551616 }
    if inPool s r = false then none
    else if ptr = 0 then some (done { s.set (r + 8) size with free := r })
    else if inPool s ptr = false ∨ ptr < r + size then none
    else
      let s := if size = ptr - r then (s.set r (s.mem ptr)).set (r + 8) (size + s.mem (ptr + 8)) else (s.set r ptr).set (r + 8) size
      if prev = 0 then some (done { s with free := r })
      else if s.mem (prev + 8) = r - prev then
        let s := s.set prev (s.mem r)
        some (done (s.set (prev + 8) (size + s.mem (r + 8))))
      else some (done (s.set prev r))

end Verif.Huge
