import Mathlib.Logic.Function.Basic
import Verif.Domain.Model
/-!
Aligned allocation: /repo/src/ovxx/aligned_array.hpp l.36-83 (`detail::alloc_align`, `alloc_align<T>`, `free_align`, in the configuration with neither
`posix_memalign` nor `memalign`), the owner class `aligned_array` (l.85-165), and /repo/src/ovxx/aligned_allocator.hpp l.26-37.

`malloc` is a parameter: it is asked for a number of bytes and gives an address, 0 for failure.  Memory is words of 8 bytes at byte addresses.
-/
namespace Verif.Aln

/-- `~(align - 1)` on `size_t` (l.46) -/
def mask (align : Nat) : Nat := W₆₄ - 1 - (align + (W₆₄ - 1)) % W₆₄

/-- the outcome: `precondition` fails, `bad_alloc`, or the address, with the memory after the store and the bytes asked of `malloc` -/
inductive Res where
  | assert
  | badAlloc
  | ok (ret : Nat) (mem : Nat → Nat) (asked : Nat)

/-- `detail::alloc_align` (l.39-50) -/
def allocBytes (malloc : Nat → Nat) (mem : Nat → Nat) (align size : Nat) : Res :=
  if 8 ≤ align then
    let asked := (size + align) % W₆₄
    let ptr := malloc asked
    if ptr = 0 then .badAlloc
    else
      let ret := (ptr + align) % W₆₄ &&& mask align
      .ok ret (Function.update mem (ret - 8) ptr) asked
  else .assert

/-- `alloc_align<T>(align, size)` (l.59-74), `elem` is `sizeof(T)` -/
def alloc (malloc : Nat → Nat) (mem : Nat → Nat) (align elem size : Nat) : Res := allocBytes malloc mem align (size * elem % W₆₄)

/-- `aligned_allocator::allocate` (aligned_allocator.hpp l.26-33) with alignment `A` -/
def allocate (malloc : Nat → Nat) (mem : Nat → Nat) (A size : Nat) : Res := alloc malloc mem A 1 (if size = 0 then 1 else size)

/-- `detail::free_align` (l.52-55): what is passed to `free`, if anything -/
def freeArg (mem : Nat → Nat) (p : Nat) : Option Nat := if p ≠ 0 then some (mem (p - 8)) else none

/-! ### `aligned_array` -/

/-- `data_`, `size_` -/
structure Arr where
  data : Nat
  size : Nat
deriving DecidableEq

/-- Objects that exist, and the blocks on the heap with their sizes (address to number of elements).  A block is named by its address. -/
structure Heap where
  obj : Nat → Option Arr
  blk : Nat → Option Nat

/-- `free_align(p)`; `none`: the block is not on the heap -/
def Heap.free (h : Heap) (p : Nat) : Option Heap :=
  if p = 0 then some h else if (h.blk p).isSome then some { h with blk := Function.update h.blk p none } else none

def Heap.put (h : Heap) (o : Nat) (a : Option Arr) : Heap := { h with obj := Function.update h.obj o a }

/-- `aligned_array()` (l.99) -/
def ctor0 (h : Heap) (o : Nat) : Heap := h.put o (some ⟨0, 0⟩)

/-- `aligned_array(size)` (l.101-111); `p` is the address of the new block, not null (`alloc_align` throws instead) -/
def ctor (h : Heap) (o p n : Nat) : Heap := { h with blk := Function.update h.blk p (some n) }.put o (some ⟨p, n⟩)

/-- `release()` (l.142-148) -/
def release (h : Heap) (o : Nat) : Option (Heap × Arr) := (h.obj o).map fun a => (h.put o (some ⟨0, 0⟩), a)

/-- `reset(p, s)` (l.149-157) -/
def reset (h : Heap) (o : Nat) (p s : Nat) : Option Heap :=
  (h.obj o).bind fun a => if p ≠ a.data then (h.free a.data).map fun h => h.put o (some ⟨p, s⟩) else some h

/-- `aligned_array(aligned_array &)` (l.112) -/
def copy (h : Heap) (o src : Nat) : Option Heap := (release h src).map fun (h, a) => h.put o (some a)

/-- `operator=(aligned_array &)` (l.115-121) -/
def assign (h : Heap) (o src : Nat) : Option Heap :=
  (h.obj src).bind fun b => (release h src).bind fun (h, a) => (reset h o a.data 0).bind fun h => (h.obj o).map fun c => h.put o (some ⟨c.data, b.size⟩)

/-- `operator=(aligned_array_ref)` (l.122-126) with the conversion of l.134-139 -/
def assignRef (h : Heap) (o src : Nat) : Option Heap := (release h src).bind fun (h, a) => reset h o a.data a.size

/-- `~aligned_array()` (l.114) -/
def dtor (h : Heap) (o : Nat) : Option Heap := (h.obj o).bind fun a => (h.free a.data).map fun h => h.put o none

end Verif.Aln
