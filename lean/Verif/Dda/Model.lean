import Verif.Layout.Model
import Verif.Traversal.Model
import Verif.Domain.Model
import Mathlib.Data.Fintype.Basic
import Mathlib.Data.Fintype.Pi
/-!
Model of direct data access: `is_compatible` and the host `Accessor` classes of `/repo/src/ovxx/dda/accessor.hpp` and the copies of
`/repo/src/ovxx/dda/block_copy.hpp`.

Not modelled: device access, storage formats (complex elements are single values here; see C25, C54 for their representation).
-/
namespace Verif.Dda
open Verif Lay

/-! ### `is_compatible` (accessor.hpp l.42-116 for compile-time, l.118-194 for run-time layouts; same decisions for equal orders) -/

/-- requested packing `dense`, one dimension (l.71-72) -/
def compatDense1 (st : Fin 1 → Int) : Bool := st 0 == 1

/-- requested packing `dense`, two dimensions (l.73-77); `d0 d1` is the block's order, `o0 o1` the requested one -/
def compatDense2 (d0 d1 o0 o1 : Fin 2) (s : Fin 2 → Nat) (st : Fin 2 → Int) : Bool :=
  if (d0, d1) ≠ (o0, o1) then false
  else st d1 == 1 && (st d0 == toSigned (s d1) || s d0 == 1)

/-- requested packing `dense`, three dimensions (l.78-93) -/
def compatDense3 (d0 d1 d2 o0 o1 o2 : Fin 3) (s : Fin 3 → Nat) (st : Fin 3 → Int) : Bool :=
  if (d0, d1, d2) ≠ (o0, o1, o2) then false
  else
    let ok2 := st d2 == 1
    let ok1 := st d1 == toSigned (s d2) || (s d1 == 1 && s d0 == 1)
    let ok0 := st d0 == toSigned (w (s d1 * s d2)) || s d0 == 1
    ok0 && ok1 && ok2

/-- requested packing `unit_stride` (l.60-68): only the stride of the last dimension of the order matters -/
def compatUnit {D : Nat} (last : Fin D) (st : Fin D → Int) : Bool := st last == 1

/-- `is_aligned_to(ptr, alignment)`; `stride * sizeof(value_type) % alignment == 0` in unsigned arithmetic (l.95-110), two dimensions -/
def compatAligned2 (d0 d1 : Fin 2) (A elem ptr : Nat) (st : Fin 2 → Int) : Bool :=
  if ptr % A ≠ 0 then false else st d1 == 1 && toIdx (st d0 * elem) % A == 0

/-- three dimensions (l.106-110) -/
def compatAligned3 (d0 d1 d2 : Fin 3) (A elem ptr : Nat) (st : Fin 3 → Int) : Bool :=
  if ptr % A ≠ 0 then false else st d2 == 1 && toIdx (st d1 * elem) % A == 0 && toIdx (st d0 * elem) % A == 0

/-! ### Copies between a block and a buffer -/

/-- `for (Index<D> idx; valid(ext, idx); next(ext, idx)) storage::put(data, layout.index(idx), get(block, idx))` (block_copy.hpp l.297-301),
given the indices the loop visits -/
def copyToBuffer {D : Nat} {V : Type} (a : App D) (blk : (Fin D → Nat) → V) (buf : Nat → V) (L : List (Fin D → Nat)) : Nat → V :=
  L.foldl (fun b i => Function.update b (a.index i) (blk i)) buf

/-- `… put(block, idx, storage::get(data, layout.index(idx)))` (block_copy.hpp l.43-48) -/
def copyToBlock {D : Nat} {V : Type} (a : App D) (blk : (Fin D → Nat) → V) (buf : Nat → V) (L : List (Fin D → Nat)) : (Fin D → Nat) → V :=
  L.foldl (fun b i => Function.update b i (buf (a.index i))) blk

/-! ### Accessors -/

/-- state of an accessor that copies: the block it refers to, its buffer, `dirty_` -/
structure St (D : Nat) (V : Type) where
  blk : (Fin D → Nat) → V
  buf : Nat → V
  dirty : Bool

/-- what is fixed at construction: synchronisation policy, whether `sync_out` tests `dirty_` (copy_access, l.354-360, does;
maybe_direct_access in copy mode, l.586-595, does not), the layout of the buffer, the indices its loops visit -/
structure Cfg (D : Nat) where
  inn : Bool
  out : Bool
  tests : Bool
  lay : App D
  visit : List (Fin D → Nat)

variable {D : Nat} {V : Type}

/-- `sync_in` (l.354-357, 586-590) -/
def syncIn (c : Cfg D) (s : St D V) : St D V := if c.inn then { s with buf := copyToBuffer c.lay s.blk s.buf c.visit } else s

/-- `sync_out` (l.358-361, 591-595) -/
def syncOut (c : Cfg D) (s : St D V) : St D V :=
  if c.out && (!c.tests || s.dirty) then { s with blk := copyToBlock c.lay s.blk s.buf c.visit } else s

/-- what a client does with a live accessor -/
inductive Op (D : Nat) (V : Type) where
  /-- `ptr()`, the non-const member (l.367) -/
  | ptr
  /-- store a value through a pointer obtained from `ptr()`, at an offset -/
  | write (off : Nat) (x : V)
  | syncIn
  | syncOut
  /-- modify the block directly -/
  | blkPut (i : Fin D → Nat) (x : V)

def step (c : Cfg D) (s : St D V) : Op D V → St D V
  | .ptr => { s with dirty := true }
  | .write o x => { s with buf := Function.update s.buf o x }
  | .syncIn => syncIn c s
  | .syncOut => syncOut c s
  | .blkPut i x => { s with blk := Function.update s.blk i x }

/-- constructor (l.340-348, 572-579): the buffer's initial contents are arbitrary -/
def construct (c : Cfg D) (blk : (Fin D → Nat) → V) (buf : Nat → V) : St D V := syncIn c ⟨blk, buf, false⟩

def run (c : Cfg D) (s : St D V) (ops : List (Op D V)) : St D V := ops.foldl (step c) s

/-- destructor (l.349-352, 581) -/
def destroy (c : Cfg D) (s : St D V) : St D V := syncOut c s

end Verif.Dda
