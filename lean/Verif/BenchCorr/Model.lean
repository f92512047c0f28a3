import Verif.Domain.Model
import Verif.Signal.Model
import Mathlib.Algebra.BigOperators.Group.Finset.Basic
/-!
Model of the benchmark of correlations, `/repo/benchmarks/corr.cpp`, with the loops of `/repo/src/ovxx/signal/corr.hpp` as far as the products they
make are concerned, and of the memory of benchmarks, `/repo/benchmarks/alloc_block.hpp`.

`length_type` has 64 bits and is unsigned, `int` has 32 bits.  Operations are counted exactly, not rounded to `float`.
-/
namespace Verif.Bcr
open Verif.Sig

/-- `my_output_size` (corr.cpp l.67-75, 138-146), modulo 2^64 -/
def outSize (supp : Supp) (M N : Nat) : Nat :=
  match supp with
  | .full => toIdx ((N : Int) + M - 1)
  | .same => N
  | .min => toIdx ((N : Int) - M + 1)

/-- the vectors of `operator()` (corr.cpp l.42-49, 110-117): sizes of input, output and reference, the numbers stored in the reference; `none` if a
store is outside (`ref(0)`, `ref(1)`) -/
def setup (supp : Supp) (M N : Nat) : Option (Nat × Nat × List Nat) :=
  let ref := List.replicate M 0
  if 0 < M then
    let ref := ref.set 0 1
    if 1 < M then some (N, outSize supp M N, ref.set 1 2) else none
  else none

/-- whether the loop over `k` at output `n` makes a product (signal/corr.hpp l.90-134, 136-183, 185-215) -/
def makes (supp : Supp) (M N n k : Nat) : Bool :=
  match supp with
  | .full => decide (n + k ≥ M - 1) && decide (n + k < N + (M - 1))
  | .same => decide (n + k ≥ M / 2) && decide (n + k < N + M / 2)
  | .min => true

/-- the number of products of a correlation -/
def products (supp : Supp) (M N : Nat) : Nat :=
  ∑ n ∈ Finset.range (outputSize supp M N 1), ((Finset.range M).filter fun k => makes supp M N n k = true).card

/-- `ops_per_point` times the size (corr.cpp l.27-34, 93-100); `w` is the cost of a product and a sum -/
def ops (supp : Supp) (M N w : Nat) : Nat := M * outSize supp M N * w

/-- a range of bytes: first and length -/
structure Bytes where
  first : Nat
  len : Nat
  deriving DecidableEq

/-- where `alloc` puts a block of `n` complex numbers whose parts take `s` bytes, when an address is given (alloc_block.hpp l.56, 86-89, 120,
152-155): interleaved numbers, or real and imaginary parts -/
def place (split : Bool) (s n addr offset : Nat) : List Bytes :=
  if split then [⟨addr + offset + 0 * s, n * s⟩, ⟨addr + offset + n * s, n * s⟩] else [⟨addr + offset, n * (2 * s)⟩]

/-- `open_huge_pages` (alloc_block.hpp l.210-241) once the file is open, on an operating system that maps what it is asked to: the bytes mapped and the
bytes touched, relative to the start; `some none`: the null pointer, as nothing can be mapped.  `none`: `pages * 0x1000000` overflows `int`. -/
def openPages (pages : Int) : Option (Option (Nat × List Nat)) :=
  let len := pages * 16777216
  if len < -2147483648 ∨ 2147483647 < len then none
  else if len ≤ 0 then some none
  else some (some (len.toNat, (List.range pages.toNat).map fun i => i * 16777216 + 8388608))

end Verif.Bcr
