import Verif.Domain.Model
import Verif.Signal.Model
import Mathlib.Algebra.Field.Rat
/-!
Model of the benchmarks of two-dimensional convolutions, `/repo/benchmarks/conv2d.cpp` and `/repo/benchmarks/cvsip/conv2d.cpp`.

`length_type` has 64 bits and is unsigned.  Elements are rationals, compared exactly.  The convolution of the C library is taken to be that of
`/repo/src/ovxx/signal/conv.hpp` (`Sig.convolve2`).  Times are left out.
-/
namespace Verif.Bcv
open Verif Verif.Sig

/-- one dimension of `output_size` with decimation 1 (conv2d.cpp l.31-51, cvsip/conv2d.cpp l.211-233): `m` coefficients, `n` inputs -/
def outSize (supp : Supp) (m n : Nat) : Nat :=
  match supp with
  | .full => toIdx ((toIdx ((n : Int) + m - 2) / 1 : Nat) + 1)
  | .same => toIdx ((toIdx ((n : Int) - 1) / 1 : Nat) + 1)
  | .min => toIdx ((toIdx ((n : Int) - 1) / 1 : Nat) - (toIdx ((m : Int) - 1) / 1 : Nat) + 1)

/-- a new matrix filled with ones (`create_input`, cvsip/conv2d.cpp l.34-39, 74-79) -/
def ones (r c : Nat) : Mat ℚ := ⟨r, c, fun _ _ => 1⟩

/-- the value expected at the first output (cvsip/conv2d.cpp l.161-167) -/
def expected (supp : Supp) : ℚ :=
  match supp with
  | .full => 1
  | .same => 4
  | .min => 9

/-- the convolution measured and the check of its first output (cvsip/conv2d.cpp l.149-170): whether the result is said to be valid; `none` if it is not computed -/
def check (supp : Supp) (rows cols m n : Nat) : Option Bool := do
  let v ← (convolve2 .nonsym supp (ones m n) (ones rows cols) 1).2 0 0
  some (decide (v = expected supp))

end Verif.Bcv
