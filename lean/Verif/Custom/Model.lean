import Verif.Custom.Spec
import Mathlib.Logic.Function.Basic

/-! # The examples of custom evaluators, of convolutions and of solvers

Model of `share/examples/eval/evaluation.cpp`, `share/examples/dispatch/mprod.cpp`,
`dispatch/mprod-dda.cpp`, `dispatch/ct_custom.cpp`, `dispatch/rt_custom.cpp`,
`share/examples/signal/conv.cpp` (l.186-280) and the data of `share/examples/solvers`. Floating point
numbers are rationals; reading or writing outside an array is `none`. -/

namespace Verif.Custom

open Spec

/-! ## Fused scaling and interpolation -/

/-- share/examples/eval/evaluation.cpp l.48, 51: `i / stretch`. -/
def position (oldSize newSize i : ℕ) : ℚ := (i : ℚ) / ((newSize : ℚ) / oldSize)

/-- share/examples/eval/evaluation.cpp l.51-57: value `i` of `scaled_interpolate`. -/
def interp (arg : List ℚ) (scale : ℚ) (newSize i : ℕ) : Option ℚ :=
  if ⌊position arg.length newSize i⌋.toNat + 1 = arg.length then
    (arg[⌊position arg.length newSize i⌋.toNat]?).bind fun p =>
      some (scale * (p * (position arg.length newSize i - ⌊position arg.length newSize i⌋.toNat)))
  else
    (arg[⌊position arg.length newSize i⌋.toNat]?).bind fun p =>
    (arg[⌊position arg.length newSize i⌋.toNat + 1]?).bind fun q =>
      some (scale * (p * (position arg.length newSize i - ⌊position arg.length newSize i⌋.toNat) +
        q * (1 - (position arg.length newSize i - ⌊position arg.length newSize i⌋.toNat))))

/-! ## Matrix products -/

/-- share/examples/dispatch/mprod.cpp l.63-67: the inner loop. -/
def inner (a b : ℕ → ℕ → ℚ) (n i j : ℕ) : ℚ :=
  (List.range n).foldl (fun sum k => sum + a i k * b k j) 0

/-- share/examples/dispatch/mprod.cpp l.60-69: the assignments to `Z`, of `r` rows and `c` columns. -/
def mprod (a b : ℕ → ℕ → ℚ) (r c n : ℕ) (z : ℕ → ℕ → ℚ) : ℕ → ℕ → ℚ :=
  (List.range r).foldl (fun z i =>
    (List.range c).foldl (fun z j =>
      fun i' j' => if i' = i ∧ j' = j then inner a b n i j else z i' j') z) z

/-- share/examples/dispatch/mprod-dda.cpp l.120, 129-133: `rt_valid`, from the sizes of `A` and the
distances between the columns of the three matrices. -/
def rtValid (rowsA colsA : ℕ) (colZ colA colB : ℤ) : Bool :=
  (rowsA == 4 && colsA == 4) && (colZ == 1 && colA == 1 && colB == 1)

/-- share/examples/dispatch/mprod-dda.cpp l.60-64: the inner loop on the arrays. -/
def dot (A B : List ℚ) (i j : ℕ) : Option ℚ :=
  (List.range 4).foldlM (fun sum k =>
    (A[i * 4 + k]?).bind fun a => (B[k * 4 + j]?).bind fun b => some (sum + a * b)) 0

/-- share/examples/dispatch/mprod-dda.cpp l.57-66: what is written to `Z` (an array of `zlen`
elements), in order. -/
def mprodDda (A B : List ℚ) (zlen n : ℕ) : Option (List (ℕ × ℚ)) :=
  ((List.range n).flatMap fun i => (List.range 4).map fun j => (i, j)).mapM fun p =>
    (dot A B p.1 p.2).bind fun v =>
      if p.1 * 4 + p.2 < zlen then some (p.1 * 4 + p.2, v) else none

/-! ## Choice of a backend -/

/-- The backends of the examples. -/
inductive Be
  | A | B | C | D
deriving DecidableEq, Repr

/-- Element types. -/
inductive Ty
  | float | double | cfloat | cdouble
deriving DecidableEq, Repr

/-- src/ovxx/dispatcher/dispatcher.hpp l.76-130: the first backend that is valid at compile time and at
run time. -/
def choose : List (Be × Bool × Bool) → Option Be
  | [] => none
  | (b, ct, rt) :: l => if ct && rt then some b else choose l

/-- share/examples/dispatch/ct_custom.cpp l.96-129: the list of backends for a type. -/
def ctChoice (t : Ty) : Option Be :=
  choose [(.A, false, true), (.B, t == .float, true), (.C, t == .cfloat || t == .cdouble, true),
    (.D, true, true)]

/-- share/examples/dispatch/rt_custom.cpp l.67-70: `is_power_of_two(unsigned)` given a `size_t`. -/
def pow2 (size : ℕ) : Bool :=
  decide ((size % 2 ^ 32) &&& ((size % 2 ^ 32 + 2 ^ 32 - 1) % 2 ^ 32) = 0)

/-- share/examples/dispatch/rt_custom.cpp l.86-126: the backend for a type and a size. -/
def rtChoice (t : Ty) (size : ℕ) : Option Be :=
  choose [(.A, false, true), (.B, t == .float, true), (.C, true, pow2 size), (.D, true, true)]

/-! ## Circular convolutions -/

/-- share/examples/signal/conv.cpp l.189-192: the kernel in a new vector of `N` elements that held
`mem`; `none` if the kernel is longer. -/
def padKernel (N : ℕ) (kernel mem : List ℚ) : Option (List ℚ) :=
  if kernel.length ≤ N then
    some ((List.range N).map fun i =>
      if i < kernel.length then kernel.getD i 0 else mem.getD i 0)
  else none

/-- share/examples/signal/conv.cpp l.264-272: the input with its end in front; the index in l.268 is
unsigned and wraps. -/
def padInput (K : ℕ) (input : List ℚ) : Option (List ℚ) :=
  (List.range (input.length + K - 1)).mapM fun i =>
    if i < K - 1 then
      input[(((input.length : ℤ) - K + i + 1) % 2 ^ 64).toNat]?
    else input[i + 1 - K]?

/-- src/ovxx/signal/conv.hpp l.308-320: minimum support without decimation, `n`-th value. -/
def convMin (kernel input : List ℚ) (n : ℕ) : Option ℚ :=
  (List.range kernel.length).foldlM (fun sum k =>
    (input[n + (kernel.length - 1) - k]?).bind fun x => some (sum + kernel.getD k 0 * x)) 0

/-- share/examples/signal/conv.cpp l.221-222 (and l.227-228): the upper half of the spectrum set from
the lower half; for `N < 2` the bound of the loop wraps around and the loop leaves the vector. -/
def mirror {V : Type} (conj : V → V) (N : ℕ) (X : ℕ → V) : Option (ℕ → V) :=
  if N / 2 = 0 then none else
  some ((List.range (N / 2 - 1)).foldl (fun Y i =>
    Function.update Y (i + N / 2 + 1) (conj (Y (N / 2 - i - 1)))) X)

/-! ## Solvers -/

/-- share/examples/solvers/qr.cpp l.80-82 (and lu.cpp l.82-84, covsol.cpp l.90-92, llsqsol.cpp l.89-91):
the rows of `A`. -/
def row0 : V3 := ⟨1, -2, 3⟩
/-- As `row0`. -/
def row1 : V3 := ⟨4, 0, 6⟩
/-- As `row0`. -/
def row2 : V3 := ⟨2, -1, 3⟩

/-- share/examples/solvers/qr.cpp l.84: the right-hand side. -/
def rhs : V3 := ⟨1, -2, -1⟩

/-- Product with `A`. -/
def mulA (x : V3) : V3 := mulVec row0 row1 row2 x

/-- Product with the transpose of `A`. -/
def mulAt (x : V3) : V3 :=
  mulVec ⟨row0.a, row1.a, row2.a⟩ ⟨row0.b, row1.b, row2.b⟩ ⟨row0.c, row1.c, row2.c⟩ x

/-- What the calls of the examples solve: `lu.solve<mat_ntrans>` (lu.cpp l.97), `qr.covsol` (qr.cpp
l.96) and `covsol` (covsol.cpp l.100), `llsqsol` (llsqsol.cpp l.99), as stated for these functions. -/
inductive Call
  | luSolve | qrCovsol | covsol | llsqsol

/-- The equation solved by a call. -/
def Solves : Call → V3 → Prop
  | .luSolve, x => mulA x = rhs
  | .qrCovsol, x => mulAt (mulA x) = rhs
  | .covsol, x => mulAt (mulA x) = rhs
  | .llsqsol, x => mulAt (mulA x) = mulAt rhs

end Verif.Custom
