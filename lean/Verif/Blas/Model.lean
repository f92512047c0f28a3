import Mathlib.Algebra.BigOperators.Group.Finset.Basic
import Mathlib.Algebra.Star.Basic

/-!
# The BLAS evaluators

Model of `src/ovxx/lapack/blas.hpp`: the wrappers of the BLAS functions and the evaluators that use them for `outer`, `dot`, `prod` and `gemp`.

The BLAS itself is not part of the repository.  Its functions are given by their definition (the reference implementation of netlib): which
arguments are refused (`xerbla`), which elements are read and written, and with which value.

Simplifications.  Values are from a commutative ring with a conjugation: no rounding.  Memory maps element addresses to values; a view is given by what
`dda::Data` returns (pointer, strides) and its sizes.  All blocks are accessed directly (no copies), and the result shares no memory with the
operands.  `none`: the BLAS refuses the arguments, or an `int` computation overflows.
-/

namespace Verif.Blas

open Finset

/-- Memory. -/
abbrev Mem (K : Type) := ℤ → K

/-- Conversion of a `length_type` or `stride_type` to `int`. -/
def int (z : ℤ) : ℤ := (z + 2 ^ 31) % 2 ^ 32 - 2 ^ 31

/-- Access to a matrix: `ptr()`, `stride(0)`, `stride(1)`, the sizes, and whether the order type is `row2_type`. -/
structure MView where
  ptr : ℤ
  s0 : ℤ
  s1 : ℤ
  rows : ℕ
  cols : ℕ
  rowMajor : Bool

/-- Access to a vector. -/
structure VView where
  ptr : ℤ
  s : ℤ
  n : ℕ

/-- Where element (i, j) lies. -/
def MView.addr (v : MView) (i j : ℕ) : ℤ := v.ptr + i * v.s0 + j * v.s1

/-- Where element i lies. -/
def VView.addr (v : VView) (i : ℕ) : ℤ := v.ptr + i * v.s

section
variable {K : Type} [CommRing K] [StarRing K] [DecidableEq K]

/-! ## The BLAS -/

/-- Element (i, l) of `op(A)`, `op` being the identity or transposition. -/
def opElem (t : Bool) (A : Mem K) (a lda : ℤ) (i l : ℤ) : K := if t then A (a + l + i * lda) else A (a + i + l * lda)

/-- `xGEMM`: `C := alpha op(A) op(B) + beta C`; `C` is not read when `beta` is zero. -/
def gemm (ta tb : Bool) (m n k : ℤ) (alpha : K) (A : Mem K) (a lda : ℤ) (B : Mem K) (b ldb : ℤ) (beta : K) (C : Mem K) (c ldc : ℤ) : Option (Mem K) :=
  if m < 0 ∨ n < 0 ∨ k < 0 ∨ lda < max 1 (if ta then k else m) ∨ ldb < max 1 (if tb then n else k) ∨ ldc < max 1 m then none
  else some fun x =>
    let i := (x - c) % ldc
    let j := (x - c) / ldc
    if i < m ∧ 0 ≤ j ∧ j < n then
      alpha * (∑ l ∈ range k.toNat, opElem ta A a lda i l * opElem tb B b ldb l j) + (if beta = 0 then 0 else beta * C x)
    else C x

/-- Element `l` of a BLAS vector of length `n`: with a negative increment the vector starts at the far end. -/
def vecAddr (x incx n : ℤ) (l : ℤ) : ℤ := if 0 < incx then x + l * incx else x - (n - 1) * incx + l * incx

/-- `xGEMV` with `trans = 'n'`: `y := alpha A x + beta y`, but nothing is done when `m` or `n` is zero. -/
def gemv (m n : ℤ) (alpha : K) (A : Mem K) (a lda : ℤ) (X : Mem K) (x incx : ℤ) (beta : K) (Y : Mem K) (y incy : ℤ) : Option (Mem K) :=
  if m < 0 ∨ n < 0 ∨ lda < max 1 m ∨ incx = 0 ∨ incy = 0 then none
  else if m = 0 ∨ n = 0 then some Y
  else some fun z =>
    let i := (z - vecAddr y incy m 0) / incy
    if (z - vecAddr y incy m 0) % incy = 0 ∧ 0 ≤ i ∧ i < m then
      alpha * (∑ l ∈ range n.toNat, A (a + i + l * lda) * X (vecAddr x incx n l)) + (if beta = 0 then 0 else beta * Y z)
    else Y z

/-- `xGER`, `xGERC` (`cj`): `A := alpha x yᵀ + A`, `A := alpha x yᴴ + A`. -/
def ger (cj : Bool) (m n : ℤ) (alpha : K) (X : Mem K) (x incx : ℤ) (Y : Mem K) (y incy : ℤ) (A : Mem K) (a lda : ℤ) : Option (Mem K) :=
  if m < 0 ∨ n < 0 ∨ incx = 0 ∨ incy = 0 ∨ lda < max 1 m then none
  else some fun z =>
    let i := (z - a) % lda
    let j := (z - a) / lda
    if i < m ∧ 0 ≤ j ∧ j < n then
      A z + alpha * X (vecAddr x incx m i) * (if cj then star (Y (vecAddr y incy n j)) else Y (vecAddr y incy n j))
    else A z

/-- `xDOT`, `xDOTU`, `xDOTC` (`cj`). -/
def dotBlas (cj : Bool) (n : ℤ) (X : Mem K) (x incx : ℤ) (Y : Mem K) (y incy : ℤ) : K :=
  ∑ l ∈ range n.toNat, (if cj then star (X (vecAddr x incx n l)) else X (vecAddr x incx n l)) * Y (vecAddr y incy n l)

/-! ## The wrappers -/

/-- `if (incx < 0) x += incx * (n-1);` (l.54, 74): the product is computed in `int`. -/
def adjust (x incx n : ℤ) : Option ℤ :=
  if incx < 0 then
    let p := incx * (n - 1)
    if -2 ^ 31 ≤ p ∧ p < 2 ^ 31 then some (x + p) else none
  else some x

/-- `OVXX_BLAS_DOT` (l.50-60) and, for complex types, `OVXX_BLAS_CDOT` (l.67-85); the latter keeps the result in a `float __complex__`, so `toFloat` rounds to
`float`. -/
def dot (cplx cj : Bool) (toFloat : K → K) (n : ℤ) (X : Mem K) (x incx : ℤ) (Y : Mem K) (y incy : ℤ) : Option K := do
  let x ← adjust x incx n
  let y ← adjust y incy n
  let r := dotBlas cj n X x incx Y y incy
  some (if cplx then toFloat r else r)

/-! ## The evaluators -/

/-- `Evaluator<op::dot, be::blas, T(B0, B1)>` (l.343-372). -/
def evalDot (cplx : Bool) (toFloat : K → K) (A : Mem K) (a : VView) (B : Mem K) (b : VView) : Option K :=
  if a.n = b.n then dot cplx false toFloat (int a.n) A a.ptr (int a.s) B b.ptr (int b.s) else none

/-- `dot(a, conj(b))` (l.374-408): `dotc` with the operands exchanged. -/
def evalDotc (toFloat : K → K) (A : Mem K) (a : VView) (B : Mem K) (b : VView) : Option K :=
  if a.n = b.n then dot true true toFloat (int a.n) B b.ptr (int b.s) A a.ptr (int a.s) else none

/-- `assign<2>(r, scalar)` with the scalar zero (l.259, 318): all elements of the view. -/
def zero (r : MView) (R : Mem K) : Mem K :=
  (List.range r.rows).foldl (fun R i => (List.range r.cols).foldl (fun R j z => if z = r.addr i j then 0 else R z) R) R

/-- `rt_valid` of `outer` (l.239-247, 291-299). -/
def outerValid (a b : VView) : Bool := a.s == 1 && b.s == 1

/-- `outer`, real (l.249-281). -/
def evalOuter (alpha : K) (A : Mem K) (a : VView) (B : Mem K) (b : VView) (R : Mem K) (r : MView) : Option (Mem K) :=
  if a.n = r.rows ∧ b.n = r.cols then
    let R := zero r R
    if r.rowMajor then ger false (int b.n) (int a.n) alpha B b.ptr (int b.s) A a.ptr (int a.s) R r.ptr (int r.cols)
    else ger false (int a.n) (int b.n) alpha A a.ptr (int a.s) B b.ptr (int b.s) R r.ptr (int r.rows)
  else none

/-- `r.put(i, j, alpha * conj(r.get(i, j)))` for all elements (l.330-332). -/
def conjAll (alpha : K) (r : MView) (R : Mem K) : Mem K :=
  (List.range r.rows).foldl (fun R i => (List.range r.cols).foldl (fun R j z => if z = r.addr i j then alpha * star (R z) else R z) R) R

/-- `outer`, complex (l.301-340). -/
def evalOuterC (alpha : K) (A : Mem K) (a : VView) (B : Mem K) (b : VView) (R : Mem K) (r : MView) : Option (Mem K) :=
  if a.n = r.rows ∧ b.n = r.cols then
    let R := zero r R
    if r.rowMajor then
      (ger true (int b.n) (int a.n) 1 B b.ptr (int b.s) A a.ptr (int a.s) R r.ptr (int r.cols)).map (conjAll alpha r)
    else ger true (int a.n) (int b.n) alpha A a.ptr (int a.s) B b.ptr (int b.s) R r.ptr (int r.rows)
  else none

/-- `rt_valid` of matrix times vector (l.428-442). -/
def mvValid (a : MView) (b : VView) : Bool := if a.rowMajor then a.s1 == 1 && b.s == 1 else a.s0 == 1

/-- matrix times vector (l.444-480). -/
def evalMv (A : Mem K) (a : MView) (B : Mem K) (b : VView) (R : Mem K) (r : VView) : Option (Mem K) :=
  if a.cols = b.n then
    if a.rowMajor then gemm false false 1 (int a.rows) (int a.cols) 1 B b.ptr (int b.s) A a.ptr (int a.cols) 0 R r.ptr (int r.s)
    else gemv (int a.rows) (int a.cols) 1 A a.ptr (int a.s1) B b.ptr (int b.s) 0 R r.ptr (int r.s)
  else none

/-- `rt_valid` of vector times matrix (l.501-515). -/
def vmValid (a : VView) (b : MView) : Bool := if b.rowMajor then b.s1 == 1 else b.s0 == 1 && a.s == 1

/-- vector times matrix (l.517-553). -/
def evalVm (A : Mem K) (a : VView) (B : Mem K) (b : MView) (R : Mem K) (r : VView) : Option (Mem K) :=
  if a.n = b.rows then
    if b.rowMajor then gemv (int b.cols) (int b.rows) 1 B b.ptr (int b.s0) A a.ptr (int a.s) 0 R r.ptr (int r.s)
    else gemm false false 1 (int b.cols) (int b.rows) 1 A a.ptr (int a.s) B b.ptr (int b.rows) 0 R r.ptr (int r.s)
  else none

/-- `rt_valid` of matrix times matrix and of `gemp` (l.577-591, 660-674): the minor strides of the operands are one. -/
def mmValid (a b : MView) : Bool := (if a.rowMajor then a.s1 else a.s0) == 1 && (if b.rowMajor then b.s1 else b.s0) == 1

/-- `gemp` (l.676-720); matrix times matrix (l.593-640) is the same text with `alpha = 1`, `beta = 0`. -/
def evalGemp (alpha : K) (A : Mem K) (a : MView) (B : Mem K) (b : MView) (beta : K) (R : Mem K) (r : MView) : Option (Mem K) :=
  if r.rowMajor then
    let lda := int (if a.rowMajor then a.s0 else a.s1)
    let ldb := int (if b.rowMajor then b.s0 else b.s1)
    gemm (!b.rowMajor) (!a.rowMajor) (int b.cols) (int a.rows) (int a.cols) alpha B b.ptr ldb A a.ptr lda beta R r.ptr (int r.s0)
  else
    let lda := int (if a.rowMajor then a.s0 else a.s1)
    let ldb := int (if b.rowMajor then b.s0 else b.s1)
    gemm a.rowMajor b.rowMajor (int a.rows) (int b.cols) (int a.cols) alpha A a.ptr lda B b.ptr ldb beta R r.ptr (int r.s1)

/-- matrix times matrix. -/
def evalMm (A : Mem K) (a : MView) (B : Mem K) (b : MView) (R : Mem K) (r : MView) : Option (Mem K) := evalGemp 1 A a B b 0 R r

end

end Verif.Blas
