import Mathlib.Data.Nat.Notation
import Mathlib.Data.Int.Notation
import Mathlib.Algebra.BigOperators.Group.Finset.Basic
import Mathlib.Data.Matrix.Mul
import Mathlib.LinearAlgebra.Matrix.ConjTranspose

/-!
# Specification for the C-VSIPL back end

What the C-VSIPL interface requires of views, and what the operations of VSIPL++ mean.  Nothing here mentions the code.
-/

namespace Verif.Cv.Spec

open Finset

/-- A vector view with offset `off`, stride `s` and `n` elements lies in a block of `len` elements. -/
def Fits1 (len : ℕ) (off s : ℤ) (n : ℕ) : Prop := ∀ i < n, 0 ≤ off + i * s ∧ off + i * s < len

/-- The same for a matrix view. -/
def Fits2 (len : ℕ) (off sr : ℤ) (r : ℕ) (sc : ℤ) (c : ℕ) : Prop := ∀ i < r, ∀ j < c, 0 ≤ off + i * sr + j * sc ∧ off + i * sr + j * sc < len

/-- Different elements of a matrix have different addresses. -/
def Distinct (sr sc : ℤ) (rows cols : ℕ) : Prop :=
  ∀ i < rows, ∀ j < cols, ∀ i' < rows, ∀ j' < cols, (i : ℤ) * sr + j * sc = i' * sr + j' * sc → i = i' ∧ j = j'

/-- Every row of the result is the transform `f` of the row of the argument, `n` elements in and `m` out. -/
def RowsOf {T U : Type} (f : List T → ℕ → U) (rows n m : ℕ) (inR inC outR outC : ℤ) (inp : ℤ → T) (out : ℤ → U) : Prop :=
  ∀ r < rows, ∀ c < m, out (r * outR + c * outC) = f ((List.range n).map fun c' : ℕ => inp (r * inR + c' * inC)) c

/-- Every column of the result is the transform of the column of the argument. -/
def ColsOf {T U : Type} (f : List T → ℕ → U) (cols n m : ℕ) (inR inC outR outC : ℤ) (inp : ℤ → T) (out : ℤ → U) : Prop :=
  ∀ c < cols, ∀ r < m, out (r * outR + c * outC) = f ((List.range n).map fun r' : ℕ => inp (r' * inR + c * inC)) r

/-- Element of the infinite input that is zero outside `0 .. N-1`. -/
def ext {T : Type} [Zero T] (x : ℕ → T) (N : ℕ) (i : ℤ) : T := if 0 ≤ i ∧ i < N then x i.toNat else 0

/-- Convolution of the kernel of `K` elements with the input of `N` elements, at position `p`. -/
def convAt {T : Type} [Semiring T] (h : ℕ → T) (K : ℕ) (x : ℕ → T) (N : ℕ) (p : ℤ) : T := ∑ k ∈ range K, h k * ext x N (p - k)

/-- The kernel of even length with `M` given coefficients and even symmetry. -/
def evenKernel {T : Type} (c : ℕ → T) (M k : ℕ) : T := if k < M then c k else c (2 * M - 1 - k)

/-- The operations on matrices. -/
inductive MatOp where | ntrans | trans | herm | conj deriving DecidableEq, Repr

/-- Size of `op(Q)` for a matrix of `r` rows and `c` columns. -/
def MatOp.size (o : MatOp) (r c : ℕ) : ℕ × ℕ :=
  match o with
  | .ntrans => (r, c)
  | .conj => (r, c)
  | .trans => (c, r)
  | .herm => (c, r)

/-- The square matrix an operation stands for. -/
def MatOp.app {n : ℕ} {K : Type} [Star K] (o : MatOp) (a : Matrix (Fin n) (Fin n) K) : Matrix (Fin n) (Fin n) K :=
  match o with
  | .ntrans => a
  | .trans => a.transpose
  | .herm => a.conjTranspose
  | .conj => a.map star

end Verif.Cv.Spec
