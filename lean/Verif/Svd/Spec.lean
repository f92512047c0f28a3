import Mathlib.Analysis.RCLike.Basic
import Mathlib.Algebra.BigOperators.Group.Finset.Basic

/-!
# Singular value decompositions

Matrices are functions of a row and a column; their sizes are given separately.
-/

namespace Verif.Svd

open Finset

variable {𝕜 : Type} [RCLike 𝕜]

/-- The first `c` columns of `Q`, which has `r` rows, are orthonormal. -/
def Ortho (r c : ℕ) (Q : ℕ → ℕ → 𝕜) : Prop := ∀ j < c, ∀ k < c, ∑ i ∈ range r, star (Q i j) * Q i k = if j = k then 1 else 0

/-- `A = U diag(s) V^H` with orthonormal columns, and non-negative singular values in decreasing order. -/
structure IsSvd (m n : ℕ) (A : ℕ → ℕ → 𝕜) (s : ℕ → ℝ) (U V : ℕ → ℕ → 𝕜) : Prop where
  eq : ∀ i < m, ∀ j < n, A i j = ∑ l ∈ range (min m n), U i l * (s l : 𝕜) * star (V j l)
  u : Ortho m (min m n) U
  v : Ortho n (min m n) V
  pos : ∀ l < min m n, 0 ≤ s l
  mono : ∀ k l, k ≤ l → l < min m n → s l ≤ s k

/-- The product of an `r` x `t` matrix by a matrix of `t` rows. -/
def mul (t : ℕ) (A B : ℕ → ℕ → 𝕜) : ℕ → ℕ → 𝕜 := fun i j => ∑ k ∈ range t, A i k * B k j

/-- The conjugate transpose. -/
def herm (A : ℕ → ℕ → 𝕜) : ℕ → ℕ → 𝕜 := fun i j => star (A j i)

end Verif.Svd
