import Mathlib.Data.Rat.Defs
import Mathlib.Algebra.Order.Field.Rat

/-! # What the reference functions of the tests are said to compute

Stated without the functions: products as sums, distances of vectors, the spacing of floating point numbers.
(The sums of convolution and correlation are those of C41, C42 and C43, the transform is that of C61.) -/

namespace Verif.TRef

/-- every difference is small, absolutely or against the largest element: `k` decimal digits of the squares -/
def Close (k : ℕ) (v w : List ℚ) : Prop :=
  ∀ (i : ℕ) (x y : ℚ), v[i]? = some x → w[i]? = some y →
    (x - y) ^ 2 < 1 / 10 ^ 20 ∨ ∃ z, (z ∈ v ∨ z ∈ w) ∧ (x - y) ^ 2 * 10 ^ k < 2 * z ^ 2

/-- every difference is small against the largest element -/
def RelClose (k : ℕ) (v w : List ℚ) : Prop :=
  ∀ (i : ℕ) (x y : ℚ), v[i]? = some x → w[i]? = some y →
    x = y ∨ ∃ z, (z ∈ v ∨ z ∈ w) ∧ (x - y) ^ 2 * 10 ^ k < 2 * z ^ 2

/-- the numbers from 1 to 2 with `p` significant bits -/
def Representable (p : ℕ) (x : ℚ) : Prop := ∃ m : ℕ, 2 ^ (p - 1) ≤ m ∧ m ≤ 2 ^ p ∧ x = m / 2 ^ (p - 1)

/-- `e` is the distance of 1 and the next number: the lowest bit of precision -/
def LowestBit (p : ℕ) (e : ℚ) : Prop :=
  0 < e ∧ Representable p (1 + e) ∧ ∀ x, Representable p x → 1 < x → 1 + e ≤ x

end Verif.TRef
