import Mathlib.Algebra.BigOperators.Group.Finset.Basic
import Mathlib.Data.Complex.Basic
import Mathlib.Data.Rat.Defs
import Mathlib.Algebra.Order.Ring.Unbundled.Rat

/-!
# What the kernels are for

Detection by comparison with neighbouring cells, convolution and circular convolution.  Nothing here refers to the model of the code.
-/

namespace Verif.Hpec

open Finset

/-- The cells compared with cell `k` of `n`: `c` on either side, beyond `g` cells that are left out, as far as they exist. -/
def window (g c n k : ℕ) : Finset ℕ := (range n).filter fun i => (i + g < k ∧ k ≤ i + g + c) ∨ (k + g < i ∧ i ≤ k + g + c)

/-- Cell `k` exceeds `mu` times the mean of its window (of `eps`, if the mean is smaller). -/
def Exceeds (eps mu : ℚ) (g c n : ℕ) (p : ℕ → ℚ) (k : ℕ) : Prop :=
  p k / max ((∑ i ∈ window g c n k, p i) / ((window g c n k).card : ℚ)) eps > mu

instance (eps mu : ℚ) (g c n : ℕ) (p : ℕ → ℚ) (k : ℕ) : Decidable (Exceeds eps mu g c n p k) := by unfold Exceeds; infer_instance

/-- The pairs below `B` and `D` for which `h` holds, first by the first number, then by the second. -/
def cells (B D : ℕ) (h : ℕ → ℕ → Bool) : List (ℕ × ℕ) := (List.range B).flatMap fun i => ((List.range D).filter (h i)).map (Prod.mk i)

/-- The output of a filter of `K` coefficients whose input was zero before. -/
def fir (K : ℕ) (h x : ℕ → ℂ) (n : ℕ) : ℂ := ∑ k ∈ range K, if k ≤ n then h k * x (n - k) else 0

/-- Circular convolution of `N` values. -/
def circ (N : ℕ) (h x : ℕ → ℂ) (n : ℕ) : ℂ := ∑ k ∈ range N, h k * x ((n + N - k) % N)

end Verif.Hpec
