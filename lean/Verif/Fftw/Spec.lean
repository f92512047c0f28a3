import Mathlib.Analysis.SpecialFunctions.Complex.Circle
import Mathlib.Data.Fintype.BigOperators
import Mathlib.Algebra.BigOperators.Fin
import Mathlib.Data.Fin.VecNotation

/-!
# Multi-dimensional discrete Fourier transforms

What a transform is, independently of how arrays are laid out.
-/

namespace Verif.Fftw

variable {D : ℕ}

/-- `i` is an index of an array of sizes `n`. -/
def Box (n i : Fin D → ℕ) : Prop := ∀ d, i d < n d

/-- Forward and inverse transforms. -/
inductive Dir | fwd | inv
  deriving DecidableEq

/-- The sign of the exponent. -/
def Dir.sign (S : Dir) : ℤ := if S = .fwd then -1 else 1

/-- The discrete Fourier transform over all dimensions: `y k = Σ x j exp(sgn 2πi Σ_d j_d k_d / n_d)`. -/
noncomputable def dft (n : Fin D → ℕ) (sgn : ℤ) (x : (Fin D → ℕ) → ℂ) (k : Fin D → ℕ) : ℂ :=
  ∑ j ∈ Fintype.piFinset fun d => Finset.range (n d), x j * Complex.exp (sgn * 2 * Real.pi * Complex.I * ∑ d, (j d : ℂ) * k d / n d)

/-- The index at the negative frequency. -/
def refl (n k : Fin D → ℕ) : Fin D → ℕ := fun d => (n d - k d) % n d

/-- The spectrum of real data. -/
def Herm (n : Fin D → ℕ) (X : (Fin D → ℕ) → ℂ) : Prop := ∀ k, Box n k → X (refl n k) = (starRingEnd ℂ) (X k)

/-- The sizes of the half of a spectrum that is stored: dimension `A` is cut to `n/2 + 1`. -/
def half (A : Fin D) (n : Fin D → ℕ) : Fin D → ℕ := Function.update n A (n A / 2 + 1)

/-- The transform of one line of a matrix, along dimension `d`. -/
noncomputable def line (n : ℕ) (sgn : ℤ) (x : ℕ → ℂ) (k : ℕ) : ℂ :=
  ∑ j ∈ Finset.range n, x j * Complex.exp (sgn * 2 * Real.pi * Complex.I * (j * k / n))

end Verif.Fftw
