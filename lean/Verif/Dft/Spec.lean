import Mathlib.Data.Complex.BigOperators
import Mathlib.Analysis.SpecialFunctions.Complex.Circle

/-!
# Discrete Fourier transforms, as sums

The mathematical definitions the transforms are judged by.  Nothing here refers to the model of the code.
-/

namespace Verif.Dft

open Finset

/-- exp(± 2 π i k w / l). -/
noncomputable def unit (neg : Bool) (l k w : ℕ) : ℂ :=
  Complex.exp ((if neg then -1 else 1) * (2 * Real.pi * Complex.I) * ((k : ℂ) * w) / l)

/-- The transform of `l` values; with the minus sign forward, with the plus sign inverse (without the factor 1/l). -/
noncomputable def dft1 (neg : Bool) (l : ℕ) (x : ℕ → ℂ) (w : ℕ) : ℂ := ∑ k ∈ range l, x k * unit neg l k w

/-- The transform of a matrix. -/
noncomputable def dft2 (neg : Bool) (R C : ℕ) (x : ℕ → ℕ → ℂ) (u v : ℕ) : ℂ :=
  ∑ r ∈ range R, ∑ c ∈ range C, x r c * (unit neg R r u * unit neg C c v)

/-- The transform of a tensor. -/
noncomputable def dft3 (neg : Bool) (X Y Z : ℕ) (f : ℕ → ℕ → ℕ → ℂ) (u v w : ℕ) : ℂ :=
  ∑ x ∈ range X, ∑ y ∈ range Y, ∑ z ∈ range Z, f x y z * (unit neg X x u * unit neg Y y v * unit neg Z z w)

/-- The index opposite to `k` on the circle of length `l`. -/
def opp (l k : ℕ) : ℕ := (l - k) % l

/-- Spectra of real signals: the value at the opposite frequency is the conjugate. -/
def Herm1 (l : ℕ) (X : ℕ → ℂ) : Prop := ∀ k < l, X (opp l k) = (starRingEnd ℂ) (X k)

def Herm2 (R C : ℕ) (X : ℕ → ℕ → ℂ) : Prop := ∀ u < R, ∀ v < C, X (opp R u) (opp C v) = (starRingEnd ℂ) (X u v)

def Herm3 (A B C : ℕ) (X : ℕ → ℕ → ℕ → ℂ) : Prop :=
  ∀ u < A, ∀ v < B, ∀ w < C, X (opp A u) (opp B v) (opp C w) = (starRingEnd ℂ) (X u v w)

end Verif.Dft
