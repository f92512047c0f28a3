import Verif.Dft.Spec
import Mathlib.Algebra.BigOperators.Group.Finset.Basic
/-!
# Signals

The definitions by which the example programs for signal processing are judged.  Nothing here refers to the model of the code.
-/
namespace Verif.Dsp
open Finset

/-- `M` values of `x`, `P` apart, with zeros between and around them. -/
def stuffed {T : Type} [Semiring T] (P M : ℕ) (x : ℕ → T) (i : ℕ) : T := if i % P = 0 ∧ i / P < M then x (i / P) else 0

/-- Value `n` of the signal with its rate changed by `P / Q`: zeros put between, filtered with `L` coefficients, every `Q`th value kept. -/
def resampled {T : Type} [Semiring T] (P Q M L : ℕ) (h x : ℕ → T) (n : ℕ) : T :=
  ∑ j ∈ range L, h j * if j ≤ n * Q then stuffed P M x (n * Q - j) else 0

/-- Circular correlation of `N` values. -/
def corr (N : ℕ) (x r : ℕ → ℂ) (n : ℕ) : ℂ := ∑ m ∈ range N, (starRingEnd ℂ) (x m) * r ((m + n) % N)

/-- The energy of `N` values. -/
noncomputable def energy (N : ℕ) (r : ℕ → ℂ) : ℝ := ∑ m ∈ range N, ‖r m‖ ^ 2

/-- Response of a filter with coefficients `b` at the frequency `w` (in radians per sample). -/
noncomputable def response (L : ℕ) (b : ℕ → ℝ) (w : ℝ) : ℂ := ∑ n ∈ range L, (b n : ℂ) * Complex.exp (-(Complex.I * w * n))

/-- Low-pass coefficient of cutoff frequency `wc`, `t` samples from the centre: `sin (wc t) / (π t)`, and `wc / π` at the centre. -/
noncomputable def lowpass (wc t : ℝ) : ℝ := if t = 0 then wc / Real.pi else Real.sin (wc * t) / (Real.pi * t)

end Verif.Dsp
