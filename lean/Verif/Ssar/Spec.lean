import Mathlib.Data.Complex.BigOperators
import Mathlib.Analysis.SpecialFunctions.Complex.Circle
import Mathlib.Analysis.Real.Sqrt

/-!
# Forming a radar image, as sums

What the image formation of the synthetic aperture benchmark (SSCA #3, kernel 1) computes, with all spectra and apertures in natural order, the origin in the
middle.  Nothing here refers to the model of the code.
-/

namespace Verif.Ssar

open Finset

/-- exp(± 2 π i (k - l/2) (w - l/2) / l). -/
noncomputable def cunit (neg : Bool) (l k w : ℕ) : ℂ :=
  Complex.exp ((if neg then -1 else 1) * (2 * Real.pi * Complex.I) * (((k : ℂ) - (l / 2 : ℕ)) * ((w : ℂ) - (l / 2 : ℕ))) / l)

/-- The transform of `l` values with the origins of both sides in the middle. -/
noncomputable def cdft (neg : Bool) (l : ℕ) (x : ℕ → ℂ) (w : ℕ) : ℂ := ∑ k ∈ range l, x k * cunit neg l k w

/-- What is given: sizes; wavenumbers `k` and positions `uc`, `u`, in natural order; the fast time filter, whose file has frequency 0 first; the range of the
centre; the spectrum of the reference, conjugated. -/
structure Data where
  n : ℕ
  mc : ℕ
  m : ℕ
  k : ℕ → ℝ
  uc : ℕ → ℝ
  u : ℕ → ℝ
  filt : ℕ → ℂ
  Xc : ℝ
  ref : ℕ → ℕ → ℂ

/-- exp(2 i κ d). -/
noncomputable def phase (κ d : ℝ) : ℂ := Complex.exp (2 * Complex.I * κ * d)

/-- Step 59: the echo, transformed and filtered along fast time. -/
noncomputable def fast (p : Data) (raw : ℕ → ℕ → ℂ) (a b : ℕ) : ℂ :=
  p.filt ((a + p.n / 2) % p.n) * cdft true p.n (fun i => raw i b) a

/-- Step 62: compressed along slow time. -/
noncomputable def compr (p : Data) (raw : ℕ → ℕ → ℂ) (a b : ℕ) : ℂ :=
  fast p raw a b * phase (p.k a) (Real.sqrt (p.Xc ^ 2 + p.uc b ^ 2) - p.Xc)

/-- Step 63: its spectrum along slow time. -/
noncomputable def narrow (p : Data) (raw : ℕ → ℕ → ℂ) (a b : ℕ) : ℂ :=
  ((p.m : ℂ) / p.mc) * cdft true p.mc (compr p raw a) b

/-- Steps 64, 65: the spectrum, padded on both sides with zeros. -/
noncomputable def padded (p : Data) (raw : ℕ → ℕ → ℂ) (a b : ℕ) : ℂ :=
  if (p.m - p.mc) / 2 ≤ b ∧ b < (p.m - p.mc) / 2 + p.mc then narrow p raw a (b - (p.m - p.mc) / 2) else 0

/-- Steps 66, 68: transformed back, and decompressed. -/
noncomputable def decompr (p : Data) (raw : ℕ → ℕ → ℂ) (a b : ℕ) : ℂ :=
  (1 / (p.m : ℂ)) * cdft false p.m (padded p raw a) b * phase (p.k a) (p.Xc - Real.sqrt (p.Xc ^ 2 + p.u b ^ 2))

/-- Steps 69, 77: the spotlighted spectrum, matched with the reference. -/
noncomputable def matched (p : Data) (raw : ℕ → ℕ → ℂ) (a b : ℕ) : ℂ := cdft true p.m (decompr p raw a) b * p.ref a b

/-- What the interpolation is given: the wavenumbers `kx`, their least value, the spacing and the number of lines of the grid; 8 neighbours are used on either
side. -/
structure Grid where
  n : ℕ
  m : ℕ
  nx : ℕ
  kx : ℕ → ℕ → ℝ
  kmin : ℝ
  dk : ℝ

/-- Step 83: the lines of the grid. -/
noncomputable def line (g : Grid) (r : ℕ) : ℝ := g.kmin + ((r : ℝ) - 10) * g.dk

/-- Steps 90, 91: the interpolating kernel at distance `d`: a sinc under a Hamming window. -/
noncomputable def kern (dk d : ℝ) : ℝ :=
  (if Real.pi * d / dk = 0 then 1 else Real.sin (Real.pi * d / dk) / (Real.pi * d / dk)) *
    (0.54 + 0.46 * Real.cos (Real.pi / (8 * dk) * d))

/-- Line `c` of the grid is nearest to `x`. -/
def Near (g : Grid) (x : ℝ) (c : ℕ) : Prop := line g c - g.dk / 2 ≤ x ∧ x < line g c + g.dk / 2

/-- Step 92: every sample spreads over the 17 lines around the nearest one, given by `c`. -/
noncomputable def spread (g : Grid) (c : ℕ → ℕ → ℕ) (fsm : ℕ → ℕ → ℂ) (r j : ℕ) : ℂ :=
  ∑ i ∈ range g.n, if c i j ≤ r + 8 ∧ r ≤ c i j + 8 then fsm i j * (kern g.dk (line g r - g.kx i j) : ℝ) else 0

/-- Steps 94, 95: the magnitude of the inverse transform in both directions. -/
noncomputable def picture (nx m : ℕ) (F : ℕ → ℕ → ℂ) (j i : ℕ) : ℝ :=
  ‖(1 / ((nx : ℂ) * m)) * ∑ a ∈ range nx, ∑ b ∈ range m, F a b * (cunit false nx a i * cunit false m b j)‖

end Verif.Ssar
