import Mathlib.Data.Rat.Defs
import Mathlib.Data.Rat.Floor
import Mathlib.Algebra.Order.Field.Rat
import Mathlib.Algebra.BigOperators.Group.List.Basic

/-! # What the radar, audio and beamforming example programs are said to compute

Stated without the programs: piecewise linear interpolation, areas under a polygon, inverses of
cumulative distributions, rectangular pulses, linear frequency sweeps and slices inside a vector. -/

namespace Verif.Radar.Spec

/-- Element `i` of a vector of samples. -/
def at' (x : List ℚ) (i : ℕ) : ℚ := x.getD i 0

/-- The places are strictly increasing. -/
def Increasing (x : List ℚ) : Prop :=
  ∀ i, i + 1 < x.length → at' x i < at' x (i + 1)

/-- `v` lies on the straight line through `(p, f)` and `(q, g)` at the place `t`. -/
def OnLine (p f q g t v : ℚ) : Prop := (v - f) * (q - p) = (t - p) * (g - f)

/-- The area of the trapezia over the first `k` intervals. -/
def area (x y : List ℚ) (k : ℕ) : ℚ :=
  ((List.range k).map fun i =>
    (at' x (i + 1) - at' x i) * ((at' y i + at' y (i + 1)) / 2)).sum

/-- The mean frequency, in turns per second, of a phase (in radians, `tau` to a turn) between two
instants `h` apart. -/
def meanFreq (tau : ℚ) (phase : ℚ → ℚ) (h t : ℚ) : ℚ := (phase (t + h) - phase t) / (tau * h)

/-- How much the mean frequency changes per second between instants `d` apart. -/
def sweep (tau : ℚ) (phase : ℚ → ℚ) (h d t : ℚ) : ℚ :=
  (meanFreq tau phase h (t + d) - meanFreq tau phase h t) / d

/-- `[off, off + n)` lies inside a vector of `len` elements. -/
def Inside (off n len : ℤ) : Prop := 0 ≤ off ∧ off + n ≤ len

end Verif.Radar.Spec
