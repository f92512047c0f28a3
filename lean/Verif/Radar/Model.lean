import Verif.Radar.Spec

/-! # The radar, audio and beamforming example programs

Model of `share/examples/radar/clutter.cpp`, `share/examples/radar/waveforms.cpp`,
`share/examples/audio/wav_stereo.cpp` (l.53-66), `share/examples/python/beamformer.py` (l.44-103) and
`share/examples/python/parallel/dist_matrix.py` (l.71-76). Floating point numbers are rationals,
reading outside a vector and conversions without a defined value are `none`. -/

namespace Verif.Radar

/-- share/examples/radar/clutter.cpp l.60-62: `while (idx < len && xi(i) > x(idx)) ++idx;`. -/
def search (x : List ℚ) (t : ℚ) (idx : ℕ) : ℕ :=
  if h : idx < x.length then
    if x[idx] < t then search x t (idx + 1) else idx
  else idx
  termination_by x.length - idx

/-- share/examples/radar/clutter.cpp l.60-69: one value of `lerp`. The reads are `none` outside the
vectors (for an empty `x` the index `len - 1` is the largest index). -/
def lerp1 (x y : List ℚ) (t : ℚ) : Option ℚ :=
  (x[search x t 1 - 1]?).bind fun x0 =>
  (y[search x t 1 - 1]?).bind fun y0 =>
  (x[if search x t 1 < x.length then search x t 1 else x.length - 1]?).bind fun x1 =>
  (y[if search x t 1 < x.length then search x t 1 else x.length - 1]?).bind fun y1 =>
  some (if x1 = x0 then y1 else y0 + (t - x0) * (y1 - y0) / (x1 - x0))

/-- share/examples/radar/clutter.cpp l.50-73: `lerp`. -/
def lerp (x y xi : List ℚ) : Option (List ℚ) := xi.mapM (lerp1 x y)

/-- The running sums of `cumsum<row>` (share/examples/radar/clutter.cpp l.90). -/
def running (acc : ℚ) : List ℚ → List ℚ
  | [] => []
  | a :: l => (acc + a) :: running (acc + a) l

/-- share/examples/radar/clutter.cpp l.87-88: the factors. -/
def factors (x y : List ℚ) : List ℚ :=
  (List.range (x.length - 1)).map fun k =>
    (x.getD (k + 1) 0 - x.getD k 0) * (y.getD k 0 + y.getD (k + 1) 0)

/-- share/examples/radar/clutter.cpp l.77-93: `ctrapz`. With an empty `x` the length `len - 1` is the
largest length (no memory for the vectors), with too short a `y` the subviews lie outside. -/
def ctrapz (x y : List ℚ) : Option (List ℚ) :=
  if x.length = 0 then none
  else if y.length < x.length then none
  else some ((running 0 (factors x y)).map fun s => 1 / 2 * s)

/-- share/examples/radar/clutter.cpp l.149-164: a uniform sample transformed: the integral of the
density `y`, interpolated from the first `N - 1` places. -/
def transform (x y : List ℚ) (u : ℚ) : Option ℚ :=
  (ctrapz x y).bind fun cdf => lerp1 cdf (x.take (x.length - 1)) u

/-- share/examples/radar/waveforms.cpp l.59-70: `Pulse::operator()`. -/
def pulse (amplitude duration start : ℚ) (time : List ℚ) : List ℚ :=
  time.map fun t => if t < duration + start ∧ t ≥ start then amplitude else 0

/-- share/examples/radar/waveforms.cpp l.91 (and l.107, 133, 149): the phase of `Chirp` with the
constant `pi`. -/
def phase (pi rate start t : ℚ) : ℚ := -2 * pi * rate * (t - start) * (t - start)

/-- The value of a floating point number converted to an integer: the fraction is cut off. -/
def trunc (v : ℚ) : ℤ := if 0 ≤ v then ⌊v⌋ else -⌊-v⌋

/-- Conversion of a floating point number to `uint16_t`: without a defined value unless the number
without its fraction is in the range of the type. -/
def toU16 (v : ℚ) : Option ℕ := if 0 ≤ trunc v ∧ trunc v < 65536 then some (trunc v).toNat else none

/-- share/examples/audio/wav_stereo.cpp l.61-65: the integer sample of a sine with the value `s`. -/
def sineSample (s : ℚ) : Option ℕ := toU16 (s * ((1 <<< 14 : ℕ) - 1 : ℤ))

/-- share/examples/python/beamformer.py l.49: the length of the filtered noise, `d` the time between
two sensors (`spacing/speed`). -/
def noiseLen (rate nts sensors : ℕ) (d : ℚ) : ℤ := trunc (2 * rate / (sensors * d) + nts + 1)

/-- share/examples/python/beamformer.py l.85-87, 100: where the noise of sensor `i` begins, `a` the
cosine of its direction. -/
def noiseOff (rate sensors : ℕ) (d : ℚ) (i : ℕ) (a : ℚ) : ℤ :=
  trunc (d * rate * sensors + 1 + i * (d * rate) * a)

/-- share/examples/python/parallel/dist_matrix.py l.71-76: the numbers of rows and columns of
processors. -/
def grid (procs : ℕ) : ℕ × ℕ :=
  if procs > 1 then (procs / 2, procs / (procs / 2)) else (1, 1)

end Verif.Radar
