import Verif.Signal.Model
import Mathlib.Analysis.SpecialFunctions.Pow.Complex
import Mathlib.Analysis.SpecialFunctions.Pow.Real
import Mathlib.Analysis.SpecialFunctions.Trigonometric.Inverse
import Mathlib.Analysis.SpecialFunctions.Sqrt

/-!
# Windows

Model of `src/ovxx/signal/window.cpp`: `blackman`, `hanning`, `kaiser` (with `bessel_I_0`) and `cheby`.

Simplifications.  Values are real and complex numbers: no rounding, no overflow, and the functions of `<cmath>` are exact (`cheby<double>` computes its frequencies with
`float`; that is not modelled).  The transform in `cheby` is given by its definition, which is what the library's own back end computes (C61).
-/

noncomputable section

namespace Verif.Win

open Verif.Sig Real

/-- A new vector; its elements have no particular values. -/
def fresh (len : ℕ) : Vec ℝ := ⟨len, fun _ => 0⟩

/-! ## Blackman (l.92-109) -/

/-- `blackman(len)`; `len > 1` is required. -/
def blackman (len : ℕ) : Option (Vec ℝ) :=
  if len ≤ 1 then none
  else
    let temp1 := 2 * π / ((len : ℝ) - 1)
    let temp2 := 2 * temp1
    loop len (fresh len) fun v n => v.put n (0.42 - 0.5 * cos (temp1 * n) + 0.08 * cos (temp2 * n))

/-! ## Hanning (l.180-195) -/

/-- The loop: its counter is an `unsigned int`, of 32 bits, compared with a `length_type`; `n + 1` is computed in 32 bits too.  `none` when the loop
has not come to its end after `fuel` steps. -/
def hanningLoop (len : ℕ) (temp : ℝ) : ℕ → ℕ → Vec ℝ → Option (Vec ℝ)
  | fuel, n, v =>
    if n < len then
      match fuel with
      | 0 => none
      | fuel + 1 => (v.put n (0.5 * (1 - cos (temp * ((n + 1) % 4294967296 : ℕ))))).bind (hanningLoop len temp fuel ((n + 1) % 4294967296))
    else some v

/-- `hanning(len)`. -/
def hanning (fuel len : ℕ) : Option (Vec ℝ) :=
  if len ≤ 1 then none else hanningLoop len (2 * π / ((len : ℝ) + 1)) fuel 0 (fresh len)

/-! ## Kaiser (l.44-88, 197-222) -/

/-- The variables of the iteration in `bessel_I_0` (l.70-84). -/
structure BesselSt where
  x1 : ℝ
  n0 : ℝ
  n : ℕ
  diff : ℝ
  ans : ℝ

/-- l.78-83 -/
def besselStep (x0 : ℝ) (s : BesselSt) : BesselSt :=
  let n := s.n + 1
  let n0 := s.n0 * n
  let x1 := s.x1 * x0
  let diff := x1 / (n0 * n0)
  ⟨x1, n0, n, diff, s.ans + diff⟩

/-- `while (diff > .00000001)` (l.77) -/
def besselLoop (x0 : ℝ) : ℕ → BesselSt → Option BesselSt
  | fuel, s =>
    if s.diff > 0.00000001 then
      match fuel with
      | 0 => none
      | fuel + 1 => besselLoop x0 fuel (besselStep x0 s)
    else some s

/-- The polynomial (l.63-65). -/
def besselPoly (x : ℝ) : ℝ :=
  let x := x / 3
  let x := x * x
  1 + x * (2.2499997 + x * (1.2656208 + x * (0.3163866 + x * (0.0444479 + x * (0.0039444 + x * 0.0002100)))))

/-- `bessel_I_0(x)`. -/
def bessel (fuel : ℕ) (x : ℝ) : Option ℝ :=
  if |x| ≤ 3 then some (besselPoly x)
  else
    let x1 := x * x * 0.25
    (besselLoop x1 fuel ⟨x1, 1, 1, 1, 1 + x1⟩).map BesselSt.ans

/-- `kaiser(len, beta)`. -/
def kaiser (fuel len : ℕ) (beta : ℝ) : Option (Vec ℝ) :=
  if len ≤ 1 then none
  else
    let c1 := 2 / ((len : ℝ) - 1)
    (bessel fuel beta).bind fun ibeta =>
      loop len (fresh len) fun v n =>
        let c3 := c1 * n - 1
        let c3 := if c3 > 1 then 1 else c3
        (bessel fuel (beta * sqrt (1 - c3 * c3))).bind fun b => v.put n (b / ibeta)

/-! ## Chebyshev (l.111-177) -/

/-- `acosh(double)` (l.28-32) -/
def acosh1 (f : ℝ) : ℝ := Real.log (f + sqrt (f + 1) * sqrt (f - 1))

/-- `acosh` of a vector's element (l.35-42): `r = sq(x) - 1; r = log(x + sqrt(r))`, in complex numbers. -/
def acoshC (x : ℝ) : ℂ := Complex.log ((x : ℂ) + (((x ^ 2 - 1 : ℝ) : ℂ)) ^ (1 / 2 : ℂ))

/-- `dp`, `df`, `x0` (l.119-122) -/
def chebyDp (ripple : ℝ) : ℝ := (10 : ℝ) ^ (-ripple / 20)
def chebyDf (len : ℕ) (ripple : ℝ) : ℝ := arccos (1 / cosh (acosh1 ((1 + chebyDp ripple) / chebyDp ripple) / ((len : ℝ) - 1))) / π
def chebyX0 (len : ℕ) (ripple : ℝ) : ℝ := (3 - cos (2 * π * chebyDf len ripple)) / (1 + cos (2 * π * chebyDf len ripple))

/-- `f` (l.124) and `x` (l.126-129) -/
def chebyF (len i : ℕ) : ℝ := i * (1 / len)
def chebyX (len : ℕ) (ripple : ℝ) (i : ℕ) : ℝ :=
  (chebyX0 len ripple + 1) / 2 * cos (2 * π * chebyF len i) + (chebyX0 len ripple - 1) / 2

/-- `tmp` (l.132-134) -/
def chebyTmp (x : ℝ) : ℝ := if (if x ≥ 0 then x else -x) > 1 then 1 else 0

/-- `wf` after l.142-148: `clip(x, -1, 1, -1, 1)`, then the real part, then `Cfoo` added and all scaled. -/
def chebyWf (len : ℕ) (ripple : ℝ) (i : ℕ) : ℂ :=
  let x := chebyX len ripple i
  let cl := if x ≤ -1 then -1 else if x < 1 then x else 1
  let wfR := (1 - chebyTmp x) * cos (((len : ℝ) - 1) / 2 * arccos cl)
  let cfoo := (chebyTmp x : ℂ) * Complex.cosh (((((len : ℝ) - 1) / 2 : ℝ) : ℂ) * acoshC x)
  (chebyDp ripple : ℂ) * (cfoo + wfR)

/-- `wf` after l.151-163: for even lengths the real part is turned by `euler(-pi f)` and the second half negated. -/
def chebyWf2 (len : ℕ) (ripple : ℝ) (i : ℕ) : ℂ :=
  if len % 2 = 0 then
    let w := ((chebyWf len ripple i).re : ℂ) * Complex.exp (((-1 * π * chebyF len i : ℝ) : ℂ) * Complex.I)
    if len / 2 ≤ i then -w else w
  else chebyWf len ripple i

/-- the transform, scaled (l.166-171) -/
def chebyWt (len : ℕ) (ripple : ℝ) (k : ℕ) : ℂ :=
  (1 / len : ℂ) * ∑ i ∈ Finset.range len, chebyWf2 len ripple i * Complex.exp (-(2 * π * Complex.I * i * k / len))

/-- `cheby(len, ripple)`: `scale = wf(0); scale /= magsq(scale); wf = scale * wf; ret = freqswap(real(wf))` (l.173-179); `none` on division by zero. -/
def cheby (len : ℕ) (ripple : ℝ) : Option (Vec ℝ) :=
  if len ≤ 1 then none
  else
    let scale := chebyWt len ripple 0
    if Complex.normSq scale = 0 then none
    else
      let scale := scale / (Complex.normSq scale : ℂ)
      freqswap1 (fresh len) ⟨len, fun k => (scale * chebyWt len ripple k).re⟩

end Verif.Win
