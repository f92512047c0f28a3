import Verif.Filter.Model
import Verif.Reduce.Model
import Verif.Domain.Model
import Verif.Dft.Spec
import Verif.Window.Model
/-!
Model of the example programs for signal processing: `share/examples/dsp` (`resample.cpp`, `fir_window.hpp`, `sinc.hpp`, `modulate.hpp`, `freqz.hpp`, and with them `low_pass.cpp`, `high_pass.cpp`,
`moving_average.cpp`), `share/examples/signal/filter.cpp` and `share/examples/radar/matched_filter.cpp`.

Simplified: values are real and complex numbers (elements of a ring in `resample.cpp`) without rounding, except that of the output length of `resample.cpp`; the elementary functions are exact.
Transforms are given by their definition (C61).  `resample.cpp` is modelled for any numbers P, Q, M, S and any signal and coefficients, not for the constants of l.53-56 only.  Texts printed are left out.
-/
namespace Verif.Dsp
open Verif

/-! ### resample.cpp -/

section
variable {T : Type} [Semiring T]

/-- `dst(Domain<1>(start, stride, len)) = src` -/
def put (start stride len : ℕ) (src dst : ℕ → T) : ℕ → T := (List.range len).foldl (fun y j => Function.update y (start + stride * j) (src j)) dst

/-- `dst(Domain<1>(start, stride, len))` read; `none` outside of a vector of `size` values -/
def pick (size start stride len : ℕ) (src : ℕ → T) : Option (List T) :=
  (List.range len).mapM fun j => if start + stride * j < size then some (src (start + stride * j)) else none

/-- a vector of `size` zeros after a filter has put its values; `none` if they do not fit -/
def filled (size : ℕ) (o : List T) : Option (List T) := if o.length ≤ size then some (o ++ List.replicate (size - o.length) 0) else none

/-- `length_type N = ceil(static_cast<scalar_f>(NN) / Q)` (l.59); `fl` rounds to single precision -/
def outLen (fl : ℚ → ℚ) (NN Q : ℕ) : ℕ := ⌈fl (fl NN / Q)⌉.toNat

/-- upsample, filter, downsample (l.81-96) -/
def method1 (P Q M L N : ℕ) (h x : ℕ → T) : Option (List T) := do
  let lpf ← Filt.Fir.make .nonsym true h L (M * P) 1
  let xx := put 0 P M x fun _ => 0
  let yy ← filled (M * P) (lpf.apply .initial xx).1
  pick (M * P) 0 Q N fun i => yy.getD i 0

/-- upsample, filter and downsample in one step (l.106-113) -/
def method2 (P Q M L N : ℕ) (h x : ℕ → T) : Option (List T) := do
  let lpf2 ← Filt.Fir.make .nonsym true h L (M * P) Q
  let xx := put 0 P M x fun _ => 0
  filled N (lpf2.apply .initial xx).1

/-- polyphase filtering (l.127-150): `yy` before is what the first method left -/
def method3 (P Q M S N : ℕ) (h x yy : ℕ → T) : Option (List T) := do
  let yy ← (List.range P).foldlM (fun yy r => do
    let lp ← Filt.Fir.make .nonsym true (fun j => h (r + P * j)) S M 1
    let o ← filled M (lp.apply .initial x).1
    some (put r P (M * P / P) (fun j => o.getD j 0) yy)) yy
  pick (M * P) 0 Q N yy

end

/-! ### fir_window.hpp, sinc.hpp, modulate.hpp, freqz.hpp -/

section
open Classical in
/-- `sinc` (sinc.hpp l.53-75); the loop counter is an `int`: for more than 2^31 - 1 values it would overflow, which is not modelled -/
noncomputable def sinc (N : ℕ) (x : ℕ → ℝ) : ℕ → ℝ :=
  if ∃ i, i < N ∧ x i = 0 then (fun i => if x i = 0 then 1 else Real.sin (x i) / x i) else fun i => Real.sin (x i) / x i

/-- `fir_window` (fir_window.hpp l.59-73) -/
noncomputable def firWindow (wc : ℝ) (w : Sig.Vec ℝ) : Sig.Vec ℝ :=
  let N := w.n
  let M : ℝ := ((toIdx ((N : ℤ) - 1) : ℕ) : ℝ) / 2
  let wci := fun n : ℕ => wc * ((n : ℝ) - M)
  ⟨N, fun n => wc * sinc N wci n * w.f n / Real.pi⟩

/-- `modulate` (modulate.hpp l.52-64) -/
noncomputable def modulate (h : Sig.Vec ℝ) (w0 : ℝ) : Sig.Vec ℝ := ⟨h.n, fun n => h.f n * Real.cos (w0 * n)⟩

/-- a vector of `N` complex zeros with the real parts of the first values set (freqz.hpp l.76-81) -/
noncomputable def padded (b : Sig.Vec ℝ) : ℕ → ℂ := put 0 1 b.n (fun n => (b.f n : ℂ)) fun _ => 0

/-- `freqz` (freqz.hpp l.63-85): `none` if the assertion fails -/
noncomputable def freqz (b a : Sig.Vec ℝ) (N : ℕ) : Option (ℕ → ℂ) :=
  if b.n ≤ N ∧ a.n ≤ N then some fun k => Dft.dft1 true N (padded b) k / Dft.dft1 true N (padded a) k else none

/-- `freqz` with a constant denominator (l.92-100) -/
noncomputable def freqz1 (b : Sig.Vec ℝ) (sa : ℝ) (N : ℕ) : Option (ℕ → ℂ) := freqz b ⟨1, fun _ => sa⟩ N

end

/-! ### filter.cpp -/

/-- `Filter::operator()` (filter.cpp l.97-113): the new output -/
noncomputable def filterCall (size : ℕ) (inn coeff out : Sig.Vec ℂ) : Sig.Vec ℂ :=
  if size ≠ inn.n ∨ size ≠ coeff.n ∨ size ≠ out.n then out
  else ⟨size, fun n => 1 / (size : ℂ) * Dft.dft1 false size (fun w => coeff.f w * Dft.dft1 true size inn.f w) n⟩

/-- operations on a `Dynamic_filter` (l.131-180), whose state is its size, if it has any -/
inductive DynOp where
  | reconfigure (n : ℕ)
  | call (inn coeff out : Sig.Vec ℂ)

/-- one operation: the new state, and the output if it is a call -/
noncomputable def dynStep (s : Option ℕ) : DynOp → Option ℕ × Option (Sig.Vec ℂ)
  | .reconfigure n => (some n, none)
  | .call inn coeff out => (s, some (match s with
    | none => out
    | some n => if n ≠ inn.n ∨ n ≠ coeff.n ∨ n ≠ out.n then out else filterCall n inn coeff out))

/-- a sequence of operations -/
noncomputable def dynRun : Option ℕ → List DynOp → Option ℕ × List (Option (Sig.Vec ℂ))
  | s, [] => (s, [])
  | s, op :: l =>
    let r := dynRun (dynStep s op).1 l
    (r.1, (dynStep s op).2 :: r.2)

/-! ### matched_filter.cpp -/

section
open Classical

/-- `Pulse::operator()` (l.61-71) -/
noncomputable def pulse (amplitude duration : ℝ) (time : ℕ → ℝ) (start : ℝ) : ℕ → ℝ :=
  fun i => if time i < duration + start ∧ time i ≥ start then amplitude else 0

/-- `Chirp::operator()` (l.89-104) -/
noncomputable def chirp (rate duration : ℝ) (time : ℕ → ℝ) (start : ℝ) : ℕ → ℂ :=
  fun i => (if time i < duration + start ∧ time i ≥ start then 1 else 0) * Complex.exp (Complex.I * ((Real.pi * rate * (time i - start) * (time i - start) : ℝ) : ℂ))

/-- row `i` of `reference_matrix` (l.136-143) -/
noncomputable def refRow (t f : ℕ → ℝ) (ref : ℕ → ℂ) (i : ℕ) : ℕ → ℂ := fun n => ref n * Complex.exp (Complex.I * ((2 * Real.pi * f i * t n : ℝ) : ℂ))

/-- `coeffs_` (l.147, 209) -/
noncomputable def coeffs (N : ℕ) (t f : ℕ → ℝ) (ref : ℕ → ℂ) (i : ℕ) : ℕ → ℂ := Dft.dft1 true N (refRow t f ref i)

/-- `out = i_fftm_(vmmul<0>(temp, coeffs_))` (l.161, 221) -/
noncomputable def product (N : ℕ) (t f : ℕ → ℝ) (ref temp : ℕ → ℂ) (i : ℕ) : ℕ → ℂ := fun n =>
  1 / (N : ℂ) * Dft.dft1 false N (fun w => temp w * coeffs N t f ref i w) n

/-- `Matched_filter::operator()` for complex input (l.214-222) -/
noncomputable def matchedC (N : ℕ) (t f : ℕ → ℝ) (ref x : ℕ → ℂ) : ℕ → ℕ → ℂ := product N t f ref fun w => (starRingEnd ℂ) (Dft.dft1 true N x w)

/-- `temp` for real input (l.155-159): `none` for a value outside of `temp`; values not set are `none`.  The bound of the loop is unsigned -/
noncomputable def temp (N : ℕ) (x : ℕ → ℝ) : Option (ℕ → Option ℂ) :=
  if N / 2 + 1 ≤ N then
    let first : ℕ → Option ℂ := fun w => if w < N / 2 + 1 then some ((starRingEnd ℂ) (Dft.dft1 true N (fun k => (x k : ℂ)) w)) else none
    (List.range (toIdx ((N / 2 : ℕ) - 1 : ℤ))).foldlM (fun v i =>
      if i + N / 2 + 1 < N ∧ toIdx ((N / 2 : ℕ) - (i : ℤ) - 1) < N then
        some (Function.update v (i + N / 2 + 1) ((v (toIdx ((N / 2 : ℕ) - (i : ℤ) - 1))).map (starRingEnd ℂ)))
      else none) first
  else none

/-- `Matched_filter::operator()` for real input (l.150-162): `none` if a value not set is used -/
noncomputable def matchedR (N : ℕ) (t f : ℕ → ℝ) (ref : ℕ → ℂ) (x : ℕ → ℝ) : Option (ℕ → ℕ → ℂ) := do
  let v ← temp N x
  if ∀ w, w < N → (v w).isSome then some (product N t f ref fun w => (v w).getD 0) else none

/-- the columns of `mag_out` after the loop that swaps the halves (l.293-297, 315-319); a column not set is `none` -/
noncomputable def swapped (N : ℕ) (out : ℕ → ℕ → ℂ) : ℕ → Option (ℕ → ℝ) :=
  (List.range (N / 2)).foldl (fun c i =>
    Function.update (Function.update c (i + N / 2) (some fun r => ‖out r i‖)) i (some fun r => ‖out r (i + N / 2)‖)) fun _ => none

/-- from the output of the filter to `output_delay_idx` (l.293-302, 315-322) -/
noncomputable def estimate (Nf N : ℕ) (out : ℕ → ℕ → ℂ) : Option ℕ := do
  let c := swapped N out
  if ∀ n, n < N → (c n).isSome then
    let (_, idx) ← Red.reduceIdx true id ⟨[Nf, N], fun i => (c (i.getD 1 0)).elim 0 fun col => col (i.getD 0 0)⟩ (Ex.visit2row Nf N)
    some (toIdx ((N / 2 : ℕ) - (idx.getD 1 0 : ℤ)))
  else none

/-- the times and frequencies of `simulate_filter` (l.262-267) -/
noncomputable def times (Tmax : ℝ) (N : ℕ) : ℕ → ℝ := fun i => 0 + i * (Tmax / N)
noncomputable def freqs (Fmax : ℝ) (Nf : ℕ) : ℕ → ℝ := fun i => -Fmax + i * (2 * Fmax / Nf)

/-- `simulate_filter` (l.236-326) for the chirp -/
noncomputable def simulateChirp (N Nf : ℕ) (Tmax Fmax delay rate duration : ℝ) : Option ℕ :=
  let t := times Tmax N
  estimate Nf N (matchedC N t (freqs Fmax Nf) (chirp rate duration t 0) (chirp rate duration t delay))

/-- `simulate_filter` for the pulse -/
noncomputable def simulatePulse (N Nf : ℕ) (Tmax Fmax delay amplitude duration : ℝ) : Option ℕ := do
  let t := times Tmax N
  let out ← matchedR N t (freqs Fmax Nf) (fun n => (pulse amplitude duration t 0 n : ℂ)) (pulse amplitude duration t delay)
  estimate Nf N out

end
end Verif.Dsp
