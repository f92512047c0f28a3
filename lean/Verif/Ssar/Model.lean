import Verif.Ssar.Spec
import Verif.Dft.Spec
import Verif.Signal.Model
import Mathlib.Algebra.Order.Floor.Ring
import Mathlib.Analysis.SpecialFunctions.Log.Base

/-!
# The synthetic aperture radar benchmark

Model of `share/apps/ssar/kernel1.hpp` (both variants of the digital spotlighting, the interpolation and the set-up) and of the comparison in
`share/apps/ssar/diffview.cpp`, in exact arithmetic.

Transforms are the sums `Verif.Dft.dft1` (C61, C67); `freqswap` between different views is its index function `sw` (C40), except along columns, where the model
of the loop is used.  Sizes are far below 2^64.  `fftshift`, which the variant for graphics processors calls and nothing declares, is taken to be `freqswap`.
-/

namespace Verif.Ssar

open Finset Verif.Dft

/-- The index `freqswap` reads for element `i` of `N`. -/
def sw (N i : ℕ) : ℕ := (i + (N + 1) / 2) % N

/-- `dst(Domain<1>(first, 1, len)) = f`. -/
def assign {α : Type} (dst : ℕ → α) (first len : ℕ) (f : ℕ → α) (b : ℕ) : α :=
  if first ≤ b ∧ b < first + len then f (b - first) else dst b

/-! ## Set-up -/

/-- `s_compr_filt_`, kernel1.hpp l.442-445, with `ks_` and `ucs_` of l.208-211. -/
noncomputable def comprFilt (p : Data) (i j : ℕ) : ℂ :=
  p.filt i * Complex.exp (2 * Complex.I * p.k (sw p.n i) * (Real.sqrt (p.Xc ^ 2 + p.uc (sw p.mc j) ^ 2) - p.Xc : ℝ))

/-- `s_decompr_filt_`, l.452-454, with `us_` of l.214. -/
noncomputable def decomprFilt (p : Data) (i j : ℕ) : ℂ :=
  Complex.exp (2 * Complex.I * p.k (sw p.n i) * (p.Xc - Real.sqrt (p.Xc ^ 2 + p.u (sw p.m j) ^ 2) : ℝ))

/-- The weights of `fd_fftshift` along `len` elements that start at global index 0, l.89-97. -/
def fdSign (len j : ℕ) : ℂ := if j % 2 = 1 ∧ j / 2 < len / 2 then -1 else 1

/-- `fs_ref_preshift_`, l.256-257; `out` is what the new matrix holds. -/
noncomputable def refPre (p : Data) (out : ℕ → ℕ → ℂ) : Option (ℕ → ℕ → ℂ) :=
  (Sig.freqswapAxis .col (⟨p.n, p.m, out⟩ : Sig.Mat ℂ) ⟨p.n, p.m, p.ref⟩).map fun s => fun i j => s.f i j * fdSign p.m j

/-! ## Digital spotlighting, by rows (l.573-666) -/

/-- `s_filt_`: corner turn with `freqswap`, then transforms of the columns, l.600-615. -/
noncomputable def echo (p : Data) (raw : ℕ → ℕ → ℂ) (i j : ℕ) : ℂ := dft1 true p.n (fun r => raw (sw p.n r) (sw p.mc j)) i

/-- `fs_row_` after the transform, l.622-626. -/
noncomputable def comprRow (p : Data) (raw : ℕ → ℕ → ℂ) (i w : ℕ) : ℂ :=
  (p.m : ℂ) / p.mc * dft1 true p.mc (fun j => echo p raw i j * comprFilt p i j) w

/-- The bandwidth expansion into a row that holds `old`, l.584-590, 631-633. -/
noncomputable def pad (p : Data) (old row : ℕ → ℂ) : ℕ → ℂ :=
  let mz := p.m - p.mc
  assign (assign (assign old 0 (p.mc / 2) row) (p.mc / 2) mz fun _ => 0) (mz + p.mc / 2) (p.mc / 2) fun t => row (p.mc / 2 + t)

/-- `fs_spotlit_row_` at the end of row `i`, l.631-645. -/
noncomputable def spotRow (p : Data) (raw : ℕ → ℕ → ℂ) (i : ℕ) (old : ℕ → ℂ) : ℕ → ℂ :=
  dft1 true p.m fun j => 1 / (p.m : ℂ) * dft1 false p.m (pad p old (comprRow p raw i)) j * decomprFilt p i j

/-- The line of `fsm_` row `i` goes to, l.660. -/
def xr (p : Data) (i : ℕ) : ℕ := if i < p.n / 2 then p.n / 2 + i else i - p.n / 2

/-- The two assignments to `fsm_.row(xr)`, l.593-594, 661-662. -/
noncomputable def fsmRow (p : Data) (i : ℕ) (row dst : ℕ → ℂ) : ℕ → ℂ :=
  assign (assign dst 0 (p.m / 2) fun t => row (p.m / 2 + t) * p.ref (xr p i) t) (p.m / 2) (p.m / 2)
    fun t => row t * p.ref (xr p i) (p.m / 2 + t)

/-- One pass of the loop over the rows; the state is `fs_spotlit_row_` and `fsm_`. -/
noncomputable def spotStep (p : Data) (raw : ℕ → ℕ → ℂ) (s : (ℕ → ℂ) × (ℕ → ℕ → ℂ)) (i : ℕ) : (ℕ → ℂ) × (ℕ → ℕ → ℂ) :=
  (spotRow p raw i s.1, fun a => if a = xr p i then fsmRow p i (spotRow p raw i s.1) (s.2 a) else s.2 a)

noncomputable def spotlight (p : Data) (raw : ℕ → ℕ → ℂ) (buf : ℕ → ℂ) (fsm : ℕ → ℕ → ℂ) : ℕ → ℕ → ℂ :=
  ((List.range p.n).foldl (spotStep p raw) (buf, fsm)).2

/-! ## Digital spotlighting of whole matrices (l.671-733) -/

/-- `s_filt_`, l.682-691, with `s_compr_filt_shift_` of l.447-448. -/
noncomputable def gFilt (p : Data) (raw : ℕ → ℕ → ℂ) (i j : ℕ) : ℂ :=
  comprFilt p i (sw p.mc j) * fdSign p.n i * dft1 true p.n (fun r => raw r j) i

/-- `fs_` after its transform, l.693-697. -/
noncomputable def gCompr (p : Data) (raw : ℕ → ℕ → ℂ) (i w : ℕ) : ℂ := (p.m : ℂ) / p.mc * dft1 true p.mc (gFilt p raw i) w

/-- `fs_padded_` after decompression, l.701-720, with `s_decompr_filt_shift_` of l.456-457; `old` is what the row of `fs_padded_` held. -/
noncomputable def gDec (p : Data) (raw : ℕ → ℕ → ℂ) (old : ℕ → ℂ) (i j : ℕ) : ℂ :=
  decomprFilt p i (sw p.m j) * fdSign p.m j * (1 / (p.m : ℂ) * dft1 false p.m (pad p old (gCompr p raw i)) j)

/-- `fsm_`, l.731; `pre` is `fs_ref_preshift_`. -/
noncomputable def gSpotlight (p : Data) (raw : ℕ → ℕ → ℂ) (old pre : ℕ → ℕ → ℂ) (i l : ℕ) : ℂ :=
  pre i l * dft1 true p.m (gDec p raw (old i) i) l

/-! ## Interpolation -/

/-- Conversion of a floating point number to `index_type`; undefined out of range. -/
noncomputable def toIndex (x : ℝ) : Option ℕ := if -1 < x ∧ x < 2 ^ 64 then some ⌊x⌋₊ else none

/-- `minval` of a matrix, reductions/functors.hpp l.297-318. -/
noncomputable def minval (n m : ℕ) (f : ℕ → ℕ → ℝ) : ℝ :=
  (List.range n).foldl (fun v i => (List.range m).foldl (fun v j => if f i j < v then f i j else v) v) (f 0 0)

/-- `maxval` of a matrix, reductions/functors.hpp l.272-294. -/
noncomputable def maxval (n m : ℕ) (f : ℕ → ℕ → ℝ) : ℝ :=
  (List.range n).foldl (fun v i => (List.range m).foldl (fun v j => if f i j > v then f i j else v) v) (f 0 0)

/-- `kx_`, l.216-229. -/
noncomputable def wavenumber (k ku : ℕ → ℝ) (i j : ℕ) : ℝ := Real.sqrt (max 0 (4 * k i ^ 2 - ku j ^ 2))

/-- `nx_`, `kx_min_` and `dkx_`, l.231-245, 258-270. -/
noncomputable def mkGrid (n m : ℕ) (kx : ℕ → ℕ → ℝ) (X0 : ℝ) : Option Grid :=
  let kmin := minval n m kx
  let kmax := maxval n m kx
  let dk := Real.pi / X0
  (toIndex (2 * ⌈(kmax - kmin) / (2 * dk)⌉)).map fun nx0 => ⟨n, m, nx0 + 2 * 8 + 4, kx, kmin, dk⟩

/-- `KX0_`, l.437-439. -/
noncomputable def kx0 (g : Grid) (r : ℕ) : ℝ := g.kmin + ((r : ℝ) - 8 - 2) * g.dk

/-- `icKX_`, 32 bits, l.466-468. -/
noncomputable def icKX (g : Grid) (i j : ℕ) : Option ℕ :=
  (toIndex ((g.kx i j - kx0 g 0) / g.dk + 0.5)).map fun c => (c + 2 ^ 64 - 8) % 2 ^ 64 % 2 ^ 32

/-- `SINC_HAM_`, l.476-492. -/
noncomputable def sincHam (g : Grid) (i j ikx h : ℕ) : ℝ :=
  let nKX := kx0 g (ikx + h)
  let sx := Real.pi * (nKX - g.kx i j) / g.dk
  (if sx ≠ 0 then Real.sin sx / sx else 1) * (0.54 + 0.46 * Real.cos (Real.pi / (8 * g.dk) * (nKX - g.kx i j)))

/-- The innermost loop, l.758-776; reading or writing outside `F_` is undefined. -/
noncomputable def spreadOne (g : Grid) (fsm : ℕ → ℕ → ℂ) (i' i j : ℕ) (F : ℕ → ℕ → ℂ) : Option (ℕ → ℕ → ℂ) :=
  (icKX g i j).bind fun ikx => Sig.loop 17 F fun F h =>
    if ikx + h < g.nx then
      some fun a b => if a = ikx + h ∧ b = j then F a b + fsm i' j * (sincHam g i j ikx h : ℝ) else F a b
    else none

/-- `F_.col(j)(Domain<1>(j%2, 2, nx/2)) *= -1`, l.778. -/
noncomputable def negAlt (g : Grid) (j : ℕ) (F : ℕ → ℕ → ℂ) (a b : ℕ) : ℂ :=
  if b = j ∧ a % 2 = j % 2 ∧ a / 2 < g.nx / 2 then -F a b else F a b

/-- The range loop, l.748-779; `turn` is the line of `fsm_t_` read for line `i`, l.761-765. -/
noncomputable def rangeLoop (g : Grid) (turn : ℕ → ℕ) (fsm : ℕ → ℕ → ℂ) : Option (ℕ → ℕ → ℂ) :=
  Sig.loop g.m (fun _ _ => (0 : ℂ)) fun F j => (Sig.loop g.n F fun F i => spreadOne g fsm (turn i) i j F).bind fun F => some (negAlt g j F)

/-- `ifftmc_`, the corner turn, `ifftmr_`, the transposition and the magnitude, l.788-800. -/
noncomputable def toImage (g : Grid) (F : ℕ → ℕ → ℂ) (j i : ℕ) : ℝ :=
  ‖1 / (g.m : ℂ) * dft1 false g.m (fun b => 1 / (g.nx : ℂ) * dft1 false g.nx (fun a => F a b) i) j‖

/-- `interpolation`, l.738-801. -/
noncomputable def interpolation (g : Grid) (turn : ℕ → ℕ) (fsm : ℕ → ℕ → ℂ) : Option (ℕ → ℕ → ℝ) := (rangeLoop g turn fsm).map (toImage g)

/-- `process_image` by rows, l.552-569. -/
noncomputable def process (p : Data) (g : Grid) (raw : ℕ → ℕ → ℂ) (buf : ℕ → ℂ) (fsm : ℕ → ℕ → ℂ) : Option (ℕ → ℕ → ℝ) :=
  interpolation g id (spotlight p raw buf fsm)

/-- `process_image` with whole matrices; `out` is what the new matrix `fs_ref_preshift_` held, `old` what `fs_padded_` held. -/
noncomputable def gProcess (p : Data) (g : Grid) (raw out old : ℕ → ℕ → ℂ) : Option (ℕ → ℕ → ℝ) :=
  (refPre p out).bind fun pre => interpolation g (fun i => (i + p.n / 2) % p.n) (gSpotlight p raw old pre)

/-! ## Comparing images -/

/-- One element of the matrix of errors, diffview.cpp l.71-74: from the squared magnitude of the difference, where `none` is not a number. -/
noncomputable def errorOf (refmax : ℝ) : Option ℝ → Option ℝ
  | none => none
  | some d => if d < 1e-20 then some (-201) else some (10 * Real.logb 10 (d / (2 * refmax)))

/-- `Max_value::next_value`, reductions/functors.hpp l.280-288: comparisons with a value that is not a number are false. -/
noncomputable def nextMax : Option ℝ → Option ℝ → Option ℝ
  | some v, some x => if x > v then some x else some v
  | v, _ => v

/-- `maxval` of the errors. -/
noncomputable def maxError : List (Option ℝ) → Option ℝ
  | [] => none
  | e :: l => l.foldl nextMax e

/-- The number printed by `compare`, l.62-77: set to 201 if there is a value that is not a number, and then set again. -/
noncomputable def report (refmax : ℝ) (d : List (Option ℝ)) : Option ℝ :=
  let error : Option ℝ := if none ∈ d then some 201 else some 0
  let maxsum := maxError (d.map (errorOf refmax))
  let _ := error
  maxsum

end Verif.Ssar
