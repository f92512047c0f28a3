import Mathlib.Data.Complex.Basic
import Mathlib.Analysis.SpecialFunctions.Trigonometric.Basic
import Mathlib.Logic.Function.Basic

/-!
# The default DFT backend

Model of `src/ovxx/signal/fft/dft.hpp`: the 1-D, 2-D and 3-D transforms (complex to complex, real to complex, complex to real), in place and out
of place, and the row/column-wise `dftm`.

Simplifications.
* Values are real and complex numbers, not `float`/`double`: no rounding.  `OVXX_PI` is π and `std::sin`, `std::cos` are exact.
* Memory is a total map from element addresses to values, so that the strided accesses `p[k * s]` (with `s` of either sign) are additions of
  integers.  Input, output and temporary arrays of one call are separate memories: out of place calls on overlapping arrays are not modelled.
* The split complex overloads (`ztype`) are modelled for the 1-D transforms; in 2-D, 3-D and `dftm` they repeat the interleaved text line by line
  and are not modelled again.
-/

namespace Verif.Dft

/-- Memory holding complex values. -/
abbrev Cm := ℤ → ℂ
/-- Memory holding real values. -/
abbrev Rm := ℤ → ℝ

/-- `for (j = 0; j < n; ++j) body(j)`. -/
def loop {σ : Type*} (n : ℕ) (body : ℕ → σ → σ) (s : σ) : σ := (List.range n).foldl (fun s j => body j s) s

/-- `sin_cos`, dft.hpp l.26-31: `complex<T>(cos(phi), sin(phi))`. -/
noncomputable def sinCos (φ : ℝ) : ℂ := ⟨Real.cos φ, Real.sin φ⟩

/-- The template argument `S` of the complex transforms: `fft_fwd = -2`, `fft_inv = -1` (backend.hpp l.20-22). -/
inductive Dir | fwd | inv
  deriving DecidableEq

/-- `exponent`, dft.hpp l.52. -/
def exponent : Dir → ℤ
  | .fwd => -1
  | .inv => 1

/-- `phi = exponent * 2.0 * OVXX_PI/l`, dft.hpp l.62. -/
noncomputable def phi (S : Dir) (l : ℕ) : ℝ := (exponent S : ℝ) * 2 * Real.pi / (l : ℝ)

/-- The inner sum over `k`, dft.hpp l.66-68: `sum += in[k * s] * sin_cos(phi * k * w)` from the array `p[j] = x (b + j)`. -/
noncomputable def sum1 (φ : ℝ) (x : Cm) (b s : ℤ) (l w : ℕ) : ℂ :=
  loop l (fun k sum => sum + x (b + (k : ℤ) * s) * sinCos (φ * (k : ℝ) * (w : ℝ))) 0

/-- 1-D complex, in place, dft.hpp l.59-72: all sums go to `tmp`, then `tmp` is copied back. -/
noncomputable def inC2C (S : Dir) (b s : ℤ) (l : ℕ) (m : Cm) : Cm :=
  let tmp : ℕ → ℂ := loop l (fun w tmp => Function.update tmp w (sum1 (phi S l) m b s l w)) (fun _ => 0)
  loop l (fun w m => Function.update m (b + (w : ℤ) * s) (tmp w)) m

/-- 1-D complex, out of place, dft.hpp l.92-105. -/
noncomputable def outC2C (S : Dir) (x : Cm) (ib is ob os : ℤ) (l : ℕ) (out : Cm) : Cm :=
  loop l (fun w out => Function.update out (ob + (w : ℤ) * os) (sum1 (phi S l) x ib is l w)) out

/-- 1-D real to complex, dft.hpp l.137-150. -/
noncomputable def outR2C (x : Rm) (ib is ob os : ℤ) (l : ℕ) (out : Cm) : Cm :=
  let φ : ℝ := -2 * Real.pi / (l : ℝ)
  loop (l / 2 + 1) (fun w out =>
    Function.update out (ob + (w : ℤ) * os)
      (loop l (fun k sum => sum + (x (ib + (k : ℤ) * is) : ℂ) * sinCos (φ * (k : ℝ) * (w : ℝ))) 0)) out

/-- 1-D complex to real, dft.hpp l.181-196: the upper half of the spectrum is read off the lower half. -/
noncomputable def outC2R (x : Cm) (ib is ob os : ℤ) (l : ℕ) (out : Rm) : Rm :=
  let φ : ℝ := 2 * Real.pi / (l : ℝ)
  loop l (fun w out =>
    let sum := loop (l / 2 + 1) (fun k sum => sum + x (ib + (k : ℤ) * is) * sinCos (φ * (k : ℝ) * (w : ℝ))) 0
    let sum := loop (l - (l / 2 + 1)) (fun i sum =>
      let k := l / 2 + 1 + i
      sum + (starRingEnd ℂ) (x (ib + ((l - k : ℕ) : ℤ) * is)) * sinCos (φ * (k : ℝ) * (w : ℝ))) sum
    Function.update out (ob + (w : ℤ) * os) sum.re) out

/-! ## Split complex storage, 1-D -/

/-- A split array: real parts and imaginary parts. -/
structure Zm where
  first : Rm
  second : Rm

/-- dft.hpp l.80-83. -/
noncomputable def sum1Z (φ : ℝ) (x : Zm) (b s : ℤ) (l w : ℕ) : ℂ :=
  loop l (fun k sum => sum + (⟨x.first (b + (k : ℤ) * s), x.second (b + (k : ℤ) * s)⟩ : ℂ) * sinCos (φ * (k : ℝ) * (w : ℝ))) 0

/-- Store one complex value in the two arrays, dft.hpp l.88-89. -/
def putZ (a : ℤ) (z : ℂ) (m : Zm) : Zm := ⟨Function.update m.first a z.re, Function.update m.second a z.im⟩

/-- In place, split, dft.hpp l.73-91. -/
noncomputable def inC2CZ (S : Dir) (b s : ℤ) (l : ℕ) (m : Zm) : Zm :=
  let tmp : ℕ → ℂ := loop l (fun w tmp => Function.update tmp w (sum1Z (phi S l) m b s l w)) (fun _ => 0)
  loop l (fun w m => putZ (b + (w : ℤ) * s) (tmp w) m) m

/-- Out of place, split, dft.hpp l.106-121. -/
noncomputable def outC2CZ (S : Dir) (x : Zm) (ib is ob os : ℤ) (l : ℕ) (out : Zm) : Zm :=
  loop l (fun w out => putZ (ob + (w : ℤ) * os) (sum1Z (phi S l) x ib is l w) out) out

/-- Real to split complex, dft.hpp l.151-166. -/
noncomputable def outR2CZ (x : Rm) (ib is ob os : ℤ) (l : ℕ) (out : Zm) : Zm :=
  let φ : ℝ := -2 * Real.pi / (l : ℝ)
  loop (l / 2 + 1) (fun w out =>
    putZ (ob + (w : ℤ) * os)
      (loop l (fun k sum => sum + (x (ib + (k : ℤ) * is) : ℂ) * sinCos (φ * (k : ℝ) * (w : ℝ))) 0) out) out

/-- Split complex to real, dft.hpp l.197-214. -/
noncomputable def outC2RZ (x : Zm) (ib is ob os : ℤ) (l : ℕ) (out : Rm) : Rm :=
  let φ : ℝ := 2 * Real.pi / (l : ℝ)
  loop l (fun w out =>
    let sum := loop (l / 2 + 1) (fun k sum =>
      sum + (⟨x.first (ib + (k : ℤ) * is), x.second (ib + (k : ℤ) * is)⟩ : ℂ) * sinCos (φ * (k : ℝ) * (w : ℝ))) 0
    let sum := loop (l - (l / 2 + 1)) (fun i sum =>
      let k := l / 2 + 1 + i
      sum + (⟨x.first (ib + ((l - k : ℕ) : ℤ) * is), -x.second (ib + ((l - k : ℕ) : ℤ) * is)⟩ : ℂ) * sinCos (φ * (k : ℝ) * (w : ℝ))) sum
    Function.update out (ob + (w : ℤ) * os) sum.re) out

/-- `offset`, dft.hpp l.33-37, used by the split overloads of the 3-D transforms and of `dftm`: the element offset is a parameter of type `int`, so
the `stride_type` value passed is taken modulo 2^32 into [-2^31, 2^31). -/
def offsetZ (b o : ℤ) : ℤ := b + ((o + 2 ^ 31) % 2 ^ 32 - 2 ^ 31)

/-! ## 2-D -/

/-- 2-D complex, in place, dft.hpp l.233-242: rows, then columns. -/
noncomputable def inC2C2 (S : Dir) (b rs cs : ℤ) (rows cols : ℕ) (m : Cm) : Cm :=
  let m := loop rows (fun r m => inC2C S (b + (r : ℤ) * rs) cs cols m) m
  loop cols (fun c m => inC2C S (b + (c : ℤ) * cs) rs rows m) m

/-- 2-D complex, out of place, dft.hpp l.261-273: rows out of place, then columns in place. -/
noncomputable def outC2C2 (S : Dir) (x : Cm) (ib irs ics ob ors ocs : ℤ) (rows cols : ℕ) (out : Cm) : Cm :=
  let out := loop rows (fun r out => outC2C S x (ib + (r : ℤ) * irs) ics (ob + (r : ℤ) * ors) ocs cols out) out
  loop cols (fun c out => inC2C S (ob + (c : ℤ) * ocs) ors rows out) out

/-- 2-D real to complex, dft.hpp l.312-336; `axis` is the template argument `S`. -/
noncomputable def outR2C2 (axis : ℕ) (x : Rm) (ib irs ics ob ors ocs : ℤ) (rows cols : ℕ) (out : Cm) : Cm :=
  if axis = 0 then
    let out := loop cols (fun c out => outR2C x (ib + (c : ℤ) * ics) irs (ob + (c : ℤ) * ocs) ors rows out) out
    loop (rows / 2 + 1) (fun r out => inC2C .fwd (ob + (r : ℤ) * ors) ocs cols out) out
  else
    let out := loop rows (fun r out => outR2C x (ib + (r : ℤ) * irs) ics (ob + (r : ℤ) * ors) ocs cols out) out
    loop (cols / 2 + 1) (fun c out => inC2C .fwd (ob + (c : ℤ) * ocs) ors rows out) out

/-- 2-D complex to real, dft.hpp l.395-425: an inverse transform of the lines across the axis into a dense temporary array, then the real
transform along the axis. -/
noncomputable def outC2R2 (axis : ℕ) (x : Cm) (ib irs ics ob ors ocs : ℤ) (rows cols : ℕ) (out : Rm) : Rm :=
  if axis = 0 then
    let rows2 := rows / 2 + 1
    let tmp := loop rows2 (fun r tmp => outC2C .inv x (ib + (r : ℤ) * irs) ics ((r : ℤ) * cols) 1 cols tmp) (fun _ => 0)
    loop cols (fun c out => outC2R tmp c cols (ob + (c : ℤ) * ocs) ors rows out) out
  else
    let cols2 := cols / 2 + 1
    let tmp := loop cols2 (fun c tmp => outC2C .inv x (ib + (c : ℤ) * ics) irs ((c : ℤ) * rows) 1 rows tmp) (fun _ => 0)
    loop rows (fun r out => outC2R tmp r rows (ob + (r : ℤ) * ors) ocs cols out) out

/-! ## 3-D -/

/-- Three lengths or strides, x, y, z. -/
structure T3 (α : Type) where
  x : α
  y : α
  z : α

/-- 3-D complex, in place, dft.hpp l.492-509. -/
noncomputable def inC2C3 (S : Dir) (b : ℤ) (s : T3 ℤ) (n : T3 ℕ) (m : Cm) : Cm :=
  let m := loop n.x (fun x m => inC2C2 S (b + (x : ℤ) * s.x) s.y s.z n.y n.z m) m
  loop n.y (fun y m => loop n.z (fun z m => inC2C S (b + (y : ℤ) * s.y + (z : ℤ) * s.z) s.x n.x m) m) m

/-- 3-D complex, out of place, dft.hpp l.528-552. -/
noncomputable def outC2C3 (S : Dir) (inp : Cm) (ib : ℤ) (is : T3 ℤ) (ob : ℤ) (os : T3 ℤ) (n : T3 ℕ) (out : Cm) : Cm :=
  let out := loop n.x (fun x out => outC2C2 S inp (ib + (x : ℤ) * is.x) is.y is.z (ob + (x : ℤ) * os.x) os.y os.z n.y n.z out) out
  loop n.y (fun y out => loop n.z (fun z out => inC2C S (ob + (y : ℤ) * os.y + (z : ℤ) * os.z) os.x n.x out) out) out

/-- 3-D real to complex, dft.hpp l.594-647. -/
noncomputable def outR2C3 (axis : ℕ) (inp : Rm) (ib : ℤ) (is : T3 ℤ) (ob : ℤ) (os : T3 ℤ) (n : T3 ℕ) (out : Cm) : Cm :=
  if axis = 0 then
    let out := loop n.y (fun y out => loop n.z (fun z out =>
      outR2C inp (ib + (y : ℤ) * is.y + (z : ℤ) * is.z) is.x (ob + (y : ℤ) * os.y + (z : ℤ) * os.z) os.x n.x out) out) out
    loop (n.x / 2 + 1) (fun x out => inC2C2 .fwd (ob + (x : ℤ) * os.x) os.y os.z n.y n.z out) out
  else if axis = 1 then
    let out := loop n.x (fun x out => loop n.z (fun z out =>
      outR2C inp (ib + (x : ℤ) * is.x + (z : ℤ) * is.z) is.y (ob + (x : ℤ) * os.x + (z : ℤ) * os.z) os.y n.y out) out) out
    loop (n.y / 2 + 1) (fun y out => inC2C2 .fwd (ob + (y : ℤ) * os.y) os.x os.z n.x n.z out) out
  else
    let out := loop n.x (fun x out => loop n.y (fun y out =>
      outR2C inp (ib + (x : ℤ) * is.x + (y : ℤ) * is.y) is.z (ob + (x : ℤ) * os.x + (y : ℤ) * os.y) os.z n.z out) out) out
    loop (n.z / 2 + 1) (fun z out => inC2C2 .fwd (ob + (z : ℤ) * os.z) os.x os.y n.x n.y out) out

/-- 3-D complex to real, dft.hpp l.719-785. -/
noncomputable def outC2R3 (axis : ℕ) (inp : Cm) (ib : ℤ) (is : T3 ℤ) (ob : ℤ) (os : T3 ℤ) (n : T3 ℕ) (out : Rm) : Rm :=
  if axis = 0 then
    let x2 := n.x / 2 + 1
    let tmp := loop x2 (fun x tmp =>
      outC2C2 .inv inp (ib + (x : ℤ) * is.x) is.y is.z ((x : ℤ) * n.y * n.z) 1 n.y n.y n.z tmp) (fun _ => 0)
    loop n.y (fun y out => loop n.z (fun z out =>
      outC2R tmp ((y : ℤ) + (z : ℤ) * n.y) ((n.y : ℤ) * n.z) (ob + (y : ℤ) * os.y + (z : ℤ) * os.z) os.x n.x out) out) out
  else if axis = 1 then
    let y2 := n.y / 2 + 1
    let tmp := loop y2 (fun y tmp =>
      outC2C2 .inv inp (ib + (y : ℤ) * is.y) is.x is.z ((y : ℤ) * n.x * n.z) 1 n.x n.x n.z tmp) (fun _ => 0)
    loop n.x (fun x out => loop n.z (fun z out =>
      outC2R tmp ((x : ℤ) + (z : ℤ) * n.x) ((n.x : ℤ) * n.z) (ob + (x : ℤ) * os.x + (z : ℤ) * os.z) os.y n.y out) out) out
  else
    let z2 := n.z / 2 + 1
    let tmp := loop z2 (fun z tmp =>
      outC2C2 .inv inp (ib + (z : ℤ) * is.z) is.y is.x ((z : ℤ) * n.y * n.x) 1 n.y n.y n.x tmp) (fun _ => 0)
    loop n.y (fun y out => loop n.x (fun x out =>
      outC2R tmp ((y : ℤ) + (x : ℤ) * n.y) ((n.y : ℤ) * n.x) (ob + (y : ℤ) * os.y + (x : ℤ) * os.x) os.z n.z out) out) out

/-! ## Row- and column-wise transforms -/

/-- `dftm` complex, in place, dft.hpp l.1007-1018; `col` says `A == vsip::col`. -/
noncomputable def inM (S : Dir) (col : Bool) (b rs cs : ℤ) (rows cols : ℕ) (m : Cm) : Cm :=
  if col then loop cols (fun c m => inC2C S (b + (c : ℤ) * cs) rs rows m) m
  else loop rows (fun r m => inC2C S (b + (r : ℤ) * rs) cs cols m) m

/-- `dftm` complex, out of place, dft.hpp l.1041-1056. -/
noncomputable def outM (S : Dir) (col : Bool) (x : Cm) (ib irs ics ob ors ocs : ℤ) (rows cols : ℕ) (out : Cm) : Cm :=
  if col then loop cols (fun c out => outC2C S x (ib + (c : ℤ) * ics) irs (ob + (c : ℤ) * ocs) ors rows out) out
  else loop rows (fun r out => outC2C S x (ib + (r : ℤ) * irs) ics (ob + (r : ℤ) * ors) ocs cols out) out

/-- `dftm` real to complex, dft.hpp l.896-911. -/
noncomputable def outRM (col : Bool) (x : Rm) (ib irs ics ob ors ocs : ℤ) (rows cols : ℕ) (out : Cm) : Cm :=
  if col then loop cols (fun c out => outR2C x (ib + (c : ℤ) * ics) irs (ob + (c : ℤ) * ocs) ors rows out) out
  else loop rows (fun r out => outR2C x (ib + (r : ℤ) * irs) ics (ob + (r : ℤ) * ors) ocs cols out) out

/-- `dftm` complex to real, dft.hpp l.943-962. -/
noncomputable def outMR (col : Bool) (x : Cm) (ib irs ics ob ors ocs : ℤ) (rows cols : ℕ) (out : Rm) : Rm :=
  if col then loop cols (fun c out => outC2R x (ib + (c : ℤ) * ics) irs (ob + (c : ℤ) * ocs) ors rows out) out
  else loop rows (fun r out => outC2R x (ib + (r : ℤ) * irs) ics (ob + (r : ℤ) * ors) ocs cols out) out

end Verif.Dft
