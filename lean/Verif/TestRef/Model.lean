import Verif.TestRef.Spec
import Verif.Signal.Model
import Mathlib.Data.Rat.Floor
import Mathlib.Data.Nat.Sqrt

/-! # The reference functions of the tests

Model of `support/test/ref/conv.hpp`, `ref/corr.hpp`, `ref/matvec.hpp`, `ref/dft.hpp`, `support/test/diff.hpp`,
`precision.hpp`, `random.hpp` and of `Create_map` in `support/storage.hpp`. Values are elements of a ring or field, distances
rationals; a failed assertion and a subview outside its view are `none`. Sizes are unbounded except in `convOutputSize`. -/

namespace Verif.TRef

open Verif.Sig

section
variable {T : Type}

/-! ## Matrix and vector products -/

/-- `ref::dot` (ref/matvec.hpp l.25-44) -/
def dot [Add T] [Mul T] [Zero T] (n : ℕ) (u v : ℕ → T) : T :=
  (List.range n).foldl (fun sum i => sum + u i * v i) 0

/-- `ref::outer` (ref/matvec.hpp l.50-91): the second overload is for two complex vectors -/
def outer [Mul T] (conj : T → T) (uComplex vComplex : Bool) (u v : Vec T) : Mat T :=
  ⟨u.n, v.n, fun i j => if uComplex && vComplex then u.f i * conj (v.f j) else u.f i * v.f j⟩

/-- `ref::vv_prod` (ref/matvec.hpp l.96-115) -/
def vvProd [Mul T] (u v : Vec T) : Mat T := ⟨u.n, v.n, fun i j => u.f i * v.f j⟩

/-- `ref::prod` of two matrices (ref/matvec.hpp l.122-141) -/
def prodMM [Add T] [Mul T] [Zero T] (a b : Mat T) : Option (Mat T) :=
  if a.cols = b.rows then
    some ((List.range a.cols).foldl (fun r k =>
      ⟨r.rows, r.cols, fun i j => r.f i j + (vvProd ⟨a.rows, fun i => a.f i k⟩ ⟨b.cols, fun j => b.f k j⟩).f i j⟩)
      ⟨a.rows, b.cols, fun _ _ => 0⟩)
  else none

/-- `ref::prod` of a matrix and a vector (ref/matvec.hpp l.146-165) -/
def prodMV [Add T] [Mul T] [Zero T] (a : Mat T) (b : Vec T) : Option (Vec T) :=
  if a.cols = b.n then some ⟨a.rows, fun k => dot a.cols (fun j => a.f k j) b.f⟩ else none

/-- `ref::prod` of a vector and a matrix (ref/matvec.hpp l.170-189) -/
def prodVM [Add T] [Mul T] [Zero T] (a : Vec T) (b : Mat T) : Option (Vec T) :=
  if a.n = b.rows then some ⟨b.cols, fun k => dot a.n a.f (fun i => b.f i k)⟩ else none

/-! ## Convolution -/

/-- `conv_output_size` (ref/conv.hpp l.25-44), with the macro of signal/conv.hpp l.36; `length_type` is unsigned with 64 bits -/
def convOutputSize (supp : Supp) (M N D : ℕ) : ℕ :=
  match supp with
  | .full => (((((N : ℤ) + M - 2) % 2 ^ 64).toNat / D + 1 : ℕ) : ℤ) % 2 ^ 64 |>.toNat
  | .same => (((((N : ℤ) - 1) % 2 ^ 64).toNat / D + 1 : ℕ) : ℤ) % 2 ^ 64 |>.toNat
  | .min => (((N : ℤ) - M + 1) % 2 ^ 64).toNat / D + if (((N : ℤ) - M + 1) % 2 ^ 64).toNat % D = 0 then 0 else 1

/-- `conv_expected_shift` (ref/conv.hpp l.46-56) -/
def convShift (supp : Supp) (M : ℕ) : ℕ :=
  match supp with
  | .full => 0
  | .same => M / 2
  | .min => M - 1

/-- `kernel_from_coeff` (ref/conv.hpp l.58-97); the vector is filled with zeros first -/
def kernelFromCoeff [Zero T] (s : Symm) (c : Vec T) : Vec T :=
  match s with
  | .nonsym => c
  | .evenLenOdd => ⟨2 * c.n - 1, fun i => if c.n ≤ i ∧ i < c.n + (c.n - 1) then c.f (c.n - 2 - (i - c.n))
      else if i < c.n then c.f i else 0⟩
  | .evenLenEven => ⟨2 * c.n, fun i => if c.n ≤ i ∧ i < c.n + c.n then c.f (c.n - 1 - (i - c.n))
      else if i < c.n then c.f i else 0⟩

/-- the values of `sub` at the position `pos` (ref/conv.hpp l.147-158): the input, reversed, where it is met; `none` when the subview
of the input or of `sub` does not fit -/
def convSub [Zero T] (inp : Vec T) (M pos : ℕ) : Option (ℕ → T) :=
  if pos + 1 < M then
    if pos < inp.n then some fun k => if k < pos + 1 then inp.f (pos - k) else 0 else none
  else if pos ≥ inp.n then
    if pos - inp.n + 1 ≤ M ∧ M - (pos - inp.n + 1) ≤ inp.n then
      some fun k => if pos - inp.n + 1 ≤ k then inp.f (inp.n - 1 - (k - (pos - inp.n + 1))) else 0
    else none
  else some fun k => inp.f (pos - k)

/-- `ref::conv` (ref/conv.hpp l.99-163): output `i` -/
def conv [Add T] [Mul T] [Zero T] (s : Symm) (supp : Supp) (coeff inp : Vec T) (D i : ℕ) : Option T :=
  (convSub inp (kernelFromCoeff s coeff).n (i * D + convShift supp (kernelFromCoeff s coeff).n)).bind fun sub =>
    some (dot (kernelFromCoeff s coeff).n (kernelFromCoeff s coeff).f sub)

/-! ## Correlation -/

/-- `corr_output_size` (ref/corr.hpp l.23-34) -/
def corrOutputSize (supp : Supp) (M N : ℕ) : ℕ :=
  match supp with
  | .full => N + M - 1
  | .same => N
  | .min => N - M + 1

/-- `expected_shift` (ref/corr.hpp l.38-49); the negative numbers arise from unsigned ones by conversion -/
def corrShift (supp : Supp) (M : ℕ) : ℤ :=
  match supp with
  | .full => -(M - 1)
  | .same => -(M / 2 : ℕ)
  | .min => 0

/-- the overlap at the position `pos` (ref/corr.hpp l.88-103, 160-195): where it begins in `sub`, where in the input, and its length -/
def corrDom (M N : ℕ) (pos : ℤ) : Option (ℕ × ℕ × ℕ) :=
  if pos < 0 then
    if 0 ≤ M + pos ∧ M + pos ≤ N then some ((-pos).toNat, 0, (M + pos).toNat) else none
  else if pos + M > N then
    if 0 ≤ N - pos ∧ N - pos ≤ M then some (0, pos.toNat, (N - pos).toNat) else none
  else some (0, pos.toNat, M)

/-- the subview of zeros replaced by a part of the input -/
def window [Zero T] (d : ℕ × ℕ × ℕ) (f : ℕ → T) (k : ℕ) : T :=
  if d.1 ≤ k ∧ k < d.1 + d.2.2 then f (d.2.1 + (k - d.1)) else 0

/-- the scale of an unbiased correlation (ref/corr.hpp l.91-115): with same support the one of the library -/
def corrScale (supp : Supp) (M N i len : ℕ) : ℕ :=
  if supp = .same then
    if i < M / 2 then i + (M + 1) / 2
    else if i < N - M / 2 then M
    else N - 1 + (M + 1) / 2 - i
  else len

/-- `ref::corr` of vectors (ref/corr.hpp l.53-124): output `i` -/
def corr [Field T] (conj : T → T) (supp : Supp) (unbiased : Bool) (ref inp : Vec T) (i : ℕ) : Option T :=
  (corrDom ref.n inp.n (i + corrShift supp ref.n)).bind fun d =>
    some (if unbiased then dot ref.n ref.f (fun k => conj (window d inp.f k)) / (corrScale supp ref.n inp.n i d.2.2 : T)
      else dot ref.n ref.f (fun k => conj (window d inp.f k)))

/-- `ref::corr` of matrices (ref/corr.hpp l.128-209): output `(r, c)` -/
def corr2 [Field T] (conj : T → T) (supp : Supp) (unbiased : Bool) (ref inp : Mat T) (r c : ℕ) : Option T :=
  (corrDom ref.rows inp.rows (r + corrShift supp ref.rows)).bind fun d =>
  (corrDom ref.cols inp.cols (c + corrShift supp ref.cols)).bind fun e =>
    let val := (List.range ref.rows).foldl (fun sum i => sum + (List.range ref.cols).foldl (fun sum j =>
      sum + ref.f i j * conj (window d (fun x => window e (fun y => inp.f x y) j) i)) 0) 0
    some (if unbiased then val / (1 * (d.2.2 : T) * (e.2.2 : T)) else val)

/-! ## Fourier transform -/

/-- the assertion of `ref::dft` (ref/dft.hpp l.51-52) on the sizes of the element types and of the vectors -/
def dftSizes (size1 size2 n m : ℕ) : Bool :=
  (size1 < size2 && n / 2 + 1 == m) || (size1 == size2 && n == m)

/-- `ref::dft` (ref/dft.hpp l.41-64): output `w`; `sc m` is `sin_cos(2π m / size)` -/
def dft [Add T] [Mul T] [Zero T] (sc : ℤ → T) (idir : ℤ) (n : ℕ) (x : ℕ → T) (w : ℕ) : T :=
  (List.range n).foldl (fun sum (k : ℕ) => sum + x k * sc (idir * k * w)) 0

/-- `ref::dft_x` (ref/dft.hpp l.77-92): every row -/
def dftX [Add T] [Mul T] [Zero T] (sc : ℤ → T) (idir : ℤ) (m : Mat T) : Mat T :=
  ⟨m.rows, m.cols, fun r w => dft sc idir m.cols (fun k => m.f r k) w⟩

/-- `ref::dft_y` (ref/dft.hpp l.98-113): every column -/
def dftY [Add T] [Mul T] [Zero T] (sc : ℤ → T) (idir : ℤ) (m : Mat T) : Mat T :=
  ⟨m.rows, m.cols, fun w c => dft sc idir m.rows (fun k => m.f k c) w⟩

end

/-! ## Distances -/

/-- the largest square of a vector, `maxval(magsq(v))` (diff.hpp l.85-86) -/
def maxSq : List ℚ → ℚ
  | [] => 0
  | x :: l => max (x ^ 2) (maxSq l)

/-- diff.hpp l.87: `refmax` -/
def refmax (v w : List ℚ) : ℚ := max (maxSq v) (maxSq w)

/-- diff.hpp l.89-91: the ratio whose logarithm is taken; `none` stands for -201 -/
def ratio (m x y : ℚ) : Option ℚ := if (x - y) ^ 2 < 1 / 10 ^ 20 then none else some ((x - y) ^ 2 / (2 * m))

/-- is the decibel value of an element below `-10 k`? The logarithm is monotonic; -201 is below for `k ≤ 20` -/
def below (k : ℕ) : Option ℚ → Bool
  | none => k ≤ 20
  | some q => q < 1 / 10 ^ k

/-- `diff(v, w) < -10 k` (diff.hpp l.57-95): the largest value is below if all are; `none` is a NaN, which makes the distance 201 -/
def diffBelow (k : ℕ) (v w : List (Option ℚ)) : Bool :=
  if v.any Option.isNone || w.any Option.isNone then false
  else (v.reduceOption.zip w.reduceOption).all fun p => below k (ratio (refmax v.reduceOption w.reduceOption) p.1 p.2)

/-! ## Precision -/

/-- rounding to the nearest integer, ties to even -/
def rne (q : ℚ) : ℤ :=
  if q - ⌊q⌋ < 1 / 2 then ⌊q⌋
  else if 1 / 2 < q - ⌊q⌋ then ⌊q⌋ + 1
  else if ⌊q⌋ % 2 = 0 then ⌊q⌋ else ⌊q⌋ + 1

/-- the sum of 1 and a number up to 1, with `p` significant bits (1 + 1 is exact) -/
def onePlus (p : ℕ) (e : ℚ) : ℚ := rne ((1 + e) * 2 ^ (p - 1)) / 2 ^ (p - 1)

/-- the loop of `precision::init` (precision.hpp l.34-40), `none` when `fuel` steps do not suffice -/
def precisionLoop (p : ℕ) : ℕ → ℚ → Option ℚ
  | 0, _ => none
  | fuel + 1, e => if onePlus p e - 1 ≠ 0 then precisionLoop p fuel (1 / 2 * e) else some e

/-! ## Random data -/

/-- `randv` (random.hpp l.46-55): `g` are the numbers of a generator made anew with seed 1 -/
def randv {T : Type} [Sub T] (g : ℕ → T) (half : T) (n : ℕ) : List T := (List.range n).map fun i => g i - half

/-- `randm` (random.hpp l.32-41): the numbers are drawn in the order of the elements of the matrix assigned to -/
def randm {T : Type} [Sub T] (g : ℕ → T) (half : T) (rowMajor : Bool) (rows cols : ℕ) : Mat T :=
  ⟨rows, cols, fun r c => g (if rowMajor then r * cols + c else c * rows + r) - half⟩

/-- `T(0.5)` for complex `T`, subtracted (random.hpp l.40, 54) -/
def centred (z : ℚ × ℚ) : ℚ × ℚ := (z.1 - 1 / 2, z.2 - 0)

/-! ## Maps -/

/-- `Create_map<2, Map>::exec` (support/storage.hpp l.98-107): numbers of rows and columns of processors -/
def createMap2 (np : ℕ) : ℕ × ℕ := (np.sqrt, np / np.sqrt)

end Verif.TRef
