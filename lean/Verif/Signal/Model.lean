import Mathlib.Algebra.Field.Defs
import Mathlib.Data.Nat.Cast.Defs
/-!
Model of the signal processing objects of
`/repo/src/vsip/impl/signal/histo.hpp`, `/repo/src/ovxx/signal/freqswap.hpp`, `/repo/src/vsip/impl/signal/freqswap.hpp`,
`/repo/src/ovxx/signal/conv.hpp` and `/repo/src/ovxx/signal/corr.hpp`.

Arrays are a size and a function of the index; reading or writing outside the size gives `none` (undefined behaviour in the code).
Strides are left to the views (C22); rounding is not modelled: elements are from a semiring or a field.  Index arithmetic is on
unbounded numbers except for the output size, where `size_t` wraps.  The split-complex overloads run the same loops.
-/
namespace Verif.Sig

/-- one-dimensional array -/
structure Vec (T : Type) where
  n : Nat
  f : Nat → T

/-- two-dimensional array -/
structure Mat (T : Type) where
  rows : Nat
  cols : Nat
  f : Nat → Nat → T

section
variable {T : Type}

def Vec.get (v : Vec T) (i : Nat) : Option T := if i < v.n then some (v.f i) else none

def Vec.put (v : Vec T) (i : Nat) (t : T) : Option (Vec T) :=
  if i < v.n then some ⟨v.n, fun k => if k = i then t else v.f k⟩ else none

def Mat.get (m : Mat T) (i j : Nat) : Option T := if i < m.rows ∧ j < m.cols then some (m.f i j) else none

def Mat.put (m : Mat T) (i j : Nat) (t : T) : Option (Mat T) :=
  if i < m.rows ∧ j < m.cols then some ⟨m.rows, m.cols, fun r c => if r = i ∧ c = j then t else m.f r c⟩ else none

/-- `for (k = 0; k < n; ++k) s = body(s, k)` -/
def loop {σ : Type} (n : Nat) (s : σ) (body : σ → Nat → Option σ) : Option σ :=
  (List.range n).foldlM body s
end

/-! ### Histogram -/

section
variable {T : Type} [LT T] [LE T] [DecidableLT T] [DecidableLE T] [Sub T] [Div T] [Add T] [One T]

/-- `hist_bin` (histo.hpp l.21-28); `trunc` is the conversion to `index_type` -/
def histBin (trunc : T → Nat) (min max delta : T) (num : Nat) (value : T) : Nat :=
  if value < min then 0
  else if max ≤ value then num - 1
  else trunc ((value - min) / delta + 1)

/-- body of the loops of `Histogram_accumulator` (l.44-45) -/
def histAdd (trunc : T → Nat) (min max delta : T) (h : Vec Nat) (value : T) : Option (Vec Nat) := do
  let n := histBin trunc min max delta h.n value
  let c ← h.get n
  h.put n (c + 1)

/-- `Histogram_accumulator<1>::exec` (l.37-47); `ofLen` converts `num - 2` to `T` -/
def histExec1 (trunc : T → Nat) (ofLen : Nat → T) (min max : T) (h : Vec Nat) (x : Vec T) : Option (Vec Nat) :=
  let delta := (max - min) / ofLen (h.n - 2)
  loop x.n h fun h i => do histAdd trunc min max delta h (← x.get i)

/-- `Histogram_accumulator<2>::exec` (l.54-65) -/
def histExec2 (trunc : T → Nat) (ofLen : Nat → T) (min max : T) (h : Vec Nat) (x : Mat T) : Option (Vec Nat) :=
  let delta := (max - min) / ofLen (h.n - 2)
  loop x.rows h fun h i => loop x.cols h fun h j => do histAdd trunc min max delta h (← x.get i j)

/-- `Histogram::operator()` for a vector (l.137-149): the new `hist_` -/
def histCall1 (trunc : T → Nat) (ofLen : Nat → T) (min max : T) (h : Vec Nat) (x : Vec T) (accumulate : Bool) :
    Option (Vec Nat) :=
  histExec1 trunc ofLen min max (if accumulate = false then ⟨h.n, fun _ => 0⟩ else h) x

/-- `Histogram::operator()` for a matrix (l.151-164) -/
def histCall2 (trunc : T → Nat) (ofLen : Nat → T) (min max : T) (h : Vec Nat) (x : Mat T) (accumulate : Bool) :
    Option (Vec Nat) :=
  histExec2 trunc ofLen min max (if accumulate = false then ⟨h.n, fun _ => 0⟩ else h) x
end

/-! ### Frequency swap -/

section
variable {T σ : Type}

/-- The statements common to `Freqswap<1>::apply` (ovxx/signal/freqswap.hpp l.37-53) and the row and column passes of
`Freqswap<2>::apply` (l.78-89, l.95-106): `get` reads the input, `put` writes the output -/
def swapLine (get : σ → Nat → Option T) (put : σ → Nat → T → Option σ) (M : Nat) (s : σ) : Option σ := do
  let ia := M % 2
  let mid ← get s (M / 2)
  let s ← loop (M / 2) s fun s i => do
    let ii := M / 2 + i
    let tmp ← get s (ii + ia)
    let s ← put s ii (← get s i)
    put s i tmp
  if ia ≠ 0 then put s (M - 1) mid else some s

/-- `Freqswap<1>::apply` (l.35-54) with distinct blocks -/
def freqswap1 (out inp : Vec T) : Option (Vec T) := swapLine (fun _ i => inp.get i) Vec.put inp.n out

/-- `Freqswap<1>::apply` with `out` the same block as `in` -/
def freqswap1InPlace (x : Vec T) : Option (Vec T) := swapLine Vec.get Vec.put x.n x

/-- `Freqswap<2>::apply`, `is_same_block` branch (l.70-108) -/
def freqswap2InPlace (x : Mat T) : Option (Mat T) := do
  let s ← loop x.rows x fun s i => swapLine (fun s j => s.get i j) (fun s j t => s.put i j t) x.cols s
  loop x.cols s fun s j => swapLine (fun s i => s.get i j) (fun s i t => s.put i j t) x.rows s

/-- the quadrants (l.113-124) -/
def swapQuads (out inp : Mat T) : Option (Mat T) :=
  let M := inp.rows
  let N := inp.cols
  loop (M / 2) out fun s i =>
    let ii := M / 2 + i
    loop (N / 2) s fun s j => do
      let jj := N / 2 + j
      let tmp ← inp.get (ii + M % 2) (jj + N % 2)
      let s ← s.put ii jj (← inp.get i j)
      let s ← s.put i j tmp
      let tmp ← inp.get (ii + M % 2) j
      let s ← s.put ii j (← inp.get i (jj + N % 2))
      s.put i jj tmp

/-- the last row when `M` is odd (l.127-136) -/
def swapLastRow (inp s : Mat T) : Option (Mat T) :=
  let M := inp.rows
  let N := inp.cols
  let i := M / 2
  let ii := M - 1
  loop (N / 2) s fun s j => do
    let jj := N / 2 + j
    let s ← s.put ii jj (← inp.get i j)
    s.put ii j (← inp.get i (jj + N % 2))

/-- the last column when `N` is odd (l.137-146) -/
def swapLastCol (inp s : Mat T) : Option (Mat T) :=
  let M := inp.rows
  let N := inp.cols
  let j := N / 2
  let jj := N - 1
  loop (M / 2) s fun s i => do
    let ii := M / 2 + i
    let s ← s.put ii jj (← inp.get i j)
    s.put i jj (← inp.get (ii + M % 2) j)

/-- `Freqswap<2>::apply`, other branch (l.109-148) -/
def freqswap2 (out inp : Mat T) : Option (Mat T) :=
  let M := inp.rows
  let N := inp.cols
  (swapQuads out inp).bind fun s =>
  (if M % 2 ≠ 0 then swapLastRow inp s else some s).bind fun s =>
  (if N % 2 ≠ 0 then swapLastCol inp s else some s).bind fun s =>
  if M % 2 ≠ 0 ∧ N % 2 ≠ 0 then (inp.get (M / 2) (N / 2)).bind fun t => s.put (M - 1) (N - 1) t else some s

/-- axis of the one-axis `freqswap` -/
inductive Axis where
  | row | col
deriving DecidableEq

/-- `freqswap<D>(in, out)` (vsip/impl/signal/freqswap.hpp l.48-69), `in` and `out` distinct; taking `row(r)` or `col(c)` outside the
matrix is undefined.  Both loops run to `rows`. -/
def freqswapAxis (D : Axis) (out inp : Mat T) : Option (Mat T) :=
  let rows := inp.rows
  match D with
  | .row => loop rows out fun s r =>
      if r < inp.rows then swapLine (fun _ j => inp.get r j) (fun s j t => s.put r j t) inp.cols s else none
  | .col => loop rows out fun s c =>
      if c < inp.cols then swapLine (fun _ i => inp.get i c) (fun s i t => s.put i c t) inp.rows s else none
end

/-! ### Convolution -/

inductive Symm where
  | nonsym | evenLenOdd | evenLenEven
deriving DecidableEq, Repr

inductive Supp where
  | full | same | min
deriving DecidableEq, Repr

/-- `conv_kernel_size<S, 1>` (conv.hpp l.65-82) -/
def kernelSize1 (s : Symm) (n : Nat) : Nat :=
  match s with
  | .evenLenOdd => 2 * n - 1
  | .evenLenEven => 2 * n
  | .nonsym => n

/-- `conv_kernel_size<S, 2>` (l.84-97) -/
def kernelSize2 (s : Symm) (r c : Nat) : Nat × Nat :=
  match s with
  | .evenLenOdd => (2 * r - 1, 2 * c - 1)
  | .evenLenEven => (2 * r, 2 * c - 1)
  | .nonsym => (r, c)

/-- `conv_dim_output_size` (l.103-121) with `VSIP_IMPL_CONV_CORRECT_MIN_SUPPORT_SIZE`; `length_type` is unsigned with 64 bits -/
def outputSize (supp : Supp) (M N D : Nat) : Nat :=
  let w (z : Int) : Nat := (z % 18446744073709551616).toNat
  match supp with
  | .full => w ((w (N + M - 2) / D : Nat) + 1)
  | .same => w ((w (N - 1) / D : Nat) + 1)
  | .min => let k := w (N - M + 1); k / D + if k % D = 0 then 0 else 1

section
variable {T : Type}

/-- `conv_kernel` for a vector (l.142-173), `coeff` having at least one element -/
def convKernel1 [Zero T] (s : Symm) (coeff : Vec T) : Vec T :=
  let M := coeff.n
  match s with
  | .evenLenOdd =>
    let full : Nat → T := fun _ => 0
    let full : Nat → T := fun i => if i < M then coeff.f i else full i
    ⟨2 * M - 1, fun i => if M ≤ i ∧ i < M + (M - 1) then coeff.f (M - 2 - (i - M)) else full i⟩
  | .evenLenEven =>
    let full : Nat → T := fun _ => 0
    let full : Nat → T := fun i => if i < M then coeff.f i else full i
    ⟨2 * M, fun i => if M ≤ i ∧ i < M + M then coeff.f (M - 1 - (i - M)) else full i⟩
  | .nonsym => ⟨M, coeff.f⟩

/-- `conv_kernel` for a matrix (l.177-229) -/
def convKernel2 [Zero T] (s : Symm) (coeff : Mat T) : Mat T :=
  let Mr := coeff.rows
  let Mc := coeff.cols
  match s with
  | .evenLenOdd =>
    let f : Nat → Nat → T := fun _ _ => 0
    let f : Nat → Nat → T := fun r c => if r < Mr ∧ c < Mc then coeff.f r c else f r c
    let f : Nat → Nat → T := fun r c => if r < Mr ∧ Mc ≤ c ∧ c < Mc + (Mc - 1) then coeff.f r (Mc - 2 - (c - Mc)) else f r c
    ⟨2 * Mr - 1, 2 * Mc - 1, fun r c =>
      if (Mr ≤ r ∧ r < Mr + (Mr - 1)) ∧ c < 2 * Mc - 1 then f (Mr - 2 - (r - Mr)) c else f r c⟩
  | .evenLenEven =>
    let f : Nat → Nat → T := fun _ _ => 0
    let f : Nat → Nat → T := fun r c => if r < Mr ∧ c < Mc then coeff.f r c else f r c
    let f : Nat → Nat → T := fun r c => if r < Mr ∧ Mc ≤ c ∧ c < Mc + Mc then coeff.f r (Mc - 1 - (c - Mc)) else f r c
    ⟨2 * Mr, 2 * Mc, fun r c =>
      if (Mr ≤ r ∧ r < Mr + Mr) ∧ c < 2 * Mc then f (Mr - 1 - (r - Mr)) c else f r c⟩
  | .nonsym => ⟨Mr, Mc, coeff.f⟩

variable [Semiring T]

/-- `conv_full` (l.231-257): the value put at output `n` -/
def convFull (coeff inp : Vec T) (D n : Nat) : Option T :=
  loop coeff.n 0 fun sum k =>
    if n * D ≥ k ∧ n * D - k < inp.n then do
      some (sum + (← coeff.get k) * (← inp.get (n * D - k)))
    else some sum

/-- `conv_same` (l.261-288) -/
def convSame (coeff inp : Vec T) (D n : Nat) : Option T :=
  loop coeff.n 0 fun sum k =>
    if n * D + coeff.n / 2 ≥ k ∧ n * D + coeff.n / 2 - k < inp.n then do
      some (sum + (← coeff.get k) * (← inp.get (n * D + coeff.n / 2 - k)))
    else some sum

/-- `conv_min` (l.292-320) -/
def convMin (coeff inp : Vec T) (D n : Nat) : Option T :=
  let offset := n * D + (coeff.n - 1)
  loop coeff.n 0 fun sum k => do
    some (sum + (← coeff.get k) * (← inp.get (offset - k)))

/-- `Convolution::convolve` for vectors (l.1021-1071) with the constructor (l.980-991): the output, of size `output_size_` -/
def convolve1 (s : Symm) (supp : Supp) (coeff inp : Vec T) (D : Nat) : Nat × (Nat → Option T) :=
  let K := convKernel1 s coeff
  (outputSize supp K.n inp.n D,
    match supp with
    | .full => convFull K inp D
    | .same => convSame K inp D
    | .min => convMin K inp D)

/-- preconditions of the constructor of `vsip::Convolution` (vsip/impl/signal/conv.hpp l.76-78): `k` coefficients and `N` input elements
in all -/
def convOk (s : Symm) (k N D : Nat) : Prop := 1 ≤ D ∧ if s = .nonsym then k ≤ N else k ≤ 2 * N

/-- 2-D `conv_full` (l.446-490) -/
def convFull2 (coeff inp : Mat T) (D r c : Nat) : Option T :=
  loop coeff.rows 0 fun sum rr => loop coeff.cols sum fun sum cc =>
    if r * D ≥ rr ∧ r * D - rr < inp.rows ∧ c * D ≥ cc ∧ c * D - cc < inp.cols then do
      some (sum + (← coeff.get rr cc) * (← inp.get (r * D - rr) (c * D - cc)))
    else some sum

/-- 2-D `conv_same` (l.492-539) -/
def convSame2 (coeff inp : Mat T) (D r c : Nat) : Option T :=
  let ir := r * D + coeff.rows / 2
  let ic := c * D + coeff.cols / 2
  loop coeff.rows 0 fun sum rr => loop coeff.cols sum fun sum cc =>
    if ir ≥ rr ∧ ir - rr < inp.rows ∧ ic ≥ cc ∧ ic - cc < inp.cols then do
      some (sum + (← coeff.get rr cc) * (← inp.get (ir - rr) (ic - cc)))
    else some sum

/-- 2-D `conv_min` (l.541-586) -/
def convMin2 (coeff inp : Mat T) (D r c : Nat) : Option T :=
  let ir := r * D + (coeff.rows - 1)
  let ic := c * D + (coeff.cols - 1)
  loop coeff.rows 0 fun sum rr => loop coeff.cols sum fun sum cc => do
    some (sum + (← coeff.get rr cc) * (← inp.get (ir - rr) (ic - cc)))

/-- `Convolution::convolve` for matrices (l.1073-1134) with the constructor: output sizes and output -/
def convolve2 (s : Symm) (supp : Supp) (coeff inp : Mat T) (D : Nat) : (Nat × Nat) × (Nat → Nat → Option T) :=
  let K := convKernel2 s coeff
  ((outputSize supp K.rows inp.rows D, outputSize supp K.cols inp.cols D),
    match supp with
    | .full => convFull2 K inp D
    | .same => convSame2 K inp D
    | .min => convMin2 K inp D)
end

/-! ### Correlation -/

section
variable {T : Type} [Field T]

/-- `corr_full` (corr.hpp l.90-134): the value put at output `n`; `conj` is `impl_conj`; `none` also for the failed precondition -/
def corrFull (conj : T → T) (unbiased : Bool) (ref inp : Vec T) (n : Nat) : Option T :=
  if ref.n ≤ inp.n then do
    let sum ← loop ref.n (0 : T) fun sum k =>
      if n + k ≥ ref.n - 1 ∧ n + k < inp.n + (ref.n - 1) then do
        some (sum + (← ref.get k) * conj (← inp.get (n + k - (ref.n - 1))))
      else some sum
    if unbiased then
      if n < ref.n - 1 then some (sum / ((n + 1 : Nat) : T))
      else if n ≥ inp.n then some (sum / ((inp.n + ref.n - 1 - n : Nat) : T))
      else some (sum / (ref.n : T))
    else some sum
  else none

/-- `corr_same` (l.136-183) with `VSIP_IMPL_CORR_CORRECT_SAME_SUPPORT_SCALING` 0 (l.65) -/
def corrSame (conj : T → T) (unbiased : Bool) (ref inp : Vec T) (n : Nat) : Option T := do
  let sum ← loop ref.n (0 : T) fun sum k =>
    if n + k ≥ ref.n / 2 ∧ n + k < inp.n + ref.n / 2 then do
      some (sum + (← ref.get k) * conj (← inp.get (n + k - ref.n / 2)))
    else some sum
  if unbiased then
    if n < ref.n / 2 then some (sum / ((n + (ref.n + 1) / 2 : Nat) : T))
    else if n ≥ inp.n - ref.n / 2 then some (sum / ((inp.n - 1 + (ref.n + 1) / 2 - n : Nat) : T))
    else some (sum / (ref.n : T))
  else some sum

/-- `corr_min` (l.185-215) -/
def corrMin (conj : T → T) (unbiased : Bool) (ref inp : Vec T) (n : Nat) : Option T := do
  let sum ← loop ref.n (0 : T) fun sum k => do
    some (sum + (← ref.get k) * conj (← inp.get (n + k)))
  if unbiased then some (sum / (ref.n : T)) else some sum

/-- `Correlation::correlate` for vectors (l.663-719) with the constructor (l.623-632) -/
def correlate1 (conj : T → T) (supp : Supp) (unbiased : Bool) (ref inp : Vec T) : Nat × (Nat → Option T) :=
  (outputSize supp ref.n inp.n 1,
    match supp with
    | .full => corrFull conj unbiased ref inp
    | .same => corrSame conj unbiased ref inp
    | .min => corrMin conj unbiased ref inp)

/-- one factor of the divisor in `corr_base` (l.408-413, l.414-419) -/
def baseScale (r refRows inRows shift edge : Nat) : Nat :=
  if r < shift then r + (refRows - shift)
  else if r ≥ inRows - edge then inRows + shift - r
  else refRows

/-- 2-D `corr_base` (l.353-425) -/
def corrBase (conj : T → T) (unbiased : Bool) (rowShift colShift rowEdge colEdge : Nat) (ref inp : Mat T) (r c : Nat) :
    Option T :=
  if ref.rows ≤ inp.rows ∧ ref.cols ≤ inp.cols then do
    let sum ← loop ref.rows (0 : T) fun sum rr => loop ref.cols sum fun sum cc =>
      if r + rr ≥ rowShift ∧ r + rr < inp.rows + rowShift ∧ c + cc ≥ colShift ∧ c + cc < inp.cols + colShift then do
        some (sum + (← ref.get rr cc) * conj (← inp.get (r + rr - rowShift) (c + cc - colShift)))
      else some sum
    if unbiased then
      let scale : T := 1
      let scale := scale * (baseScale r ref.rows inp.rows rowShift rowEdge : T)
      let scale := scale * (baseScale c ref.cols inp.cols colShift colEdge : T)
      some (sum / scale)
    else some sum
  else none

/-- `Correlation::correlate` for matrices (l.721-786) with `corr_full`, `corr_same`, `corr_min` (l.427-506) -/
def correlate2 (conj : T → T) (supp : Supp) (unbiased : Bool) (ref inp : Mat T) : (Nat × Nat) × (Nat → Nat → Option T) :=
  ((outputSize supp ref.rows inp.rows 1, outputSize supp ref.cols inp.cols 1),
    match supp with
    | .full => corrBase conj unbiased (ref.rows - 1) (ref.cols - 1) 0 0 ref inp
    | .same => corrBase conj unbiased (ref.rows / 2) (ref.cols / 2) (ref.rows / 2) (ref.cols / 2) ref inp
    | .min => corrBase conj unbiased 0 0 0 0 ref inp)
end

end Verif.Sig
