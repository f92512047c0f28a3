import Mathlib.Data.Int.Notation
import Mathlib.Data.Rat.Defs
import Verif.PyMath.Model
/-!
Model of the objects of the Python signal processing classes: the constructors and calls of
`/repo/python/src/signal/{conv,corr,fft,fftm,fir,iir}.py` and the bindings they use (`conv.hpp`, `corr.hpp`, `fft.hpp`, `fftm.hpp`, `fir.hpp`,
`iir.hpp` in the same directory), with the conversion of arguments by Boost.Python.

Simplified: a block is described by its element type and shape; scale factors are rational and not rounded; `TypeError` stands for `ArgumentError` and
`ValueError` for `OverflowError`; views are always true as conditions, since the classes `vector` and `matrix` define neither `__len__` nor
`__nonzero__`; the values computed are those of the C++ objects (see the other areas).
-/
namespace Verif.Pys

open Verif.Pym (Out K D View ownImport importModule dtypeOf)

/-! ### Enumerations (src/vsip/impl/signal/types.hpp l.15-47, python/src/signal/types.cpp) -/

inductive Hint where
  | time | space | noise
  deriving DecidableEq

inductive Supp where
  | full | same | min | minZeropad
  deriving DecidableEq

inductive Sym where
  | none | evenOdd | evenEven
  deriving DecidableEq

inductive State where
  | noSave | save
  deriving DecidableEq

/-! ### Arguments -/

/-- what is given for an argument -/
inductive Val where
  | int (n : ℤ)
  | real (x : ℚ)
  | hint (h : Hint)
  | supp (s : Supp)
  | sym (s : Sym)
  | state (s : State)
  | block (k : K) (shape : List ℕ)
  | view (v : View)
  deriving DecidableEq

/-- types of parameters of the C++ functions: `length_type`, `unsigned`, `int`, `T`, the enumerations, `Block<dim, T> const &` -/
inductive Par where
  | length | unsigned | int | scalar | hint | supp | sym | state
  | block (k : K) (dim : ℕ)
  deriving DecidableEq

/-- the integer an object is: the classes made by `bpl::enum_` are derived from `int` -/
def Val.int? : Val → Option ℤ
  | .int n => some n
  | .hint .time | .supp .full | .sym .none | .state .noSave => some 0
  | .hint .space | .supp .same | .sym .evenOdd | .state .save => some 1
  | .hint .noise | .supp .min | .sym .evenEven => some 2
  | .supp .minZeropad => some 3
  | _ => none

/-- which objects Boost.Python accepts for a parameter: integers, not floating point numbers, for integers; both for floating point numbers; only members of
an enumeration for it; only blocks, not views, for blocks -/
def accepts : Par → Val → Bool
  | .length, v | .unsigned, v | .int, v => v.int?.isSome
  | .scalar, .real _ => true
  | .scalar, v => v.int?.isSome
  | .hint, .hint _ | .supp, .supp _ | .sym, .sym _ | .state, .state _ => true
  | .block k n, .block k' s => k == k' && s.length == n
  | _, _ => false

/-- whether a list of arguments fits a list of parameters -/
def fits : List Par → List Val → Bool
  | [], [] => true
  | p :: ps, v :: vs => accepts p v && fits ps vs
  | _, _ => false

/-- conversion to an integer type with values from `-neg` to `pos - 1`: out of range is an error -/
def toRange (neg pos : ℕ) (v : Val) : Out ℤ :=
  match v.int? with
  | some n => if (-n).toNat ≤ neg ∧ n.toNat < pos then .ret n else .raise .value
  | none => .raise .type

/-- `length_type`: below 2^64 -/
def toLength (v : Val) : Out ℕ := (toRange 0 (2 ^ 64) v).bind fun n => .ret n.toNat
/-- `unsigned`: below 2^32 -/
def toUnsigned (v : Val) : Out ℕ := (toRange 0 (2 ^ 32) v).bind fun n => .ret n.toNat
/-- `int`: from -2^31 to 2^31 - 1 -/
def toInt (v : Val) : Out ℤ := toRange (2 ^ 31) (2 ^ 31) v

def toScalar : Val → Out ℚ
  | .real x => .ret x
  | v => match v.int? with
    | some n => .ret n
    | none => .raise .type

/-! ### FFTs -/

/-- `fft<I, O, D, N, H>` (fft.hpp l.73-136) made from the module for `k`: `N`, `H` are template arguments -/
structure Fft where
  k : K
  fwd : Bool
  length : ℕ
  scale : ℚ
  times : ℕ
  hint : Hint
  deriving DecidableEq

/-- the template argument chosen for the number of times (fft.hpp l.156-185, `fftw_planning` in src/ovxx/signal/fft.hpp l.79) -/
def times (n : ℕ) : ℕ := if 32 ≤ n then 32 else if 12 ≤ n then 12 else if 1 ≤ n then 1 else 0

/-- the template argument chosen for the hint: the `switch` (fft.hpp l.154-186) -/
def hintArg : Hint → Hint
  | .noise => .noise
  | .space => .space
  | _ => .time

/-- `create_fft` as a constructor (fft.hpp l.138-187) -/
def createFft (k : K) (fwd : Bool) (args : List Val) : Out Fft :=
  if fits [.length, .scalar, .unsigned, .hint] args then
    match args with
    | [l, s, n, .hint h] =>
      (toLength l).bind fun l => (toScalar s).bind fun s => (toUnsigned n).bind fun n => .ret ⟨k, fwd, l, s, times n, hintArg h⟩
    | _ => .raise .type
  else .raise .type

/-- element types of input and output (`define_real_fft`, `define_complex_fft`, fft.hpp l.189-241) -/
def inK (k : K) (fwd : Bool) : K := if fwd then k else k.complex
def outK (k : K) (fwd : Bool) : K := if fwd then k.complex else k

/-- `io_size<1, I, O, 0>` (src/ovxx/signal/fft/util.hpp l.62-77): halved where the side is complex and the other is not -/
def ioSize (side other : K) (n : ℕ) : ℕ := if side.cx && !other.cx then n / 2 + 1 else n

/-- `input_size`, `output_size` (src/ovxx/signal/fft.hpp l.90-91) -/
def Fft.inputSize (x : Fft) : ℕ := ioSize (inK x.k x.fwd) (outK x.k x.fwd) x.length
def Fft.outputSize (x : Fft) : ℕ := ioSize (outK x.k x.fwd) (inK x.k x.fwd) x.length

/-- the Python object (fft.py l.29-43) -/
structure PyFft where
  direction : ℤ
  length : Val
  scale : Val
  impl : Fft
  inputSize : ℕ
  outputSize : ℕ
  deriving DecidableEq

/-- `fwd`, `inv` (signal/__init__.py l.10-11) -/
def fwd : ℤ := -1
def inv : ℤ := 1

/-- `fft(dtype, direction, len, scale, n, hint)` (fft.py l.29-43) -/
def newFft (d : D) (direction : ℤ) (len scale n hint : Val) : Out PyFft :=
  (ownImport .fft .bare d).bind fun k =>
    (createFft k (direction == fwd) [len, scale, n, hint]).bind fun x => .ret ⟨direction, len, scale, x, x.inputSize, x.outputSize⟩

/-- `__call__` (fft.py l.45-50; fft.hpp l.203, 212, 229-230, 239-240; src/ovxx/signal/fft.hpp l.240-265): the C++ functions are declared not to throw, so that a
failed precondition ends the program -/
def Fft.call (x : Fft) (input : View) (output : Option View) : Out Unit :=
  match output with
  | some o =>
    if input.k = inK x.k x.fwd ∧ input.shape.length = 1 ∧ o.k = outK x.k x.fwd ∧ o.shape.length = 1 then
      if input.shape = [x.inputSize] ∧ o.shape = [x.outputSize] then .ret () else .bad
    else .raise .type
  | none =>
    if x.k.cx ∧ input.k = x.k ∧ input.shape.length = 1 then
      if input.shape = [x.inputSize] then .ret () else .bad
    else .raise .type

/-! ### Multiple FFTs -/

/-- `fftm<I, O, A, D, N, H>` (fftm.hpp l.75-147) -/
structure Fftm where
  k : K
  fwd : Bool
  rows : ℕ
  cols : ℕ
  scale : ℚ
  axis : ℤ
  times : ℕ
  hint : Hint
  deriving DecidableEq

/-- `create_fftm` (fftm.hpp l.149-223): every axis but 0 is axis 1 -/
def createFftm (k : K) (fwd : Bool) (args : List Val) : Out Fftm :=
  if fits [.length, .length, .scalar, .int, .unsigned, .hint] args then
    match args with
    | [r, c, s, a, n, .hint h] =>
      (toLength r).bind fun r => (toLength c).bind fun c => (toScalar s).bind fun s => (toInt a).bind fun a => (toUnsigned n).bind fun n =>
        .ret ⟨k, fwd, r, c, s, if a = 0 then 0 else 1, times n, hintArg h⟩
    | _ => .raise .type
  else .raise .type

/-- `io_size<2, I, O, 1 - A>` (src/ovxx/signal/fft.hpp l.378-380, fft/util.hpp l.67-77) -/
def Fftm.ioSize (x : Fftm) (side other : K) : ℕ × ℕ :=
  if x.axis = 0 then (x.rows, Pys.ioSize side other x.cols) else (Pys.ioSize side other x.rows, x.cols)

def Fftm.inputSize (x : Fftm) : ℕ × ℕ := x.ioSize (inK x.k x.fwd) (outK x.k x.fwd)
def Fftm.outputSize (x : Fftm) : ℕ × ℕ := x.ioSize (outK x.k x.fwd) (inK x.k x.fwd)

/-- the Python object (fftm.py l.29-44) -/
structure PyFftm where
  direction : ℤ
  size : Val × Val
  scale : Val
  axis : Val
  impl : Fftm
  inputSize : ℕ × ℕ
  outputSize : ℕ × ℕ
  deriving DecidableEq

/-- `fftm(dtype, direction, rows, cols, scale, axis, n, hint)` (fftm.py l.29-44) -/
def newFftm (d : D) (direction : ℤ) (rows cols scale axis n hint : Val) : Out PyFftm :=
  (ownImport .fftm .tuple d).bind fun k =>
    (createFftm k (direction == fwd) [rows, cols, scale, axis, n, hint]).bind fun x =>
      .ret ⟨direction, (rows, cols), scale, axis, x, x.inputSize, x.outputSize⟩

/-- `__call__` (fftm.py l.46-51, src/ovxx/signal/fft.hpp l.393-432) -/
def Fftm.call (x : Fftm) (input : View) (output : Option View) : Out Unit :=
  match output with
  | some o =>
    if input.k = inK x.k x.fwd ∧ input.shape.length = 2 ∧ o.k = outK x.k x.fwd ∧ o.shape.length = 2 then
      if input.shape = [x.inputSize.1, x.inputSize.2] ∧ o.shape = [x.outputSize.1, x.outputSize.2] then .ret () else .bad
    else .raise .type
  | none =>
    if x.k.cx ∧ input.k = x.k ∧ input.shape.length = 2 then
      if input.shape = [x.inputSize.1, x.inputSize.2] then .ret () else .bad
    else .raise .type

/-! ### Convolution and correlation -/

/-- `conv<T, S, R>` (conv.hpp l.37-58) -/
structure Conv where
  k : K
  kernel : ℕ
  sym : Sym
  supp : Supp
  input : ℕ
  decimation : ℕ
  deriving DecidableEq

/-- the chain of comparisons (conv.hpp l.79-105, corr.hpp l.67-72): what is neither full nor same is min -/
def suppArg : Supp → Supp
  | .full => .full
  | .same => .same
  | _ => .min

/-- the chain of comparisons (conv.hpp l.81-104, fir.hpp l.78-98) -/
def symArg : Sym → Sym
  | .evenOdd => .evenOdd
  | .evenEven => .evenEven
  | _ => .none

/-- `create_conv` (conv.hpp l.60-106) -/
def createConv (k : K) (args : List Val) : Out Conv :=
  if fits [.block k 1, .sym, .length, .length, .supp, .unsigned, .hint] args then
    match args with
    | [.block _ c, .sym s, i, d, .supp r, n, .hint _] =>
      (toLength i).bind fun i => (toLength d).bind fun d => (toUnsigned n).bind fun _ => .ret ⟨k, c.getD 0 0, symArg s, suppArg r, i, d⟩
    | _ => .raise .type
  else .raise .type

/-- `conv(dtype, symmetry, support, i, decimation, n, hint)` (conv.py l.14-21) -/
def newConv (d : D) (symmetry support i decimation n hint : Val) : Out Conv :=
  (importModule .conv d).bind fun k => createConv k [symmetry, i, decimation, support, n, hint]

/-- `corr<T, R>` (corr.hpp l.34-53) -/
structure Corr where
  k : K
  supp : Supp
  ref : ℕ
  input : ℕ
  deriving DecidableEq

/-- `create_corr` (corr.hpp l.55-73) -/
def createCorr (k : K) (args : List Val) : Out Corr :=
  if fits [.length, .length, .supp, .unsigned, .hint] args then
    match args with
    | [r, i, .supp s, n, .hint _] =>
      (toLength r).bind fun r => (toLength i).bind fun i => (toUnsigned n).bind fun _ => .ret ⟨k, suppArg s, r, i⟩
    | _ => .raise .type
  else .raise .type

/-- `corr(dtype, support, r, i, n, hint)` (corr.py l.28-34) -/
def newCorr (d : D) (support r i n hint : Val) : Out Corr :=
  (ownImport .corr .bare d).bind fun k => createCorr k [support, r, i, n, hint]

/-! ### Filters -/

/-- `fir<T, S, C>` (fir.hpp l.38-58) -/
structure Fir where
  k : K
  kernel : ℕ
  sym : Sym
  length : ℕ
  decimation : ℕ
  state : State
  deriving DecidableEq

/-- `create_fir` (fir.hpp l.61-99) -/
def createFir (k : K) (args : List Val) : Out Fir :=
  if fits [.block k 1, .sym, .length, .length, .state, .unsigned, .hint] args then
    match args with
    | [.block _ c, .sym s, l, d, .state t, n, .hint _] =>
      (toLength l).bind fun l => (toLength d).bind fun d => (toUnsigned n).bind fun _ =>
        .ret ⟨k, c.getD 0 0, symArg s, l, d, if t = .noSave then .noSave else .save⟩
    | _ => .raise .type
  else .raise .type

/-- `fir(kernel, symmetry, len, decimation, state, n, hint)` (fir.py l.28-38) -/
def newFir (kernel : View) (symmetry len decimation state n hint : Val) : Out Fir :=
  (ownImport .fir .none (dtypeOf kernel.k)).bind fun k =>
    createFir k [.block kernel.k kernel.shape, symmetry, len, decimation, state, n, hint]

/-- `iir<T, S>` (iir.hpp l.34-54): the number of sections -/
structure Iir where
  k : K
  sections : ℕ
  length : ℕ
  state : State
  deriving DecidableEq

/-- `Iir(b, a, i)` (src/vsip/impl/signal/iir.hpp l.27-41): numerators first, with three columns; denominators have two.  A failed precondition is an exception. -/
def iirCtor (k : K) (b a : List ℕ) (l : ℕ) (t : State) : Out Iir :=
  if b.getD 0 0 = a.getD 0 0 ∧ b.getD 1 0 = 3 ∧ a.getD 1 0 = 2 then .ret ⟨k, b.getD 0 0, l, t⟩ else .raise .runtime

/-- `create_iir(a, b, l, s, n, h)` (iir.hpp l.56-69): the first argument is the first of `Iir` -/
def createIir (k : K) (args : List Val) : Out Iir :=
  if fits [.block k 2, .block k 2, .length, .state, .unsigned, .hint] args then
    match args with
    | [.block _ a, .block _ b, l, .state t, n, .hint _] =>
      (toLength l).bind fun l => (toUnsigned n).bind fun _ => iirCtor k a b l (if t = .noSave then .noSave else .save)
    | _ => .raise .type
  else .raise .type

/-- `iir(dtype, a, b, len, state, n, hint)` (iir.py l.31-36) -/
def newIir (d : D) (a b len state n hint : Val) : Out Iir :=
  (ownImport .iir .tuple d).bind fun k => createIir k [a, b, len, state, n, hint]

/-- Python classes with a state -/
inductive Filter where
  | fir | iir
  deriving DecidableEq

/-- the method `reset` (iir.py l.45-47; fir.py has none) -/
def reset : Filter → Out Unit
  | .fir => .raise .attr
  | .iir => .ret ()

/-- `_impl.reset` (fir.hpp l.115, iir.hpp l.82) -/
def implReset (_ : Filter) : Out Unit := .ret ()

end Verif.Pys
