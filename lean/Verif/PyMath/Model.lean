import Mathlib.Data.Nat.Notation
/-!
Model of the Python front end for mathematics and signal processing: how modules are chosen by the type of the data
(`/repo/python/src/_import.py` and the private copies of it), which functions they define, and the Python functions and classes of
`/repo/python/src/math`, `math/solvers`, `signal`, `selgen`, `parallel/block.py`, `cast.py`, with the conversion of C++ views
(`/repo/src/ovxx/python/converter.hpp`).

A result is described by its element type and its shape; the values are those of the C++ function called (see the other areas).  Python is
version 2.  `NameError` stands for `UnboundLocalError` too, `TypeError` for the `ArgumentError` of Boost.Python.
-/
namespace Verif.Pym

/-- exceptions -/
inductive Exc where
  | name | attr | type | value | import | runtime
  deriving DecidableEq

/-- `bad`: undefined behaviour, or `terminate` from an assertion in a function declared not to throw -/
inductive Out (α : Type) where
  | ret (a : α)
  | raise (e : Exc)
  | bad
  deriving DecidableEq

def Out.bind {α β : Type} : Out α → (α → Out β) → Out β
  | .ret a, f => f a
  | .raise e, _ => .raise e
  | .bad, _ => .bad

/-- element types of blocks, which are also the suffixes of modules (`_f`, `_d`, …) -/
inductive K where
  | f | d | cf | cd | i | b
  deriving DecidableEq

/-- NumPy's scalar types -/
inductive Np where
  | f32 | f64 | c64 | c128 | i32 | i64 | bool8
  deriving DecidableEq

/-- Python's types -/
inductive Py where
  | bool | int | float | complex
  deriving DecidableEq

/-- what is given for a data type: a Python type, a NumPy class, an instance of `numpy.dtype` -/
inductive D where
  | py (t : Py)
  | cls (t : Np)
  | inst (t : Np)
  deriving DecidableEq

/-- `suffixes` (_import.py l.10-18), after `dtype = dtype.type` for instances (l.25-26) -/
def suffix : D → Option K
  | .py .bool => some .b
  | .py .int => some .i
  | .py .float => some .d
  | .py .complex => some .cd
  | .cls .f32 | .inst .f32 => some .f
  | .cls .f64 | .inst .f64 => some .d
  | .cls .c64 | .inst .c64 => some .cf
  | .cls .c128 | .inst .c128 => some .cd
  | .cls .i32 | .inst .i32 => some .i
  | .cls .i64 | .inst .i64 | .cls .bool8 | .inst .bool8 => none

/-- the attribute `dtype` of a block (block_api.hpp l.24-29, 420) -/
def dtypeOf : K → D
  | .f => .inst .f32
  | .d => .inst .f64
  | .cf => .inst .c64
  | .cd => .inst .c128
  | .i => .inst .i32
  | .b => .inst .bool8

/-- families of extension modules -/
inductive Mod where
  | block | rand | elementwise | matvec | reductions | chold | covsol | llsqsol | lud | qrd | svd | toepsol
  | clip | conv | corr | fft | fftm | fir | freqswap | iir | window | parallelBlock
  deriving DecidableEq

/-- the sources `_name_suffix.cpp` there are (python/src and its directories; Makefile.in l.57).  `parallel/block_cd.cpp` lacks the leading
underscore, and defines a module `_block_cf`. -/
def has : Mod → K → Bool
  | .block, _ => true
  | .rand, .cd | .rand, .d | .rand, .f => true
  | .elementwise, .i | .elementwise, .b | .matvec, .i | .matvec, .b => false
  | .elementwise, _ | .matvec, _ => true
  | .reductions, .d | .reductions, .f | .chold, .d | .chold, .f | .covsol, .d | .covsol, .f | .llsqsol, .d | .llsqsol, .f | .lud, .d | .lud, .f
  | .qrd, .d | .qrd, .f | .svd, .d | .svd, .f | .toepsol, .d | .toepsol, .f | .clip, .d | .clip, .f | .fir, .d | .fir, .f
  | .freqswap, .d | .freqswap, .f | .window, .d | .window, .f => true
  | .conv, .i | .conv, .b | .corr, .i | .corr, .b | .fft, .i | .fft, .b | .fftm, .i | .fftm, .b => false
  | .conv, _ | .corr, _ | .fft, _ | .fftm, _ => true
  | .iir, .cd | .iir, .d | .iir, .f => true
  | .parallelBlock, .cf | .parallelBlock, .d | .parallelBlock, .f | .parallelBlock, .i => true
  | _, _ => false

/-- `import_module` (_import.py l.20-33); a missing module is an attribute error -/
def importModule (m : Mod) (d : D) : Out K :=
  match suffix d with
  | none => .raise .value
  | some k => if has m k then .ret k else .raise .attr

/-- how the private copies of it treat complex types: not at all, `dtype in (complex)`, `dtype in (complex,)` -/
inductive Cx where
  | none | bare | tuple
  deriving DecidableEq

/-- `dtype == numpy.float32` -/
def isF32 : D → Bool
  | .cls .f32 | .inst .f32 => true
  | _ => false

/-- `dtype in (float, numpy.float64)` -/
def isF64 : D → Bool
  | .py .float | .cls .f64 | .inst .f64 => true
  | _ => false

/-- `dtype in (complex,)`: NumPy's class is another object than Python's type -/
def isComplex : D → Bool
  | .py .complex | .inst .c128 => true
  | _ => false

/-- `_import_module` (reductions.py l.11-21, toepsol.py, signal/corr.py, fft.py, fftm.py, fir.py, freqswap.py, iir.py).  `x in (complex)` asks a
type for its elements. -/
def ownImport (m : Mod) (c : Cx) (d : D) : Out K :=
  if isF32 d then (if has m .f then .ret .f else .raise .attr)
  else if isF64 d then (if has m .d then .ret .d else .raise .attr)
  else match c with
    | .none => .raise .value
    | .bare => .raise .type
    | .tuple => if isComplex d then (if has m .cd then .ret .cd else .raise .attr) else .raise .value

/-- a vector or matrix -/
structure View where
  k : K
  shape : List Nat
  deriving DecidableEq

/-- results -/
inductive R where
  /-- Python's `None` -/
  | none
  | view (v : View)
  | scalar (k : K)
  /-- a value and its index -/
  | pair (k : K) (dim : Nat)
  /-- a NumPy array -/
  | array
  deriving DecidableEq

/-- the block classes known to Boost.Python: those of the `_block` modules imported so far -/
abbrev Loaded := K → Bool

/-- `bpl::object(std::shared_ptr<Block<D, R> >(result))` -/
def wrap (ld : Loaded) (k : K) (shape : List Nat) : Out R := if ld k then .ret (.view ⟨k, shape⟩) else .raise .type

/-- `vector(dtype, n)`, `matrix(dtype, r, c)` (vector.py l.34-52, matrix.py l.36-54, _block.py l.22-46): loads the block module first -/
def newView (d : D) (shape : List Nat) : Out R := (importModule .block d).bind fun k => .ret (.view ⟨k, shape⟩)

/-- `vector(array=A)` -/
def fromArray (t : Np) (shape : List Nat) : Out R := newView (.inst t) shape

/-- subviews: `_block.subblock(parent, slice)` (_block.py l.48-69) begins by importing the module for the type of the parent -/
def subview (v : View) (shape : List Nat) : Out R := newView (dtypeOf v.k) shape

/-- `matrix.submatrix` (matrix.py l.91-95): `_block` has no function of that name -/
def submatrix (_v : View) : Out R := .raise .attr

/-- `cast(dtype, v)` (cast.py): the module imports a function `_block` does not have -/
def castView (_d : D) (_v : View) : Out R := .raise .import

/-! ### Element by element -/

/-- functions of elementwise.hpp -/
inductive Fn where
  | acos | am | add | arg | asin | atan | atan2 | ceil | conj | cos | cosh | div | euler | eq | exp | exp10 | expoavg | floor | fmod | ge | gt | hypot
  | imag | is_finite | is_nan | is_normal | ite | jmul | land | le | lnot | log | log10 | lor | lt | lxor | ma | mag | magsq | max | maxmg | maxmgsq
  | min | minmg | minmgsq | msb | mul | ne | neg | pow | real | recip | rsqrt | sbm | sin | sinh | sq | sqrt | sub | tan | tanh
  deriving DecidableEq

/-- whether the type is complex -/
def K.cx : K → Bool
  | .cf | .cd => true
  | _ => false

/-- `ovxx::scalar_of<T>::type` -/
def K.scalar : K → K
  | .cf => .f
  | .cd => .d
  | k => k

/-- `vsip::complex<T>` -/
def K.complex : K → K
  | .f => .cf
  | .d => .cd
  | k => k

/-- what `define_elementwise` (l.152-212) and `define_complex_elementwise` (l.214-256) define -/
def defined (cx : Bool) : Fn → Bool
  | .arg | .conj | .imag | .jmul | .real => cx
  | .acos | .asin | .atan | .atan2 | .ceil | .exp10 | .euler | .floor | .fmod | .ge | .gt | .hypot | .ite | .land | .le | .lnot | .lor | .lt | .lxor
  | .max | .min | .minmg | .minmgsq => !cx
  | _ => true

/-- the element type of the result: `UNARY`, `BINARY`, `TERNARY` keep it, `UNARY_RETN`, `BINARY_RETN` name another (l.90-150) -/
def resultKind (f : Fn) (k : K) : K :=
  match f with
  | .arg | .imag | .mag | .magsq | .maxmg | .maxmgsq | .minmg | .minmgsq | .real => k.scalar
  | .euler => k.complex
  | .eq | .ge | .gt | .is_finite | .is_nan | .is_normal | .land | .le | .lnot | .lor | .lt | .lxor | .ne => .b
  | _ => k

/-- `unary(func, a)` (elementwise.py l.12-18) -/
def unary (ld : Loaded) (f : Fn) (a : View) : Out R :=
  (importModule .elementwise (dtypeOf a.k)).bind fun k =>
    if defined k.cx f then wrap ld (resultKind f k) a.shape else .raise .attr

/-- the functions of elementwise.py (l.46-66) -/
def unaries : List Fn := [.acos, .arg, .asin, .atan, .ceil, .cos, .cosh, .euler, .exp, .exp10, .floor, .log, .log10, .magsq, .neg, .sin]
def binaries : List Fn := [.atan2, .eq, .mul]
def ternaries : List Fn := [.am, .ite]

/-- the first size of each dimension reaches no farther than the second -/
def within : List Nat → List Nat → Bool
  | [], [] => true
  | a :: as, b :: bs => a ≤ b && within as bs
  | _, _ => false

/-- `binary(func, a1, a2)` (elementwise.py l.20-30): the result has the size of the first argument (elementwise.hpp l.53-55), nothing compares it
with the second (expr/binary.hpp l.71-84) -/
def binary (ld : Loaded) (f : Fn) (a b : View) : Out R :=
  if dtypeOf a.k = dtypeOf b.k then
    (importModule .elementwise (dtypeOf a.k)).bind fun k =>
      if defined k.cx f then
        (if a.shape.length = b.shape.length then (if within a.shape b.shape then wrap ld (resultKind f k) a.shape else .bad) else .raise .type)
      else .raise .attr
  else .raise .value

/-- `ternary(func, a1, a2, a3)` (elementwise.py l.32-43): the constructor of the expression compares sizes (expr/ternary.hpp l.76-94), which raises an
exception in this build -/
def ternary (ld : Loaded) (f : Fn) (a b c : View) : Out R :=
  if dtypeOf a.k = dtypeOf b.k ∧ dtypeOf b.k = dtypeOf c.k then
    (importModule .elementwise (dtypeOf a.k)).bind fun k =>
      if defined k.cx f then
        (if a.shape.length = b.shape.length ∧ a.shape.length = c.shape.length then
          (if a.shape = b.shape ∧ a.shape = c.shape then wrap ld (resultKind f k) a.shape else .raise .runtime)
        else .raise .type)
      else .raise .attr
  else .raise .value

/-- `_reduce(func, a)` (reductions.py l.24-30) for `meanval`, `sumval`; the others also return the index -/
def reduce (index : Bool) (a : View) : Out R :=
  (ownImport .reductions .none (dtypeOf a.k)).bind fun k => .ret (if index then .pair k a.shape.length else .scalar k)

/-! ### Matrices and vectors -/

/-- functions of matvec.py -/
inductive Mv where
  | dot | trans | herm | kron | outer | prod | prodh | prodj | prodt | vmmul
  deriving DecidableEq

/-- what `define_api` (matvec_api.hpp l.99-118) defines -/
def mvDefined (cx : Bool) : Mv → Bool
  | .dot | .trans | .prod | .vmmul => true
  | .herm => cx
  | _ => false

/-- `getattr` on the module for the type -/
def mvFn (f : Mv) (k : K) : Out K :=
  (importModule .matvec (dtypeOf k)).bind fun m => if mvDefined m.cx f then .ret m else .raise .attr

/-- NumPy's type of the product of two numbers: 32-bit integers need double precision -/
def promote : K → K → K
  | .b, k | k, .b => k
  | .i, .i => .i
  | .i, .f | .i, .d | .f, .i | .d, .i => .d
  | .i, .cf | .i, .cd | .cf, .i | .cd, .i => .cd
  | .f, .f => .f
  | .f, .d | .d, .f | .d, .d => .d
  | .f, .cf | .cf, .f | .cf, .cf => .cf
  | .f, .cd | .cd, .f | .d, .cf | .cf, .d | .d, .cd | .cd, .d | .cf, .cd | .cd, .cf | .cd, .cd => .cd

/-- `dot(a, b)` of vectors (matvec.py l.17-29), equal types with equal sizes: for different types Python's `map` fills the shorter vector up with
`None`, and `reduce` wants at least one element -/
def dot (a b : View) : Out R :=
  if dtypeOf a.k = dtypeOf b.k then (mvFn .dot a.k).bind fun m => .ret (.scalar m)
  else if a.shape = b.shape ∧ a.shape ≠ [0] then .ret (.scalar (promote a.k b.k)) else .raise .type

/-- `trans(m)` (l.31-35, matvec_api.hpp l.28-37): the block is copied through an array -/
def transM (a : View) : Out R :=
  (mvFn .trans a.k).bind fun m => match a.shape with
    | [r, c] => newView (dtypeOf m) [c, r]
    | _ => .raise .type

/-- `herm(m)` (l.37-41) -/
def herm (a : View) : Out R :=
  (mvFn .herm a.k).bind fun m => match a.shape with
    | [r, c] => newView (dtypeOf m) [c, r]
    | _ => .raise .type

/-- `prod(v, w)` (l.66-85, matvec_api.hpp l.50-80): equal types by the three overloads, others through the undefined name `array` -/
def prod (ld : Loaded) (a b : View) : Out R :=
  if dtypeOf a.k = dtypeOf b.k then
    (mvFn .prod a.k).bind fun m => match a.shape, b.shape with
      | [n], [r, c] => if n = r then wrap ld m [c] else .bad
      | [r, c], [n] => if c = n then wrap ld m [r] else .bad
      | [r, c], [r', c'] => if c = r' then wrap ld m [r, c'] else .bad
      | _, _ => .raise .type
  else .raise .name

/-- `prodh`, `prodj`, `prodt` (l.87-124) -/
def prodx (f : Mv) (a b : View) : Out R :=
  if dtypeOf a.k = dtypeOf b.k then (mvFn f a.k).bind fun _ => .ret .none
  else (importModule .matvec (dtypeOf b.k)).bind fun _ => .raise .name

/-- `kron(alpha, v, w)` (l.43-53): for different types NumPy's product, without `alpha` -/
def kron (a b : View) : Out R :=
  if dtypeOf a.k = dtypeOf b.k then (mvFn .kron a.k).bind fun _ => .ret .none else .ret .array

/-- `outer(alpha, v, w)` (l.55-64) -/
def outer (a b : View) : Out R :=
  if dtypeOf a.k = dtypeOf b.k then (mvFn .outer a.k).bind fun _ => .ret .none else .ret .none

/-- `cvjdot`, `gemp`, `gems`, `cumsum` (l.11-15, 126-134, 147-150) -/
def passes : Out R := .ret .none

/-- `vmmul(axis, v, m)` (l.136-145, matvec_api.hpp l.82-95): the dimension, of two, along which `v` is taken to lie -/
def vmmul (ld : Loaded) (axis : Int) (v m : View) : Out (R × Nat) :=
  if dtypeOf v.k = dtypeOf m.k then
    (mvFn .vmmul v.k).bind fun k => match v.shape, m.shape with
      | [n], [r, c] =>
        if axis = 0 then (if n = c then (wrap ld k [r, c]).bind fun x => .ret (x, 0) else .bad)
        else (if n = r then (wrap ld k [r, c]).bind fun x => .ret (x, 1) else .bad)
      | _, _ => .raise .type
  else .ret (.none, 0)

/-! ### Solvers -/

/-- `lud(dtype, length)` (lud.py l.14-17): the module is `m`, the code says `mod` -/
def ludNew (d : D) : Out Unit := (importModule .lud d).bind fun _ => .raise .name

/-- `covsol(a, b)` (covsol.py l.11-18): `dtype` is not defined -/
def covsol (_a _b : View) : Out R := .raise .name

/-- `toepsol(a, b, w)` (toepsol.py l.24-32): `v` is not defined -/
def toepsol (_a _b : View) : Out R := .raise .name

/-- `chold(dtype, uplo, length)` (chold.py l.14-19): no Python object converts to `vsip::mat_uplo`, for which there is no `enum_` -/
def choldNew (d : D) : Out Unit := (importModule .chold d).bind fun _ => .raise .type

/-- `llsqsol(a, b)` (llsqsol.py l.11-17), sizes fitting -/
def llsqsol (a b : View) : Out R :=
  (importModule .llsqsol (dtypeOf a.k)).bind fun k => match a.shape, b.shape with
    | [r, c], [r', p] => if b.k = k ∧ r = r' then newView (dtypeOf b.k) [c, p] else .raise .type
    | _, _ => .raise .attr

inductive QSave where
  | nosave | saveq1 | saveq
  deriving DecidableEq

inductive Op where
  | ntrans | trans | herm | conj
  deriving DecidableEq

/-- `qrd(dtype, rows, cols, storage)` (qrd.py l.19-25) -/
structure Qrd where
  k : K
  rows : Nat
  cols : Nat
  s : QSave
  deriving DecidableEq

def qrdNew (d : D) (rows cols : Nat) (s : QSave) : Out Qrd := (importModule .qrd d).bind fun k => .ret ⟨k, rows, cols, s⟩

/-- the shape of the matrix `prodq` makes for the result (qrd.py l.31-44) -/
def prodqShape (q : Qrd) (op : Op) (left : Bool) (b : Nat × Nat) : Nat × Nat :=
  let shape := if q.s = .saveq1 then (q.rows, q.cols) else (q.rows, q.rows)
  let shape := if op = .trans ∨ op = .herm then (shape.2, shape.1) else shape
  if left then (shape.1, b.2) else (b.1, shape.2)

/-- `qrd.rsol(b, alpha)` (l.50-56): the C++ function also takes the operation -/
def rsol (_q : Qrd) (_b : View) : Out R := .raise .type

/-- `qrd.covsol(b)`, `qrd.lsqsol(b)` (l.58-72): shapes of the results -/
def qrdCovsolShape (_q : Qrd) (b : Nat × Nat) : Nat × Nat := b
def qrdLsqsolShape (q : Qrd) (b : Nat × Nat) : Nat × Nat := (q.cols, b.2)

/-- `svd(dtype, rows, cols, ustorage, vstorage)` (svd.py l.19-27) -/
structure Svd where
  k : K
  rows : Nat
  cols : Nat
  deriving DecidableEq

def svdNew (d : D) (rows cols : Nat) : Out Svd := (importModule .svd d).bind fun k => .ret ⟨k, rows, cols⟩

/-- `svd.decompose(m)` (l.29-35) -/
def svdDecompose (m : View) : Out R := match m.shape with
  | [r, c] => newView (dtypeOf m.k) [min r c]
  | _ => .raise .attr

/-- `svd.u(low, high)`, `svd.v(low, high)` (l.57-73), `low ≤ high + 1` -/
def svdU (s : Svd) (low high : Nat) : Nat × Nat := (s.rows, high + 1 - low)
def svdV (s : Svd) (low high : Nat) : Nat × Nat := (s.cols, high + 1 - low)

/-- `svd.produ`, `svd.prodv` (l.38-55): `_select_dim` has no `self` and is called with one (l.76, 84-85) -/
def svdProd (_s : Svd) (_b : View) : Out R := .raise .type

/-! ### Signal processing -/

/-- constructors of `conv`, `corr`, `fft`, `fftm`, `fir`, `iir`, functions `freqswap`, `clip`, `invclip`, windows and `rand`: the module -/
inductive Sig where
  | conv | corr | fft | fftm | fir | iir | freqswap | clip | window | rand
  deriving DecidableEq

/-- (conv.py l.16; corr.py l.11-24, fft.py l.12-25, fftm.py l.12-25, fir.py l.11-21, iir.py l.11-24, freqswap.py l.11-21, clip.py l.13, window.py,
random.py l.29-31) -/
def sigImport : Sig → D → Out K
  | .conv, d => importModule .conv d
  | .corr, d => ownImport .corr .bare d
  | .fft, d => ownImport .fft .bare d
  | .fftm, d => ownImport .fftm .tuple d
  | .fir, d => ownImport .fir .none d
  | .iir, d => ownImport .iir .tuple d
  | .freqswap, d => ownImport .freqswap .none d
  | .clip, d => importModule .clip d
  | .window, d => (importModule .block d).bind fun _ => importModule .window d
  | .rand, d => (importModule .block d).bind fun _ => importModule .rand d

/-- the module a signal processing class comes from -/
def Sig.mod : Sig → Mod
  | .conv => .conv
  | .corr => .corr
  | .fft => .fft
  | .fftm => .fftm
  | .fir => .fir
  | .iir => .iir
  | .freqswap => .freqswap
  | .clip => .clip
  | .window => .window
  | .rand => .rand

/-- `fft(…)(input)` without output (fft.py l.45-50, fft.hpp l.189-241): only the complex classes have the in-place operation -/
def fftInPlace (m : Sig) (d : D) : Out Unit :=
  (sigImport m d).bind fun k => if k.cx then .ret () else .raise .type

/-! ### Parallel blocks and conversions -/

/-- `block(array, map)` (parallel/block.py l.21-33): `dtype` is assigned only with three or four arguments -/
def parallelFromArray : Out R := .raise .name

/-- `block(dtype, shape, map)` -/
def parallelNew (d : D) (shape : List Nat) : Out R := (importModule .parallelBlock d).bind fun k => .ret (.view ⟨k, shape⟩)

/-- `block_mod<T>::import` (converter.hpp l.21-34) -/
def blockMod : K → K
  | .b => .i
  | .i => .b
  | k => k

/-- `vector_to_python<T>::convert` (l.38-54): the module is imported, then the block is made an object -/
def toPython (ld : Loaded) (k : K) (shape : List Nat) : Out R :=
  wrap (fun x => ld x || x == blockMod k) k shape

end Verif.Pym
