import Verif.Fftw.Spec
import Verif.Dda.Props

/-!
# The FFTW back end and the FFT workspace

Model of `src/ovxx/fftw/fft.cpp`, `src/ovxx/fftw/fftw.cpp` (the planners, the transforms `fft<1|2|3, ...>` and the row/column transforms `fftm`),
of the run-time access to blocks they get their arrays from (`src/ovxx/dda/accessor.hpp` l.118-194 and 619-700) and of
`src/ovxx/signal/fft/workspace.hpp` l.398-545.

FFTW itself is not modelled: a plan is a record of the arguments of the planning call, and `Lib` is what the FFTW manual promises about executing
it on arrays other than those it was planned for ("New-array Execute Functions", "Guru Interface").  All theorems hold for every `Lib`.

Simplifications.
* Values are complex numbers: no rounding.  Real arrays hold complex numbers with imaginary part 0.
* The complex storage format is interleaved, except in the section on split storage.
* Memory of a block or buffer is a total map from element offsets to values; the arrays of one call are separate memories.
* Requested layouts are `dense` or `aligned`, the only ones these back ends ask for.
-/

namespace Verif.Fftw
open Verif Lay Dda Verif.Props

variable {D : ℕ}

/-! ## Plans -/

/-- Conversion of an unsigned 64 bit or signed 64 bit value to `int`, the type of the fields of `fftw_iodim`. -/
def int32 (n : ℕ) : ℤ := ((n : ℤ) + 2 ^ 31) % 2 ^ 32 - 2 ^ 31

/-- The planner flags `FFTW_ESTIMATE`, `FFTW_MEASURE`, `FFTW_PATIENT`. -/
inductive Rigor | estimate | measure | patient
  deriving DecidableEq

/-- `rigor`, fft.cpp l.44-52, in 32 bit unsigned arithmetic. -/
def rigor (number : ℕ) : Rigor :=
  if (number + (2 ^ 32 - 1)) % 2 ^ 32 > 30 then .patient
  else if (number + (2 ^ 32 - 1)) % 2 ^ 32 > 10 then .measure
  else .estimate

/-- The flags of a plan. -/
structure Flags where
  rigor : Rigor
  preserve : Bool
  unaligned : Bool

/-- `make_flags<T>(Domain<1>, NoT, preserve)`, fft.cpp l.54-69; `al` is `OVXX_ALLOC_ALIGNMENT`, `elem` is `sizeof(T)`. -/
def flags1 (al elem n number : ℕ) (preserve : Bool) : Flags where
  rigor := rigor number
  preserve := preserve
  unaligned := decide (al % elem ≠ 0 ∨ w (elem * n) % al ≠ 0)

/-- `make_flags(NoT, preserve)`, fft.cpp l.71-78. -/
def flagsN (number : ℕ) (preserve : Bool) : Flags := ⟨rigor number, preserve, true⟩

/-- What is planned. -/
inductive Kind | c2c (sgn : ℤ) | r2c | c2r
  deriving DecidableEq

/-- `exponent<complex, complex, S>`, signal/fft/util.hpp l.48-51. -/
def exponent : Dir → ℤ
  | .fwd => -1
  | .inv => 1

/-- The arguments of `plan_guru_dft`, `plan_guru_dft_r2c`, `plan_guru_dft_c2r`: sizes, input and output strides, flags. -/
structure Plan (D : ℕ) where
  kind : Kind
  n : Fin D → ℤ
  is : Fin D → ℤ
  os : Fin D → ℤ
  preserve : Bool
  unaligned : Bool

/-- `Applied_layout<Rt_layout<D> >` (C21). -/
def applied : (D : ℕ) → RtLayout D → (Fin D → ℕ) → ℕ → App D
  | 1 => rt1
  | 2 => rt2
  | 3 => rt3
  | _ => fun _ s _ => ⟨s, fun _ => 0, fun _ => 0, 0⟩

/-- `turn`, fft.cpp l.27-40. -/
def turn : {D : ℕ} → ℕ → (Fin D → ℕ) → Fin D → ℕ
  | 2, A, s => if A = 1 then s else ![s 1, s 0]
  | 3, A, s => if A = 2 then s else if A = 1 then ![s 0, s 2, s 1] else ![s 2, s 1, s 0]
  | _, _, s => s

/-- `FFTW(iosize)`, fftw.cpp l.35-37, by `io_size` (util.hpp l.67-77): the last dimension is halved. -/
def iosize : {D : ℕ} → (Fin D → ℕ) → Fin D → ℕ
  | 0, s => s
  | D + 1, s => Function.update s (Fin.last D) (s (Fin.last D) / 2 + 1)

/-- The run-time layout the planners use, fftw.cpp l.46-48, 132-143, 214-225. -/
def planLayout (al : ℕ) (unaligned : Bool) : RtLayout D := ⟨if unaligned then .dense else .aligned, id, al⟩

/-- The plan of `planner<D, complex, complex>`, fftw.cpp l.42-96; `sc` is `sizeof(SCALAR_TYPE)`.  The in place plan has the same arguments. -/
def planC2C (al sc : ℕ) (s : Fin D → ℕ) (sgn : ℤ) (f : Flags) : Plan D :=
  let l := applied D (planLayout al f.unaligned) s sc
  ⟨.c2c sgn, fun i => int32 (l.size i), fun i => int32 (l.stride i), fun i => int32 (l.stride i), f.preserve, f.unaligned⟩

/-- The plan of `planner<D, SCALAR_TYPE, complex>`, fftw.cpp l.121-189. -/
def planR2C (al sc : ℕ) (s : Fin D → ℕ) (A : ℕ) (f : Flags) : Plan D :=
  let dom := turn A s
  let li := applied D (planLayout al f.unaligned) dom sc
  let lo := applied D (planLayout al f.unaligned) (iosize dom) sc
  ⟨.r2c, fun i => int32 (li.size i), fun i => int32 (li.stride i), fun i => int32 (lo.stride i), f.preserve, f.unaligned⟩

/-- The plan of `planner<D, complex, SCALAR_TYPE>`, fftw.cpp l.203-271. -/
def planC2R (al sc : ℕ) (s : Fin D → ℕ) (A : ℕ) (f : Flags) : Plan D :=
  let dom := turn A s
  let li := applied D (planLayout al f.unaligned) (iosize dom) sc
  let lo := applied D (planLayout al f.unaligned) dom sc
  ⟨.c2r, fun i => int32 (lo.size i), fun i => int32 (li.stride i), fun i => int32 (lo.stride i), f.preserve, f.unaligned⟩

/-- The number of elements of the planners' buffers, for an array of sizes `s` and `mult` lines (l.49-59, 144-165, 226-247). -/
def bufSize (al sc : ℕ) (unaligned : Bool) (s : Fin D → ℕ) (s0 mult : ℕ) : ℕ :=
  if mult > 1 then (applied 2 (planLayout al unaligned) ![mult, s0] sc).total else (applied D (planLayout al unaligned) s sc).total

/-! ## FFTW -/

/-- The offset of an element. -/
def addr (st : Fin D → ℤ) (i : Fin D → ℕ) : ℤ := ∑ d, (i d : ℤ) * st d

/-- The sizes of a plan. -/
def Plan.size (p : Plan D) : Fin D → ℕ := fun d => (p.n d).toNat

/-- The sizes of the output array of a plan. -/
def Plan.outSize (p : Plan D) : Fin D → ℕ := match p.kind with
  | .r2c => iosize p.size
  | _ => p.size

/-- A plan that can be made: positive sizes, no two elements of the output array at the same place. -/
structure Plan.Ok (p : Plan D) : Prop where
  pos : ∀ d, 0 < p.n d
  inj : ∀ k k', Box p.outSize k → Box p.outSize k' → addr p.os k = addr p.os k' → k = k'

/-- What FFTW promises.  `simd` is the alignment in bytes that matters to FFTW: unless a plan was made with `FFTW_UNALIGNED` it may be executed
only on arrays aligned like those it was planned for, which the planners here align to 32 bytes.  Pointers are byte addresses. -/
structure Lib (simd : ℤ) where
  /-- `execute_dft`, `execute_dft_r2c`, `execute_dft_c2r`: the input and output arrays afterwards -/
  exec : {D : ℕ} → Plan D → (pin pout : ℤ) → (m out : ℤ → ℂ) → (ℤ → ℂ) × (ℤ → ℂ)
  /-- `execute_dft` with the in place plan -/
  execIp : {D : ℕ} → Plan D → (p : ℤ) → (m : ℤ → ℂ) → ℤ → ℂ
  /-- complex transforms -/
  c2c : ∀ {D : ℕ} (p : Plan D) (sgn pin pout : ℤ) (m out : ℤ → ℂ), p.kind = .c2c sgn → p.Ok →
    (p.unaligned = false → simd ∣ pin ∧ simd ∣ pout) → ∀ k, Box p.size k →
    (exec p pin pout m out).2 (addr p.os k) = dft p.size sgn (fun j => m (addr p.is j)) k
  /-- complex transforms in place; only elements of the array are written -/
  ip : ∀ {D : ℕ} (p : Plan D) (sgn ptr : ℤ) (m : ℤ → ℂ), p.kind = .c2c sgn → p.Ok → p.is = p.os → (p.unaligned = false → simd ∣ ptr) →
    (∀ k, Box p.size k → execIp p ptr m (addr p.os k) = dft p.size sgn (fun j => m (addr p.is j)) k) ∧
    ∀ a, (∀ k, Box p.size k → addr p.os k ≠ a) → execIp p ptr m a = m a
  /-- real to complex: half of the forward transform -/
  r2c : ∀ {D : ℕ} (p : Plan D) (pin pout : ℤ) (m out : ℤ → ℂ), p.kind = .r2c → p.Ok →
    (p.unaligned = false → simd ∣ pin ∧ simd ∣ pout) → ∀ k, Box p.outSize k →
    (exec p pin pout m out).2 (addr p.os k) = dft p.size (-1) (fun j => ((m (addr p.is j)).re : ℂ)) k
  /-- complex to real: the inverse transform of the Hermitian spectrum of which half is given -/
  c2r : ∀ {D : ℕ} (p : Plan D) (pin pout : ℤ) (m out : ℤ → ℂ) (X : (Fin D → ℕ) → ℂ), p.kind = .c2r → p.Ok →
    (p.unaligned = false → simd ∣ pin ∧ simd ∣ pout) → Herm p.size X → (∀ k, Box (iosize p.size) k → m (addr p.is k) = X k) →
    ∀ j, Box p.size j → (exec p pin pout m out).2 (addr p.os j) = dft p.size 1 X j
  /-- nothing but elements of the output array is written to it -/
  frame : ∀ {D : ℕ} (p : Plan D) (pin pout : ℤ) (m out : ℤ → ℂ) (a : ℤ), (∀ k, Box p.outSize k → addr p.os k ≠ a) →
    (exec p pin pout m out).2 a = out a
  /-- the input is preserved if asked for, and without asking by all but complex to real transforms -/
  keep : ∀ {D : ℕ} (p : Plan D) (pin pout : ℤ) (m out : ℤ → ℂ), p.preserve = true ∨ p.kind ≠ .c2r → (exec p pin pout m out).1 = m

/-! ## Access to blocks -/

/-- Memory of a block that can be accessed directly. -/
structure Store (D : ℕ) where
  /-- byte address of the first element -/
  ptr : ℕ
  stride : Fin D → ℤ
  order : Fin D → Fin D
  mem : ℤ → ℂ

/-- A block: its sizes, the size of an element in bytes, its memory if it has any, else its values. -/
structure Blk (D : ℕ) where
  size : Fin D → ℕ
  elem : ℕ
  store : Option (Store D)
  val : (Fin D → ℕ) → ℂ

/-- `get(block, i)`. -/
def Blk.get (b : Blk D) (i : Fin D → ℕ) : ℂ := match b.store with
  | some s => s.mem (addr s.stride i)
  | none => b.val i

/-- `is_compatible(block, rtl)`, accessor.hpp l.118-194, for the packings `dense` and `aligned`. -/
def compat : (D : ℕ) → RtLayout D → (size : Fin D → ℕ) → (elem ptr : ℕ) → (stride : Fin D → ℤ) → (order : Fin D → Fin D) → Bool
  | 1, l, _, _, ptr, st, _ =>
    if l.packing = .dense then compatDense1 st else if ptr % l.alignment ≠ 0 then false else st 0 == 1
  | 2, l, s, e, ptr, st, o =>
    if l.packing = .dense then compatDense2 (o 0) (o 1) (l.order 0) (l.order 1) s st
    else if (o 0, o 1) ≠ (l.order 0, l.order 1) then false else compatAligned2 (o 0) (o 1) l.alignment e ptr st
  | 3, l, s, e, ptr, st, o =>
    if l.packing = .dense then compatDense3 (o 0) (o 1) (o 2) (l.order 0) (l.order 1) (l.order 2) s st
    else if (o 0, o 1, o 2) ≠ (l.order 0, l.order 1, l.order 2) then false
    else compatAligned3 (o 0) (o 1) (o 2) l.alignment e ptr st
  | _, _, _, _, _, _, _ => false

/-- The indices the copying loops visit (C05). -/
noncomputable def visited (s : Fin D → ℕ) : List (Fin D → ℕ) :=
  open Classical in if h : ∃ L, Visits s L then h.choose else []

/-- What an `Rt_data` object hands out: a pointer, strides, and the memory behind the pointer. -/
structure Arr (D : ℕ) where
  direct : Bool
  ptr : ℤ
  stride : Fin D → ℤ
  mem : ℤ → ℂ

/-- A buffer: its address and its contents. -/
structure Buf where
  ptr : ℕ
  mem : ℕ → ℂ

/-- `use_direct_`, accessor.hpp l.644 and 656; blocks without memory are always copied (l.728-746). -/
def direct (l : RtLayout D) (force : Bool) (b : Blk D) : Bool := match b.store with
  | some s => !force && compat D l b.size b.elem s.ptr s.stride s.order
  | none => false

/-- The memory of the block, for direct access. -/
def Blk.arr (b : Blk D) : Arr D := match b.store with
  | some s => ⟨true, s.ptr, s.stride, s.mem⟩
  | none => ⟨true, 0, fun _ => 0, fun _ => 0⟩

/-- Construction of `Rt_data<B, dda::in>` or `dda::inout` (runtime.hpp, accessor.hpp l.641-676). -/
noncomputable def accessIn (l : RtLayout D) (force : Bool) (buf : Buf) (b : Blk D) : Arr D :=
  if direct l force b then b.arr
  else
    let a := applied D l b.size b.elem
    ⟨false, buf.ptr, fun d => a.stride d, fun o => copyToBuffer a b.get buf.mem (visited b.size) o.toNat⟩

/-- Construction of `Rt_data<B, dda::out>`: nothing is copied. -/
def accessOut (l : RtLayout D) (buf : Buf) (b : Blk D) : Arr D :=
  if direct l false b then b.arr
  else ⟨false, buf.ptr, fun d => (applied D l b.size b.elem).stride d, fun o => buf.mem o.toNat⟩

/-- The values of the block when the accessor is gone and the memory it handed out has become `m`; `sync` is `S & out`. -/
noncomputable def release (l : RtLayout D) (sync : Bool) (a : Arr D) (m : ℤ → ℂ) (b : Blk D) : (Fin D → ℕ) → ℂ :=
  if a.direct then fun i => m (addr a.stride i)
  else if sync then copyToBlock (applied D l b.size b.elem) b.get (fun o => m o) (visited b.size)
  else b.get

/-! ## The transforms -/

/-- What a back end provides: its plan, the layouts it asks for, whether it needs a copy of the input, the sizes of its buffers. -/
structure Backend (D : ℕ) where
  plan : Plan D
  inLay : RtLayout D
  outLay : RtLayout D
  copies : Bool
  inBuf : ℕ
  outBuf : ℕ

/-- The dimension order a real transform asks for, fftw.cpp l.532-533, 577-578, 698-703, 745-750. -/
def order : {D : ℕ} → ℕ → Fin D → Fin D
  | 2, A => if A = 0 then ![1, 0] else id
  | 3, A => if A = 0 then ![2, 1, 0] else if A = 1 then ![0, 2, 1] else id
  | _, _ => id

/-- `query_layout`. -/
def query (al : ℕ) (unaligned : Bool) (o : Fin D → Fin D) : RtLayout D := ⟨if unaligned then .dense else .aligned, o, al⟩

/-- The flags of a transform, by dimension: l.296, 367, 409 against 450, 526, 571, 615, 692, 739. -/
def flagsFor (D al elem n number : ℕ) (preserve : Bool) : Flags := if D = 1 then flags1 al elem n number true else flagsN number preserve

/-- `fft<D, complex, complex, S>`, fftw.cpp l.284-352, 438-511, 603-677. -/
def fftC2C (al sc number : ℕ) (S : Dir) (s : Fin (D + 1) → ℕ) : Backend (D + 1) :=
  let f := flagsFor (D + 1) al (2 * sc) (s 0) number true
  ⟨planC2C al sc s (exponent S) f, query al f.unaligned id, query al f.unaligned id, false, bufSize al sc f.unaligned s (s 0) 1, bufSize al sc f.unaligned s (s 0) 1⟩

/-- `fft<D, SCALAR_TYPE, complex, A>`, fftw.cpp l.356-394, 515-556, 681-724. -/
def fftR2C (al sc number A : ℕ) (s : Fin (D + 1) → ℕ) : Backend (D + 1) :=
  let f := flagsFor (D + 1) al sc (s 0) number true
  ⟨planR2C al sc s A f, query al f.unaligned (order A), query al f.unaligned (order A), false,
    bufSize al sc f.unaligned (turn A s) (turn A s 0) 1, bufSize al sc f.unaligned (iosize (turn A s)) (turn A s 0) 1⟩

/-- `fft<D, complex, SCALAR_TYPE, A>`, fftw.cpp l.398-434, 560-599, 728-773; in one dimension the input is preserved, in more it is copied. -/
def fftC2R (al sc number A : ℕ) (s : Fin (D + 1) → ℕ) : Backend (D + 1) :=
  let f := flagsFor (D + 1) al sc (s 0) number false
  ⟨planC2R al sc s A f, query al f.unaligned (order A), query al f.unaligned (order A), decide (D + 1 ≠ 1),
    bufSize al sc f.unaligned (iosize (turn A s)) (turn A s 0) 1, bufSize al sc f.unaligned (turn A s) (turn A s 0) 1⟩

/-- `if (scale_ != scalar_type(1.)) view *= scale_;`, workspace.hpp l.420-424; no back end here scales by itself. -/
noncomputable def scaled (scale : ℝ) (v : (Fin D → ℕ) → ℂ) : (Fin D → ℕ) → ℂ := open Classical in if scale ≠ 1 then fun i => v i * scale else v

/-- `workspace::out_of_place`, workspace.hpp l.408-425: the values of the input and output blocks afterwards. -/
noncomputable def outOfPlace {simd : ℤ} (F : Lib simd) (be : Backend D) (scale : ℝ) (bi bo : Blk D) (ibuf obuf : Buf) :
    ((Fin D → ℕ) → ℂ) × ((Fin D → ℕ) → ℂ) :=
  let a := accessIn be.inLay be.copies ibuf bi
  let o := accessOut be.outLay obuf bo
  let r := F.exec be.plan a.ptr o.ptr a.mem o.mem
  (release be.inLay false a r.1 bi, scaled scale (release be.outLay true o r.2 bo))

/-- `workspace::in_place`, workspace.hpp l.427-441. -/
noncomputable def inPlace {simd : ℤ} (F : Lib simd) (be : Backend D) (scale : ℝ) (b : Blk D) (buf : Buf) : (Fin D → ℕ) → ℂ :=
  let a := accessIn be.inLay false buf b
  scaled scale (release be.inLay true a (F.execIp be.plan a.ptr a.mem) b)

/-! ## Rows or columns -/

/-- `fftm`: a plan for one line, layouts for matrices. -/
structure BackendM where
  plan : Plan 1
  axis : Fin 2
  lay : RtLayout 2
  inBuf : ℕ
  outBuf : ℕ

/-- `query_layout` of `fftm`, fftw.cpp l.794-803, 860-869, 920-932. -/
def queryM (al : ℕ) (unaligned : Bool) (axis : Fin 2) : RtLayout 2 := ⟨if unaligned then .dense else .aligned, if axis = 0 then ![1, 0] else id, al⟩

/-- `fftm<complex, complex, A, D>`, fftw.cpp l.904-919; `s` are the sizes of the matrix, `axis` is the dimension that is transformed. -/
def fftmC2C (al sc number : ℕ) (S : Dir) (axis : Fin 2) (s : Fin 2 → ℕ) : BackendM :=
  let f := flags1 al (2 * sc) (s axis) number true
  ⟨planC2C al sc ![s axis] (exponent S) f, axis, queryM al f.unaligned axis,
    bufSize al sc f.unaligned ![s axis] (s axis) (s (1 - axis)), bufSize al sc f.unaligned ![s axis] (s axis) (s (1 - axis))⟩

/-- `fftm<SCALAR_TYPE, complex, A, fft_fwd>`, fftw.cpp l.777-792. -/
def fftmR2C (al sc number : ℕ) (axis : Fin 2) (s : Fin 2 → ℕ) : BackendM :=
  let f := flags1 al sc (s axis) number false
  ⟨planR2C al sc ![s axis] 0 f, axis, queryM al f.unaligned axis,
    bufSize al sc f.unaligned ![s axis] (s axis) (s (1 - axis)), bufSize al sc f.unaligned (iosize ![s axis]) (s axis / 2 + 1) (s (1 - axis))⟩

/-- `fftm<complex, SCALAR_TYPE, A, fft_inv>`, fftw.cpp l.844-859. -/
def fftmC2R (al sc number : ℕ) (axis : Fin 2) (s : Fin 2 → ℕ) : BackendM :=
  let f := flags1 al sc (s axis) number true
  ⟨planC2R al sc ![s axis] 0 f, axis, queryM al f.unaligned axis,
    bufSize al sc f.unaligned (iosize ![s axis]) (s axis / 2 + 1) (s (1 - axis)), bufSize al sc f.unaligned ![s axis] (s axis) (s (1 - axis))⟩

/-- Memory seen from `o` elements further on. -/
def shift (o : ℤ) (m : ℤ → ℂ) : ℤ → ℂ := fun a => m (o + a)

/-- The loop over the lines, fftw.cpp l.806-820, 872-885, 965-977: the plan is executed on each line in turn. -/
def lines {simd : ℤ} (F : Lib simd) (p : Plan 1) (pin pout ie oe is os : ℤ) : ℕ → (ℤ → ℂ) × (ℤ → ℂ) → (ℤ → ℂ) × (ℤ → ℂ)
  | 0, mo => mo
  | i + 1, mo =>
    let mo := lines F p pin pout ie oe is os i mo
    let r := F.exec p (pin + i * is * ie) (pout + i * os * oe) (shift (i * is) mo.1) (shift (i * os) mo.2)
    (shift (-(i * is)) r.1, shift (-(i * os)) r.2)

/-- The loop over the lines in place, l.935-945. -/
def linesIp {simd : ℤ} (F : Lib simd) (p : Plan 1) (ptr e st : ℤ) : ℕ → (ℤ → ℂ) → ℤ → ℂ
  | 0, m => m
  | i + 1, m =>
    let m := linesIp F p ptr e st i m
    shift (-(i * st)) (F.execIp p (ptr + i * st * e) (shift (i * st) m))

/-- `workspace<2>::out_of_place` with an `fftm` back end; the number of lines is that of the block at hand (`rows` and `cols` are the sizes of the
input, or of the output for complex to real transforms; across the lines they are the same). -/
noncomputable def outOfPlaceM {simd : ℤ} (F : Lib simd) (be : BackendM) (scale : ℝ) (bi bo : Blk 2) (ibuf obuf : Buf) :
    ((Fin 2 → ℕ) → ℂ) × ((Fin 2 → ℕ) → ℂ) :=
  let a := accessIn be.lay false ibuf bi
  let o := accessOut be.lay obuf bo
  let r := lines F be.plan a.ptr o.ptr bi.elem bo.elem (a.stride (1 - be.axis)) (o.stride (1 - be.axis)) (bi.size (1 - be.axis)) (a.mem, o.mem)
  (release be.lay false a r.1 bi, scaled scale (release be.lay true o r.2 bo))

/-- `workspace<2>::in_place` with an `fftm` back end. -/
noncomputable def inPlaceM {simd : ℤ} (F : Lib simd) (be : BackendM) (scale : ℝ) (b : Blk 2) (buf : Buf) : (Fin 2 → ℕ) → ℂ :=
  let a := accessIn be.lay false buf b
  scaled scale (release be.lay true a (linesIp F be.plan a.ptr b.elem (a.stride (1 - be.axis)) (b.size (1 - be.axis)) a.mem) b)

/-! ## Split storage -/

/-- A pointer to real parts and a pointer to imaginary parts, counted in scalars. -/
structure SplitPtr where
  re : ℤ
  im : ℤ

/-- `array_cast<split_complex>` of a buffer of `n` complex numbers, aligned_array.hpp l.184-188. -/
def splitBuffer (p : ℤ) (n : ℕ) : SplitPtr := ⟨p, p + n⟩

/-- The input (or output) array passed to `execute_split_dft`, fftw.cpp l.318-351, 946-964, 995-1000: plans are always forward, the inverse swaps. -/
def splitArgs (S : Dir) (z : SplitPtr) : SplitPtr := if S = .fwd then z else ⟨z.im, z.re⟩

/-- `ii - ri`. -/
def SplitPtr.sep (z : SplitPtr) : ℤ := z.im - z.re

/-- The byte address of the real part of row `r` of a matrix of `n` columns that is copied to an aligned buffer of split storage at `ptr`; the
stride is that of complex elements (accessor.hpp, `Applied_layout` with `sizeof(complex)`), the pointers are to scalars. -/
def splitRow (al sc : ℕ) (un : Bool) (ptr n r : ℕ) : ℕ := ptr + r * rtAdjust (queryM al un 1) (2 * sc) n * sc

/-- Real and imaginary part exchanged. -/
noncomputable def exch (z : ℂ) : ℂ := ⟨z.im, z.re⟩

end Verif.Fftw
