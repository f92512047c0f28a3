import Mathlib.Logic.Function.Basic
import Verif.Cv.Spec
import Verif.Domain.Model
import Verif.Signal.Model

/-!
# Model of the C-VSIPL back end

Sources: `/repo/src/ovxx/cvsip/{block,view,common,solver,lu,cholesky,qr,fir,conv,fft,matvec,reductions}.hpp` and `fft.cpp`.  The C library itself is not in the
repository; its functions are parameters or are given by the interface they document (views of blocks, status zero for success).  Memory is a function of the
address relative to the pointer passed, in elements.  Rounding is not modelled.
-/

namespace Verif.Cv

open Verif Verif.Sig

/-! ## Blocks and views (view.hpp) -/

/-- A view as the C library keeps it: number of elements of the block bound to the data, offset, stride, length. -/
structure CView where
  blk : ℕ
  off : ℕ
  s : ℤ
  n : ℕ
deriving DecidableEq, Repr

/-- `View<1, T>(data, size)` (view.hpp l.536-537, 562-565) -/
def mkView (size : ℕ) : CView := ⟨size, 0, 1, size⟩

/-- `View<1, T>(data, offset, stride, size)` (view.hpp l.538-541, 566-575): the block has `offset + (size - 1) * stride + 1` elements, computed in `size_t`. -/
def mkViewS (off : ℕ) (s : ℤ) (size : ℕ) : CView := ⟨toIdx (off + ((size : ℤ) - 1) * s + 1), off, s, size⟩

/-- `const_View<1, T>(data, offset, stride, size)` (view.hpp l.807-808, 823-829): the overload for split complex data (`split`) calls the constructor without offset
and stride. -/
def constView (split : Bool) (off : ℕ) (s : ℤ) (size : ℕ) : CView := if split then mkView size else mkViewS off s size

/-- The element `i` of a view of `mem`. -/
def CView.get {T : Type} (v : CView) (mem : ℤ → T) (i : ℕ) : T := mem (v.off + i * v.s)

/-- A matrix view. -/
structure CMView where
  blk : ℕ
  off : ℕ
  sr : ℤ
  r : ℕ
  sc : ℤ
  c : ℕ
deriving DecidableEq, Repr

/-- `View<2, T>(data, offset, s_r, rows, s_c, cols)` (view.hpp l.675-681, 709-722, 839-842, 857-866) -/
def mkMView (off : ℕ) (sr : ℤ) (r : ℕ) (sc : ℤ) (c : ℕ) : CMView := ⟨toIdx (off + ((r : ℤ) - 1) * sr + ((c : ℤ) - 1) * sc + 1), off, sr, r, sc, c⟩

/-- `View<2, T>(data, rows, cols, row_major)` (view.hpp l.671-674) -/
def mkMViewD (r c : ℕ) (rowMajor : Bool) : CMView := ⟨r * c, 0, if rowMajor then c else 1, r, if rowMajor then 1 else r, c⟩

def CMView.get {T : Type} (v : CMView) (mem : ℤ → T) (i j : ℕ) : T := mem (v.off + i * v.sr + j * v.sc)

/-! ## Ownership (block.hpp) -/

/-- What a program does with wrappers of one block of the library. -/
inductive BOp where
  | copy (i : ℕ)
  | drop (i : ℕ)
  | detach (i : ℕ)
deriving DecidableEq, Repr

/-- The wrappers with their `owner_` and how often the block was destroyed. -/
structure BSt where
  own : List Bool
  dead : ℕ
deriving DecidableEq, Repr

/-- `Block(Block const &)`, `~Block`, `detach` (block.hpp l.242-246, 263-270, 289-297) -/
def bstep (st : BSt) : BOp → BSt
  | .copy i => match st.own[i]? with
    | some o => ⟨st.own.set i false ++ [o], st.dead⟩
    | none => st
  | .drop i => match st.own[i]? with
    | some o => ⟨st.own.eraseIdx i, if o then st.dead + 1 else st.dead⟩
    | none => st
  | .detach i => ⟨st.own.set i false, st.dead⟩

/-- Objects of the library alive after `k` calls of a function that makes `v` views of user data: each constructor makes a block and a view (view.hpp l.536-541,
671-681), and no `View` class but those of `bool` has a destructor (l.506-585, 641-731). -/
def liveAfter (v k : ℕ) : ℕ := (List.range k).foldl (fun live _ => live + 2 * v) 0

/-! ## Enumerations (common.hpp) -/

inductive AlgHint where | time | space | noise deriving DecidableEq, Repr
inductive Supp4 where | full | same | min | minZeropad deriving DecidableEq, Repr
inductive Storage where | nosaveq | saveq1 | saveq deriving DecidableEq, Repr

/-- `hint` (common.hpp l.66-75) -/
def hint : AlgHint → AlgHint
  | .noise => .noise
  | .space => .time
  | .time => .space

/-- `support` (common.hpp l.35-44) -/
def support : Supp4 → Supp4
  | .same => .same
  | .min => .min
  | _ => .full

/-- `storage` (common.hpp l.77-85) -/
def storage : Storage → Storage
  | .nosaveq => .nosaveq
  | .saveq1 => .saveq1
  | .saveq => .saveq

/-- `mat_op` (common.hpp l.92-100) -/
def matOp : Spec.MatOp → Spec.MatOp
  | .ntrans => .ntrans
  | .trans => .trans
  | _ => .herm

/-! ## Products (matvec.hpp) -/

section
variable {T : Type} [Semiring T]

/-- `Evaluator<op::dot>` (matvec.hpp l.178-188): `vsip_vdot` of two views with offset 0; `split` tells the storage format of each argument. -/
def dot (splitA splitB : Bool) (a b : ℤ → T) (sa sb : ℤ) (n : ℕ) : T :=
  let va := constView splitA 0 sa n
  let vb := constView splitB 0 sb n
  ∑ i ∈ Finset.range n, va.get a i * vb.get b i

/-- `Evaluator<op::dot>` for a conjugated second argument (l.213-224): `vsip_cvjdot` -/
def dotj [Star T] (splitA splitB : Bool) (a b : ℤ → T) (sa sb : ℤ) (n : ℕ) : T :=
  let va := constView splitA 0 sa n
  let vb := constView splitB 0 sb n
  ∑ i ∈ Finset.range n, va.get a i * star (vb.get b i)

/-- Matrix-vector product of the library, `vsip_mvprod`: element `i` of the result. -/
def mvprod (va : CMView) (a : ℤ → T) (vx : CView) (x : ℤ → T) (i : ℕ) : T := ∑ j ∈ Finset.range va.c, va.get a i j * vx.get x j

/-- `Evaluator<op::prod>` for a vector and a matrix of `m` rows and `n` columns (l.294-310): the matrix view has rows and columns exchanged.  `x` is interleaved
unless `split`. -/
def prodVM (split : Bool) (x : ℤ → T) (sx : ℤ) (a : ℤ → T) (sr sc : ℤ) (m n : ℕ) (j : ℕ) : T := mvprod (mkMView 0 sc n sr m) a (constView split 0 sx m) x j

/-- `Evaluator<op::prod>` for a matrix and a vector (l.338-354) -/
def prodMV (split : Bool) (a : ℤ → T) (sr sc : ℤ) (m n : ℕ) (x : ℤ → T) (sx : ℤ) (i : ℕ) : T := mvprod (mkMView 0 sr m sc n) a (constView split 0 sx n) x i

/-- `Evaluator<op::prod>` for two matrices (l.380-397), `vsip_mprod` -/
def prodMM (a : ℤ → T) (ar ac : ℤ) (m n : ℕ) (b : ℤ → T) (br bc : ℤ) (k : ℕ) (i j : ℕ) : T :=
  let va := mkMView 0 ar m ac n
  let vb := mkMView 0 br n bc k
  ∑ l ∈ Finset.range va.c, va.get a i l * vb.get b l j
end

/-! ## Filters (fir.hpp) -/

/-- `in_offset` of `Fir::apply` (fir.hpp l.199, 201): for strides that are not positive `-stride * (length - 1) + 1` -/
def firOff (s : ℤ) (n : ℕ) : ℕ := if 0 < s then 0 else toIdx (-s * ((n : ℤ) - 1) + 1)

/-- The view of the input (l.200) or output (l.202). -/
def firView (s : ℤ) (n : ℕ) : CView := mkViewS (firOff s n) s n

/-! ## Transforms (fft.cpp) -/

section
variable {T U : Type}

/-- The library writes `m` elements through a view with offset `off` and stride `s`. -/
def writeRow (mem : ℤ → U) (off s : ℤ) (m : ℕ) (v : ℕ → U) : ℤ → U := (List.range m).foldl (fun mem (j : ℕ) => Function.update mem (off + j * s) (v j)) mem

/-- `Fft::out_of_place` (fft.cpp l.148-163, 184-199, 220-235): the view of the result of a transform of length `n`; both views have `length` elements, also for
transforms between real and complex data. -/
def fftOutView (s : ℤ) (n : ℕ) : CView := mkViewS 0 s n

/-- `Fftm::out_of_place` (fft.cpp l.324-397, 423-496, 522-595).  `axisRow` is `axis == 1`; `n` and `m` are the number of elements of a vector read and written
(equal for complex transforms, `length` and `length/2+1` for the others); `swapped` is the overload for split complex data, which passes `out_elem_stride` for the
input (l.393). -/
def fftmOut (swapped axisRow : Bool) (f : List T → ℕ → U) (n m : ℕ) (inR inC outR outC : ℤ) (rows cols : ℕ) (inp : ℤ → T) (out : ℤ → U) : ℤ → U :=
  let nfft := if axisRow then rows else cols
  let inV := if axisRow then inR else inC
  let inE := if axisRow then inC else inR
  let outV := if axisRow then outR else outC
  let outE := if axisRow then outC else outR
  let inE' := if swapped then outE else inE
  (List.range nfft).foldl (fun out (i : ℕ) => writeRow out (i * outV) outE m (f ((List.range n).map fun j : ℕ => inp (i * inV + j * inE')))) out

/-- `Fftm::in_place` (fft.cpp l.262-322): each vector is transformed into `output` and copied back. -/
def fftmIn (axisRow : Bool) (f : List T → ℕ → T) (sr sc : ℤ) (rows cols : ℕ) (mem : ℤ → T) : ℤ → T :=
  let nfft := if axisRow then rows else cols
  let v := if axisRow then sr else sc
  let e := if axisRow then sc else sr
  let len := if axisRow then cols else rows
  (List.range nfft).foldl (fun mem (i : ℕ) => writeRow mem (i * v) e len (f ((List.range len).map fun j : ℕ => mem (i * v + j * e)))) mem
end

/-! ## Convolution (conv.hpp) -/

section
variable {T : Type} [Semiring T]

/-- The inner loop of the corrections: `base` is `n*D`, plus half the kernel for `support_same` (conv.hpp l.252-265, 280-291, 305-313, 329-336).  `h` gives the
kernel, read from `coeffs_`. -/
def fixSum (h : ℕ → T) (K : ℕ) (inp : Vec T) (base : ℕ) : Option T :=
  loop K 0 fun sum k => if k ≤ base ∧ base - k < inp.n then (inp.get (base - k)).bind fun x => some (sum + h k * x) else some sum

/-- Correction of the last output for `support_same` (l.243-266: even symmetric; l.296-315: no symmetry).  `half` is added to `n*D`. -/
def fixSame (h : ℕ → T) (K half D : ℕ) (inp out : Vec T) : Option (Vec T) :=
  let n := toIdx ((out.n : ℤ) - 1)
  (fixSum h K inp (n * D + half)).bind fun s => out.put n s

/-- Correction of the last `cnt` outputs for `support_full` (l.268-294 with `cnt = coeff_size`; l.317-339 with `(coeff_size+1)/2`); `out.size()-1-i` is `size_t` -/
def fixFull (h : ℕ → T) (K cnt D : ℕ) (inp out : Vec T) : Option (Vec T) :=
  loop cnt out fun out i =>
    let n := toIdx ((out.n : ℤ) - 1 - i)
    (fixSum h K inp (n * D)).bind fun s => out.put n s

/-- The kernel as the corrections read it from the `M` coefficients (l.256-261, 283-288) -/
def readEven (c : ℕ → T) (M k : ℕ) : T := if k < M then c k else c (2 * M - k - 1)
end

/-! ## Solvers (lu.hpp, cholesky.hpp, qr.hpp, solver.hpp) -/

/-- What the library keeps for a solver. -/
inductive Hd (F : Type) where
  /-- created and never given a matrix -/
  | fresh
  /-- the decomposition failed -/
  | failed
  | ok (f : F)

/-- The functions of the library: decomposition and solution; `none` stands for a status other than zero. -/
structure Lib (M B F : Type) where
  dec : M → Option F
  sol : F → Spec.MatOp → B → Option B

/-- `lu_solver`, `chold`, `qrd`: the copy of the matrix, `data_`, and the object of the library. -/
structure Solver (M F : Type) where
  data : Option M
  hd : Hd F

section
variable {M B F : Type}

/-- constructor (lu.hpp l.32-37, cholesky.hpp l.34-40, qr.hpp l.41-51) -/
def Solver.new : Solver M F := ⟨none, .fresh⟩

/-- copy constructor (lu.hpp l.38-43, cholesky.hpp l.42-48, qr.hpp l.52-61): `data_` is copied, the object of the library is created anew -/
def Solver.copy (s : Solver M F) : Solver M F := ⟨s.data, .fresh⟩

/-- `decompose` (lu.hpp l.48-58, cholesky.hpp l.55-64): the status is returned -/
def Solver.decompose (lib : Lib M B F) (_s : Solver M F) (m : M) : Bool × Solver M F :=
  match lib.dec m with
  | some f => (true, ⟨some m, .ok f⟩)
  | none => (false, ⟨some m, .failed⟩)

/-- `qrd::decompose` (qr.hpp l.69-79): `true` whatever the status -/
def Solver.decomposeQr (lib : Lib M B F) (s : Solver M F) (m : M) : Bool × Solver M F := (true, (s.decompose lib m).2)

/-- The library function that solves in place: the right sides are left as they are unless it succeeds. -/
def libSolve (lib : Lib M B F) (h : Hd F) (op : Spec.MatOp) (b : B) : B :=
  match h with
  | .ok f => (lib.sol f op b).getD b
  | _ => b

/-- `lu_solver::solve` (lu.hpp l.60-92): `none` is the exception `unimplemented`; otherwise `true` and the contents of `x` -/
def Solver.solveLu (lib : Lib M B F) (isComplex : Bool) (s : Solver M F) (tr : Spec.MatOp) (b : B) : Option (Bool × B) :=
  if tr = .conj ∨ (tr = .trans ∧ isComplex = true) ∨ (tr = .herm ∧ isComplex = false) then none
  else some (true, libSolve lib s.hd (matOp tr) b)

/-- `chold::solve` (cholesky.hpp l.67-92) -/
def Solver.solveChol (lib : Lib M B F) (s : Solver M F) (b : B) : Bool × B := (true, libSolve lib s.hd .ntrans b)
end

/-- What `qrd::prodq` requires and does with sizes (qr.hpp l.118-179): `q_rows`, `q_cols` after the exchanges of l.141-148. -/
def prodqSize (st : Storage) (tr : Spec.MatOp) (m n : ℕ) : ℕ × ℕ :=
  let q := if st = .saveq1 then (m, n) else (m, m)
  let q := if tr = .trans ∨ tr = .herm then (q.2, q.1) else q
  if tr = .herm then (q.2, q.1) else q

/-- The preconditions (l.151-162): sizes of `b` and `x` -/
def prodqPre (st : Storage) (tr : Spec.MatOp) (left : Bool) (m n : ℕ) (b x : ℕ × ℕ) : Prop :=
  let q := prodqSize st tr m n
  if left then b.1 = q.2 ∧ x.1 = q.1 ∧ b.2 = x.2 else b.2 = q.1 ∧ x.2 = q.2 ∧ b.1 = x.1

instance (st : Storage) (tr : Spec.MatOp) (left : Bool) (m n : ℕ) (b x : ℕ × ℕ) : Decidable (prodqPre st tr left m n b x) := by
  unfold prodqPre; dsimp only; split <;> infer_instance

/-- The part of `b_int` (of the size of `b`) that is copied to `x` (l.164, 177): inside, or outside of `b_int`. -/
def prodqInside (b x : ℕ × ℕ) : Prop := x.1 ≤ b.1 ∧ x.2 ≤ b.2

/-- What `prodq` returns for the status of the library (l.173, 178) -/
def prodqRet (status : ℕ) : Bool := status != 0

end Verif.Cv
