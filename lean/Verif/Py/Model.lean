import Verif.Py.Spec
import Verif.Layout.Model
import Mathlib.Logic.Function.Basic
import Mathlib.Data.Fin.VecNotation

/-!
# The Python front end: blocks, slices, subviews

Model of `ovxx::python::Block` (`src/ovxx/python/block.hpp`), of the functions exported to Python by `python/src/block_api.hpp`, and of the Python classes in
`python/src/vector.py`, `matrix.py`, `_block.py` and `selgen/selection.py`.

`PySlice_GetIndicesEx` is part of the Python interpreter; `getIndices` repeats its published definition.  Storage is a map from addresses to values.  Device
buffers, distributed blocks and the conversion of element types are left out.
-/

namespace Verif.Py

open Verif (Dom toIdx toSigned FitsSigned)

/-- `bad` is undefined behaviour or a failing assertion, `exc` a Python exception. -/
inductive Out (α : Type) where
  | val (a : α)
  | exc
  | bad
  deriving DecidableEq

namespace Out
variable {α β : Type}

def map (f : α → β) : Out α → Out β
  | val a => val (f a)
  | exc => exc
  | bad => bad

def bind : Out α → (α → Out β) → Out β
  | val a, f => f a
  | exc, _ => exc
  | bad, _ => bad

end Out

/-! ## Slices -/

/-- The clamping of a given start or stop in `PySlice_GetIndicesEx` (Python 2.7 and 3, `Objects/sliceobject.c`). -/
def clamp (step : ℤ) (n : ℕ) (i : ℤ) : ℤ :=
  let i := if i < 0 then i + n else i
  let i := if i < 0 then (if step < 0 then -1 else 0) else i
  if (n : ℤ) ≤ i then (if step < 0 then (n : ℤ) - 1 else n) else i

/-- The start; the default is the first element, or the last for a negative step. -/
def startOf (step : ℤ) (n : ℕ) : Option ℤ → ℤ
  | none => if step < 0 then (n : ℤ) - 1 else 0
  | some i => clamp step n i

/-- The stop. -/
def stopOf (step : ℤ) (n : ℕ) : Option ℤ → ℤ
  | none => if step < 0 then -1 else (n : ℤ)
  | some i => clamp step n i

/-- The length.  For a negative step the source divides `stop - start + 1` by `step`, which is the same quotient. -/
def lenOf (start stop step : ℤ) : ℕ :=
  (if (step < 0 ∧ start ≤ stop) ∨ (0 < step ∧ stop ≤ start) then 0
    else if step < 0 then (start - stop - 1) / -step + 1
    else (stop - start - 1) / step + 1).toNat

/-- `PySlice_GetIndicesEx`: start, step and length; `none` when the step is zero, in which case it sets an error, returns -1 and leaves its results alone. -/
def getIndices (s : Slice) (n : ℕ) : Option (ℤ × ℤ × ℕ) :=
  let step := s.step.getD 1
  if step = 0 then none
  else some (startOf step n s.start, step, lenOf (startOf step n s.start) (stopOf step n s.stop) step)

/-- `slice_to_domain`, block_api.hpp l.266-281.  The status is not looked at: after an error the uninitialised variables are used. -/
def sliceToDomain (s : Slice) (offset : ℕ) (stride : ℤ) (size : ℕ) : Out Dom :=
  match getIndices s size with
  | none => .bad
  | some (start, step, len) =>
    if FitsSigned (start * stride) ∧ FitsSigned (step * stride) then
      let d : Dom := ⟨toIdx (offset + start * stride), step * stride, len⟩
      if d.isValid then .val d else .bad
    else .bad

/-! ## Blocks -/

/-- `Block<D, T>`, block.hpp l.218-427: offset, and the sizes and strides of the layout. -/
structure Blk (D : ℕ) where
  offset : ℕ
  size : Fin D → ℕ
  stride : Fin D → ℤ

/-- A new vector, block.hpp l.242-250, layout.hpp l.669-675. -/
def fresh1 (n : ℕ) : Blk 1 := ⟨0, fun _ => n, fun _ => 1⟩

/-- A new matrix (row-major), block.hpp l.242-250, layout.hpp l.649-656. -/
def fresh2 (r c : ℕ) : Blk 2 := ⟨0, ![r, c], ![toSigned c, 1]⟩

/-- The address used by `get(idx)` and `put(idx)`, block.hpp l.309-313, 326-330, layout.hpp l.693-697: `offset_ + idx * stride_`, unsigned. -/
def addr1 (b : Blk 1) (i : ℕ) : ℕ := toIdx (b.offset + i * b.stride 0)

/-- The address used by `get(idx0, idx1)`, block.hpp l.314-318, layout.hpp l.687-692. -/
def addr2 (b : Blk 2) (i j : ℕ) : ℕ := toIdx (b.offset + i * b.stride 0 + j * b.stride 1)

/-- The address used by `ref(i)`, block.hpp l.344-353. -/
def ref1 (b : Blk 1) (i : ℕ) : ℕ := toIdx (b.offset + i)

/-- The subblock constructor for vectors, block.hpp l.265-276, layout.hpp l.593-604. -/
def mk1 (d : Dom) : Blk 1 := ⟨d.first, fun _ => d.length, fun _ => d.stride⟩

/-- The subblock constructor for matrices: the offset is the sum of the first indices. -/
def mk2 (d0 d1 : Dom) : Blk 2 := ⟨toIdx (d0.first + d1.first), ![d0.length, d1.length], ![d0.stride, d1.stride]⟩

/-- `subblock1`, block_api.hpp l.283-288; `v[s]`, vector.py l.249-250. -/
def subblock1 (b : Blk 1) (s : Slice) : Out (Blk 1) := (sliceToDomain s b.offset (b.stride 0) (b.size 0)).map mk1

/-- `subblock2`, block_api.hpp l.290-297; `m[s, t]`, matrix.py l.307-308. -/
def subblock2 (b : Blk 2) (s t : Slice) : Out (Blk 2) :=
  (sliceToDomain s b.offset (b.stride 0) (b.size 0)).bind fun d0 => (sliceToDomain t 0 (b.stride 1) (b.size 1)).map fun d1 => mk2 d0 d1

/-- `Domain<1>(i, s, len)`: the constructor asserts that the domain is valid. -/
def mkDomain (first : ℤ) (stride : ℤ) (len : ℕ) : Out Dom :=
  let d : Dom := ⟨toIdx first, stride, len⟩
  if d.isValid then .val d else .bad

/-- Conversion to `int`. -/
def toInt32 (z : ℤ) : ℤ := (z + 2 ^ 31) % 2 ^ 32 - 2 ^ 31

/-- `if (i < 0) i += b.size(2, d)` with `int i`, block_api.hpp l.302, 310. -/
def fromEnd (i : ℤ) (n : ℕ) : ℤ := if i < 0 then toInt32 (i + n) else i

/-- `get_row`, block_api.hpp l.299-305; `m[i]` and `m.row(i)`, matrix.py l.76-79, 304-305. -/
def getRow (b : Blk 2) (i : ℤ) : Out (Blk 1) :=
  let i := fromEnd i (b.size 0)
  if FitsSigned (i * b.stride 0) then (mkDomain (i * b.stride 0) 1 (b.size 1)).map mk1 else .bad

/-- `get_col`, block_api.hpp l.307-313. -/
def getCol (b : Blk 2) (i : ℤ) : Out (Blk 1) :=
  let i := fromEnd i (b.size 1)
  if FitsSigned (i * b.stride 1) then (mkDomain (i * b.stride 1) (b.stride 0) (b.size 0)).map mk1 else .bad

/-- `diag`, block_api.hpp l.315-320. -/
def diag (b : Blk 2) : Out (Blk 1) :=
  if FitsSigned (b.stride 0 + b.stride 1) then (mkDomain 0 (b.stride 0 + b.stride 1) (min (b.size 0) (b.size 1))).map mk1 else .bad

/-- `m[i, s]`, matrix.py l.311-312. -/
def rowSlice (b : Blk 2) (i : ℤ) (s : Slice) : Out (Blk 1) := (getRow b i).bind fun r => subblock1 r s

/-- `m[s, j]`, matrix.py l.309-310. -/
def colSlice (b : Blk 2) (s : Slice) (j : ℤ) : Out (Blk 1) := (getCol b j).bind fun r => subblock1 r s

/-! ## Access to the data -/

variable {V : Type}

/-- The address of element `i` for direct data access: `ptr() + i * stride`, block.hpp l.376-381, 407, dda/accessor.hpp l.299; `base` is where the storage starts. -/
def dda1 (base : ℤ) (b : Blk 1) (i : ℕ) : ℤ := base + toSigned b.offset + i * b.stride 0

/-- The byte at which NumPy finds element `(i, j)` of the array made by `make_array_`, block_api.hpp l.228-246; `base` is the storage in bytes. -/
def array2 (base : ℤ) (size : ℕ) (b : Blk 2) (i j : ℕ) : ℤ :=
  base + size * toSigned b.offset + i * (b.stride 0 * size) + j * (b.stride 1 * size)

/-- `assign`, block_api.hpp l.336-340, for vectors: the evaluator `be::copy` (assign/copy.hpp l.252-280).  `bad`: `memcpy` between overlapping regions; `exc`:
the source is shorter, python/config.hpp l.16. -/
def assign1 (lp : ℤ) (lst : ℤ) (n : ℕ) (rp : ℤ) (rst : ℤ) (rn : ℕ) (mem : ℤ → V) : Out (ℤ → V) :=
  if rn < n then .exc
  else if lst = 1 ∧ rst = 1 then
    if 0 < n ∧ rp < lp + n ∧ lp < rp + n then .bad
    else .val fun a => if lp ≤ a ∧ a < lp + n then mem (rp + (a - lp)) else mem a
  else .val ((List.range n).foldl (fun m (i : ℕ) => Function.update m (lp + i * lst) (m (rp + i * rst))) mem)

/-- `v[s] = w`, vector.py l.266-274; the vectors are blocks in storages starting at `bv` and `bw`. -/
def setSlice (bv : ℤ) (v : Blk 1) (s : Slice) (bw : ℤ) (w : Blk 1) (mem : ℤ → V) : Out (ℤ → V) :=
  (subblock1 v s).bind fun l => assign1 (dda1 bv l 0) (l.stride 0) (l.size 0) (dda1 bw w 0) (w.stride 0) (w.size 0) mem

/-! ## Components of complex blocks

A complex storage is a sequence of scalars: element `a` has its real part at `2 a` and its imaginary part at `2 a + 1`. -/

/-- `sm_proxy::get` of a component, block.hpp l.159-164. -/
def compGet (re : Bool) (b : Blk 1) (mem : ℤ → V) (i : ℕ) : V := mem (2 * (addr1 b i : ℤ) + if re then 0 else 1)

/-- `sm_proxy::put` of a component, block.hpp l.165-170. -/
def compPut (re : Bool) (b : Blk 1) (mem : ℤ → V) (i : ℕ) (x : V) : ℤ → V :=
  Function.update mem (2 * (addr1 b i : ℤ) + if re then 0 else 1) x

/-- `copy` of a component, block_api.hpp l.349-356: the values the evaluator `be::copy` reads, starting from `sm_proxy::ptr` (block.hpp l.178-183) with the strides
of the complex block (block.hpp l.277-284). -/
def compCopy (re : Bool) (b : Blk 1) (mem : ℤ → V) (i : ℕ) : V := mem (dda1 (if re then 0 else 1) b i)

/-! ## Python functions -/

/-- `block(dtype, shape, value)`, _block.py l.26, 39-44: `value and block(shape, value) or block(shape)`.  `truthy` is the truth value of `value` in Python;
`junk` is what uninitialised storage holds. -/
def newBlock (truthy : V → Bool) (value : V) (junk : ℕ → V) (n : ℕ) (i : ℕ) : V := if truthy value ∧ i < n then value else junk i

/-- `matrix.size(d)`, matrix.py l.65-68: `d == 0 and self.rows() or self.cols()`. -/
def matrixSize (rows cols d : ℕ) : ℕ := if d = 0 ∧ rows ≠ 0 then rows else cols

/-- What `vector.__str__` shows. -/
inductive Tok | elem (i : ℕ) | dots
  deriving DecidableEq

/-- `vector.__str__`, vector.py l.276-287; `exc`: `get(-1)` cannot be converted to an index. -/
def vecStr (l : ℕ) : Out (List Tok) :=
  let lmax := if 6 < l then 6 else l
  let init := (List.range (lmax - 1)).map Tok.elem
  if l = 1 then .val (init ++ [.elem 0])
  else if lmax < l then .val (init ++ [.dots])
  else if l = 0 then .exc
  else .val (init ++ [.elem (lmax - 1)])

/-- `first(j, f, v, w)`, selection.py l.10-16, for `f i` the value of `f(v[i], w[i])`. -/
def firstFrom (f : ℕ → Bool) (size : ℕ) : ℕ → ℕ → ℕ
  | 0, _ => size
  | k + 1, i => if f i then i else firstFrom f size k (i + 1)

def first (j : ℕ) (f : ℕ → Bool) (size : ℕ) : ℕ := firstFrom f size (size - j) j

/-! ## Arrays that share the storage -/

/-- Python references to the block, and arrays made from it. -/
structure Life where
  blocks : ℕ
  arrays : ℕ

inductive LOp | array | dropBlock | dropArray | read
  deriving DecidableEq

/-- `make_array` and `array_backref`, block_api.hpp l.216-264: the array's base object holds a C++ reference to the block, not a Python reference.  The block, and
with it the storage, goes with the last Python reference. -/
def lstep (s : Life) : LOp → Out Life
  | .array => if 0 < s.blocks then .val { s with arrays := s.arrays + 1 } else .exc
  | .dropBlock => if 0 < s.blocks then .val { s with blocks := s.blocks - 1 } else .exc
  | .dropArray => if s.arrays = 0 then .exc else if 0 < s.blocks then .val { s with arrays := s.arrays - 1 } else .bad
  | .read => if s.arrays = 0 then .exc else if 0 < s.blocks then .val s else .bad

def lrun (s : Life) : List LOp → Out Life
  | [] => .val s
  | o :: os => (lstep s o).bind fun s => lrun s os

end Verif.Py
