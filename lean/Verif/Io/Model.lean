import Verif.Io.Spec
import Mathlib.Data.Rat.Floor
import Mathlib.Algebra.Order.Floor.Ring

/-!
# Images and data sets

Model of `src/ovxx/io/png.hpp`, `src/ovxx/io/hdf5.hpp` and `share/apps/ssar/viewtopng.cpp`.

The libraries libpng and HDF5 are modelled by their documentation: a PNG file is its rows of bytes, an HDF5 data set is its dimensions, its type and its elements in
row-major order, last dimension fastest.  Direct data access gives dense row-major storage (areas Dda and Lay).
-/

namespace Verif.Io

/-- `abort`: an assertion fails; `ub`: access outside an array, or a conversion out of range. -/
inductive Out (α : Type) where
  | ok (a : α)
  | throw
  | abort
  | ub

def Out.map {α β : Type} (f : α → β) : Out α → Out β
  | .ok a => .ok (f a)
  | .throw => .throw
  | .abort => .abort
  | .ub => .ub

/-! ## PNG -/

/-- `png_get_rowbytes`: libpng's `PNG_ROWBYTES`. -/
def rowbytes (p : Png) : ℕ :=
  if 8 ≤ p.depth * p.channels then p.width * (p.depth * p.channels / 8) else (p.width * (p.depth * p.channels) + 7) / 8

/-- The offset of `rows[i]`, png.hpp l.138, 186: a product of 32 bits. -/
def rowOffset (p : Png) (i : ℕ) : ℕ := i * rowbytes p % 2 ^ 32

/-- A row of a file is written to storage of `size` bytes. -/
def putRow (p : Png) (file : ℕ → ℕ → UInt8) (size : ℕ) (s : Out (ℕ → UInt8)) (i : ℕ) : Out (ℕ → UInt8) :=
  match s with
  | .ok mem =>
    if rowOffset p i + rowbytes p ≤ size then
      .ok fun a => if rowOffset p i ≤ a ∧ a < rowOffset p i + rowbytes p then file i (a - rowOffset p i) else mem a
    else .ub
  | s => s

/-- `decoder::decode`, l.122-142, for a matrix of `rows` and `cols` elements of `sz` bytes, stored in `mem`. -/
def decode (p : Png) (rows cols sz : ℕ) (file : ℕ → ℕ → UInt8) (mem : ℕ → UInt8) : Out (ℕ → UInt8) :=
  let height := p.height
  let width := p.height
  if rows ≠ height then .abort
  else if cols ≠ width then .abort
  else if sz ≠ p.depth * p.channels / 8 then .abort
  else (List.range height).foldl (putRow p file (rows * cols * sz)) (.ok mem)

/-- `encoder::encode`, l.170-191: the rows of the file. -/
def encode (p : Png) (rows cols sz : ℕ) (mem : ℕ → UInt8) : Out (ℕ → ℕ → UInt8) :=
  if rows ≠ p.height then .abort
  else if cols ≠ p.width then .abort
  else if sz ≠ p.depth * p.channels / 8 then .abort
  else if ∀ i < p.height, rowOffset p i + rowbytes p ≤ rows * cols * sz then .ok fun i b => mem (rowOffset p i + b)
  else .ub

/-- The value of an element of two bytes, on a host that stores the least significant byte first. -/
def host16 (lo hi : UInt8) : ℕ := lo.toNat + 256 * hi.toNat

/-- The value of a sample of 16 bits in a PNG file: most significant byte first. -/
def png16 (first second : UInt8) : ℕ := 256 * first.toNat + second.toNat

/-! ## HDF5 -/

/-- Types of elements. -/
inductive Ty | int | float | double | cfloat | cdouble
  deriving DecidableEq

def Ty.complex : Ty → Bool
  | .cfloat | .cdouble => true
  | _ => false

/-- A data set: dimensions, type, and elements by position. -/
structure Dataset (α : Type) where
  dims : List ℕ
  ty : Ty
  data : ℕ → α

/-- The position of an element in dense row-major storage. -/
def flat : List ℕ → List ℕ → ℕ
  | _ :: ds, i :: is => i * prod ds + flat ds is
  | _, _ => 0

/-- The element at a position. -/
def unflat : List ℕ → ℕ → List ℕ
  | [], _ => []
  | _ :: ds, k => k / prod ds :: unflat ds (k % prod ds)

/-- `query_extent<D>`, hdf5.hpp l.106-115: all dimensions are stored in an array of `D`, then their number is compared. -/
def queryExtent {α : Type} (D : ℕ) (s : Dataset α) : Out (List ℕ) :=
  if D < s.dims.length then .ub
  else if D ≠ s.dims.length then .abort
  else .ok s.dims

/-- `H5Dread`: there are conversions among numbers and among pairs of numbers, but not from one to the other; then it fails. -/
def h5read {α : Type} (s : Dataset α) (ty : Ty) (buf : ℕ → α) : Bool × (ℕ → α) :=
  if s.ty.complex = ty.complex then (true, fun k => if k < prod s.dims then s.data k else buf k) else (false, buf)

/-- `dataset::read`, l.123-139, into a view of the given sizes; `buf` is what direct data access gives to write to.  The status is not looked at. -/
def read {α : Type} (s : Dataset α) (ty : Ty) (size : List ℕ) (buf : ℕ → α) : Out (List ℕ → α) :=
  if s.dims.length ≠ size.length then .throw
  else
    match queryExtent size.length s with
    | .ok dom =>
      if dom ≠ size then .throw
      else
        let r := h5read s ty buf
        .ok fun idx => r.2 (flat size idx)
    | .throw => .throw
    | .abort => .abort
    | .ub => .ub

/-- `dataset::write`, l.141-160. -/
def write {α : Type} (ty : Ty) (size : List ℕ) (v : List ℕ → α) : Dataset α := ⟨size, ty, fun k => v (unflat size k)⟩

/-! ### Handles -/

/-- The objects of class `dataset`, each with its handle or none after destruction, the open handles, and the next handle. -/
structure Handles where
  objs : List (Option ℕ)
  isOpen : ℕ → Bool
  next : ℕ

/-- What a program does with objects of class `dataset`. -/
inductive Op | make | copy (k : ℕ) | drop (k : ℕ) | use (k : ℕ)

/-- The handle of an object. -/
def Handles.get (s : Handles) (k : ℕ) : Option ℕ := (s.objs[k]?).join

/-- `make`: l.163-172; `copy`: the implicit copy constructor, which copies the handle; `drop`: l.97; `use`: a member function.  `throw`: there is no such object;
`ub`: a function of HDF5 is given a handle that is closed. -/
def hstep (s : Handles) : Op → Out Handles
  | .make => .ok { objs := s.objs ++ [some s.next], isOpen := fun h => if h = s.next then true else s.isOpen h, next := s.next + 1 }
  | .copy k =>
    match s.get k with
    | some h => .ok { s with objs := s.objs ++ [some h] }
    | none => .throw
  | .drop k =>
    match s.get k with
    | some h => if s.isOpen h then .ok { s with objs := s.objs.set k none, isOpen := fun h' => if h' = h then false else s.isOpen h' } else .ub
    | none => .throw
  | .use k =>
    match s.get k with
    | some h => if s.isOpen h then .ok s else .ub
    | none => .throw

def hrun (s : Handles) : List Op → Out Handles
  | [] => .ok s
  | o :: os =>
    match hstep s o with
    | .ok s => hrun s os
    | r => r

/-- Type identifiers open after `n` calls of `has_value_type<T>`, l.116-122: the one of the data set is never closed, nor is the one made for complex numbers,
l.57-77. -/
def typeIds (ty : Ty) : ℕ → ℕ
  | 0 => 0
  | n + 1 => typeIds ty n + 1 + (if ty.complex then 1 else 0)

/-! ## viewtopng -/

/-- Single precision, without rounding: values from 2^128 on are infinite. -/
def fin (x : ℚ) : Option ℚ := if |x| < 2 ^ 128 then some x else none

/-- One element of `view_cast<unsigned char>((in - minv) * 255.f / scale)`, viewtopng.cpp l.91-94; conversion of values out of range is undefined. -/
def gray (minv maxv x : ℚ) : Out ℕ :=
  match fin (maxv - minv), (fin (x - minv)).bind fun d => fin (d * 255) with
  | some r, some d =>
    let scale := if r ≠ 0 then r else 1
    if -1 < d / scale ∧ d / scale < 256 then .ok ⌊d / scale⌋.toNat else .ub
  | none, some _ => .ok 0
  | _, none => .ub

end Verif.Io
