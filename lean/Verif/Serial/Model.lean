import Verif.Layout.Model
/-!
Descriptors of serialised data: /repo/src/vsip/serialization.hpp l.30-246.

Simplified: sizes are below 2^64 and strides are 64-bit (they are kept in `uint64_type` and `int64_type`); a block type is given by its element type,
dimension and order; blocks whose type is not a dense `Strided` (l.104-108) are not compatible with anything and are left out.
-/
namespace Verif.Ser
open Verif.Lay

/-- l.30-38 -/
structure Desc where
  valueType : Nat
  dims : Nat
  format : Nat
  size : Fin 3 → Nat
  stride : Fin 3 → Int
  storage : Nat

/-- the types with a `type_info` (l.69-97) -/
inductive Ty where
  | bool | char | float | cfloat | double | cdouble
  | int (bytes : Fin 4) (unsigned : Bool)
deriving DecidableEq, Repr

/-- `sizeof` of the `n`-th of the integral types -/
def bytesOf (n : Fin 4) : Nat := 2 ^ n.val

/-- `type_info<T>::value` (l.44-50, 69-97) -/
def Ty.code : Ty → Nat
  | .bool => 0 | .char => 1 | .float => 4 | .cfloat => 5 | .double => 6 | .cdouble => 7
  | .int b u => (bytesOf b <<< 10) + ((if u then 1 else 0) <<< 9) + (1 <<< 8)

/-- l.52-54; `size` returns `unsigned int` -/
def isIntegral (v : Nat) : Bool := v.testBit 8
def isUnsigned (v : Nat) : Bool := v.testBit 9
def sizeCode (v : Nat) : Nat := (v >>> 10) % 4294967296

/-- `ordering_compatibility<tuple<D0, D1, D2> >::check` (l.116-130) -/
def ordering (d0 d1 d2 : Fin 3) (i : Desc) : Bool :=
  if i.dims = 1 ∧ i.stride d0 ≠ 1 then false
  else if i.dims = 2 ∧ i.stride d1 ≠ 1 then false
  else if i.dims = 3 ∧ i.stride d2 ≠ 1 then false
  else if i.dims = 2 ∧ (i.stride d0 < 0 ∨ (i.stride d0).toNat ≠ i.size d1) then false
  else if i.dims = 3 ∧ (i.stride d0 < 0 ∨ (i.stride d0).toNat ≠ i.size d2 * i.size d1 % W₆₄) then false
  else true

/-- `block_compatibility<Strided<D, T, Layout<D, O, dense, S>, Local_map> >::check` (l.136-155) -/
def check (t : Ty) (D : Nat) (d0 d1 d2 : Fin 3) (i : Desc) : Bool :=
  if isIntegral t.code then
    if isIntegral i.valueType = false then false
    else if isUnsigned t.code ≠ isUnsigned i.valueType then false
    else if sizeCode t.code ≠ sizeCode i.valueType then false
    else ordering d0 d1 d2 i
  else if t.code ≠ i.valueType then false
  else if D ≠ i.dims then false
  else ordering d0 d1 d2 i

/-- `describe_user_storage` (l.201-237) for a dense block of the given sizes and order, in the three dimensions; `format` is `user_storage()`
(`array` is 1, /repo/src/vsip/layout.hpp l.65-76) -/
def describe1 (t : Ty) (format : Nat) (s : Fin 1 → Nat) : Desc where
  valueType := t.code
  dims := 1
  format := format
  size := fun d => if d = 0 then s 0 else 0
  stride := fun d => if d = 0 then 1 else 0
  storage := if format ≠ 1 then s 0 * 2 % W₆₄ else s 0

def describe2 (t : Ty) (format : Nat) (l : App 2) : Desc where
  valueType := t.code
  dims := 2
  format := format
  size := fun d => if d = 0 then l.size 0 else if d = 1 then l.size 1 else 0
  stride := fun d => if d = 0 then toSigned (l.stride 0) else if d = 1 then toSigned (l.stride 1) else 0
  storage := if format ≠ 1 then l.size 0 * l.size 1 * 2 % W₆₄ else l.size 0 * l.size 1 % W₆₄

def describe3 (t : Ty) (format : Nat) (l : App 3) : Desc where
  valueType := t.code
  dims := 3
  format := format
  size := l.size
  stride := fun d => toSigned (l.stride d)
  storage := if format ≠ 1 then l.size 0 * l.size 1 * l.size 2 * 2 % W₆₄ else l.size 0 * l.size 1 * l.size 2 % W₆₄

/-- `describe_data` (l.173-192) of a vector that is accessed directly: `n` elements, `s` apart; `storage_size()` is the block's size
(/repo/src/ovxx/dda/accessor.hpp l.303).  Members that are not assigned keep what they held, `old`. -/
def describeData1 (t : Ty) (format n : Nat) (s : Int) (old : Desc) : Desc where
  valueType := t.code
  dims := 1
  format := format
  size := fun d => if d = 0 then n else old.size d
  stride := fun d => if d = 0 then s else old.stride d
  storage := n

end Verif.Ser
