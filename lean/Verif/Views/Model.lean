import Verif.Domain.Model
import Mathlib.Logic.Function.Basic
/-!
Model of views of stored data: `/repo/src/ovxx/expr/subset.hpp`, `sliced.hpp`, `transposed.hpp`, `permuted.hpp`, `diag.hpp`,
`component.hpp`.

A view is a stack of these blocks on top of a stored block.  For each block the model gives `size(dim, d)`, the translation of an index for
`get`/`put`, and the direct-access interface `ptr()` and `stride(dim, d)`.  Addresses and strides are integers (the pointer
arithmetic is assumed not to overflow); indices and sizes are unsigned 64-bit.  An address is (array, offset): the second array only
occurs for split complex data.  Blocks with the index `no_index` (parts of distributed views a process does not hold) are not modelled.
-/
namespace Verif.Vw
open Verif

inductive View where
  /-- a stored block: extent, strides, address of the first element -/
  | base (ext : List Nat) (str : List Int) (ptr : Int)
  | subset (dom : List Dom) (v : View)
  | sliced (d i : Nat) (v : View)
  | sliced2 (d1 d2 i j : Nat) (v : View)
  | transposed (v : View)
  | permuted (p : List Nat) (v : View)
  | diag (off : Int) (v : View)
  /-- real (`c = 0`) or imaginary (`c = 1`) part of complex data stored split or interleaved -/
  | component (split : Bool) (c : Nat) (v : View)

/-- the parent's dimension seen as dimension `d` of a slice (sliced.hpp l.143-145, 177-178) -/
def sliceDim (D d : Nat) : Nat := if D > d then d else d + 1

/-- sliced.hpp l.324-327, 362-364 -/
def sliceDim2 (D1 D2 d : Nat) : Nat := if D1 > d then d else if D2 > d + 1 then d + 1 else d + 2

/-- `Diag::size()` (diag.hpp l.47-58); unsigned arithmetic -/
def diagSize (off : Int) (n m : Nat) : Nat :=
  if off ≥ 0 then min (min n m) (toIdx (m - off)) else min (min n m) (toIdx (n + off))

namespace View

/-- `size(dim, d)` for all `d` -/
def sizes : View → List Nat
  | base ext _ _ => ext
  | subset dom _ => dom.map Dom.length
  | sliced D _ v => (List.range (v.sizes.length - 1)).map fun d => v.sizes.getD (sliceDim D d) 0
  | sliced2 D1 D2 _ _ v => (List.range (v.sizes.length - 2)).map fun d => v.sizes.getD (sliceDim2 D1 D2 d) 0
  | transposed v => [v.sizes.getD 1 0, v.sizes.getD 0 0]
  | permuted p v => (List.range 3).map fun d => v.sizes.getD (p.getD d 0) 0
  | diag off v => [diagSize off (v.sizes.getD 0 0) (v.sizes.getD 1 0)]
  | component _ _ v => v.sizes

/-- `stride(dim, d)` for all `d` -/
def strides : View → List Int
  | base _ str _ => str
  | subset dom v => List.zipWith (fun s (d : Dom) => s * d.stride) v.strides dom
  | sliced D _ v => (List.range (v.strides.length - 1)).map fun d => v.strides.getD (sliceDim D d) 0
  | sliced2 D1 D2 _ _ v => (List.range (v.strides.length - 2)).map fun d => v.strides.getD (sliceDim2 D1 D2 d) 0
  | transposed v => [v.strides.getD 1 0, v.strides.getD 0 0]
  | permuted p v => (List.range 3).map fun d => v.strides.getD (p.getD d 0) 0
  | diag _ v => [v.strides.getD 0 0 + v.strides.getD 1 0]
  | component split _ v => v.strides.map fun s => if split then 1 * s else 2 * s

/-- `for d: ptr = offset(ptr, dom[d].first() * stride(dim, d))` (subset.hpp l.194-199) -/
def addFirsts : List Int → List Dom → Int → Int
  | s :: ss, d :: ds, p => addFirsts ss ds (p + d.first * s)
  | _, _, p => p

/-- `ptr()` -/
def ptr : View → Nat × Int
  | base _ _ p => (0, p)
  | subset dom v => (v.ptr.1, addFirsts v.strides dom v.ptr.2)
  | sliced D i v => (v.ptr.1, v.ptr.2 + i * v.strides.getD D 0)
  | sliced2 D1 D2 i j v => (v.ptr.1, v.ptr.2 + (i * v.strides.getD D1 0 + j * v.strides.getD D2 0))
  | transposed v => v.ptr
  | permuted _ v => v.ptr
  | diag off v => (v.ptr.1, if off ≥ 0 then v.ptr.2 + off * v.strides.getD 1 0 else v.ptr.2 + -off * v.strides.getD 0 0)
  | component split c v => if split then (c, v.ptr.2) else (v.ptr.1, 2 * v.ptr.2 + c)

/-- the parent's index that `get(idx)` / `put(idx, val)` use -/
def toParent : View → List Nat → List Nat
  | base _ _ _, i => i
  | subset dom _, i => domainNth dom i
  | sliced D k _, i => i.take D ++ k :: i.drop D
  | sliced2 D1 D2 k l _, i => let r := i.take D1 ++ k :: i.drop D1; r.take D2 ++ l :: r.drop D2
  | transposed _, i => [i.getD 1 0, i.getD 0 0]
  | permuted p _, i => (List.range 3).map fun k => i.getD (p.idxOf k) 0
  | diag off _, i => if off ≥ 0 then [i.getD 0 0, toIdx (i.getD 0 0 + off)] else [toIdx (i.getD 0 0 - off), i.getD 0 0]
  | component _ _ _, i => i

/-- sum of index times stride -/
def dot : List Int → List Nat → Int
  | s :: ss, i :: is => i * s + dot ss is
  | _, _ => 0

/-- the address `get(idx)` and `put(idx, val)` access: the parent is asked for the translated index; a part of a complex element is one
of the two scalars of that element -/
def access : View → List Nat → Nat × Int
  | base _ str p, i => (0, p + dot str i)
  | component split c v, i => let a := v.access i; if split then (c, a.2) else (a.1, 2 * a.2 + c)
  | subset dom v, i => v.access ((subset dom v).toParent i)
  | sliced D k v, i => v.access ((sliced D k v).toParent i)
  | sliced2 D1 D2 k l v, i => v.access ((sliced2 D1 D2 k l v).toParent i)
  | transposed v, i => v.access ((transposed v).toParent i)
  | permuted p v, i => v.access ((permuted p v).toParent i)
  | diag off v, i => v.access ((diag off v).toParent i)

end View

/-- `get(idx)` on memory -/
def vget {V : Type} (v : View) (mem : Nat × Int → V) (i : List Nat) : V := mem (v.access i)

/-- `put(idx, val)` on memory.  (For parts of complex elements the code rewrites both scalars, the other one with its old value.) -/
def vput {V : Type} (v : View) (mem : Nat × Int → V) (i : List Nat) (x : V) : Nat × Int → V := Function.update mem (v.access i) x

/-- a complex element of a view as the pair of its two scalars -/
def cget {V : Type} (split : Bool) (v : View) (mem : Nat × Int → V) (i : List Nat) : V × V :=
  (vget (.component split 0 v) mem i, vget (.component split 1 v) mem i)

/-- storing a complex element stores two scalars -/
def cput {V : Type} (split : Bool) (v : View) (mem : Nat × Int → V) (i : List Nat) (z : V × V) : Nat × Int → V :=
  vput (.component split 1 v) (vput (.component split 0 v) mem i z.1) i z.2

/-- `Component::put`: read the element, set one part, store the element (component.hpp l.36-78, 114-139) -/
def componentPut {V : Type} (split : Bool) (c : Nat) (v : View) (mem : Nat × Int → V) (i : List Nat) (x : V) : Nat × Int → V :=
  let z := cget split v mem i
  cput split v mem i (if c = 0 then (x, z.2) else (z.1, x))

/-- a sequence of stores to parts: (part, index, value) -/
def partStores {V : Type} (split : Bool) (v : View) (mem : Nat × Int → V) : List (Nat × List Nat × V) → Nat × Int → V
  | [] => mem
  | (c, i, x) :: l => partStores split v (componentPut split c v mem i x) l

/-! ### Dimension orders -/

/-- `Transpose_order` (transposed.hpp l.173-179): first two entries exchanged -/
def transposeOrder (o : List Nat) : List Nat := [o.getD 1 0, o.getD 0 0]

/-- `Permute_order` (permuted.hpp l.116-143): `tuple<P0,P1,P2>` applied to `tuple<Dim0,Dim1,Dim2>` gives `tuple<DimP0,DimP1,DimP2>` -/
def permuteOrder (p o : List Nat) : List Nat := [o.getD (p.getD 0 0) 0, o.getD (p.getD 1 0) 0, o.getD (p.getD 2 0) 0]

/-- `Sliced_order<tuple, 3, FixedDim>` (sliced.hpp l.471-487) -/
def slicedOrder (o : List Nat) (fixed : Nat) : List Nat :=
  let d0 := o.getD 0 0
  let d1 := o.getD 1 0
  let d2 := o.getD 2 0
  let row := [0, 1]
  let col := [1, 0]
  if fixed = d0 then (if d2 > d1 then row else col)
  else if fixed = d1 then (if d2 > d0 then row else col)
  else (if d1 > d0 then row else col)

/-- `unit_stride_preserved` (sliced.hpp l.468, 486) -/
def unitStridePreserved (o : List Nat) (dim fixed : Nat) : Bool := if dim = 2 then fixed != o.getD 1 0 else fixed != o.getD 2 0

end Verif.Vw
