import Verif.Layout.Model
import Verif.Map.Spec
/-!
What a client of direct data access is promised, stated without the library's own functions.

The client is handed a pointer (two for split complex data) and strides.  Element `i` is at `pointer + Σ iₖ · strideₖ`.  A packing is a
promise about those numbers; a dimension order names the dimensions from the slowest to the fastest.
-/
namespace Verif.Acc
open Verif Spec

/-- what the client sees: number of dimensions, their order, sizes, strides in elements, the byte address of the first element in every
array, bytes from one element to the next -/
structure Seen where
  dim : Nat
  order : List Nat
  sizes : List Nat
  strides : List Int
  starts : List Int
  unit : Nat

namespace Seen

/-- `Σ iₖ · strideₖ` -/
def off (st : List Int) (i : List Nat) : Int := (List.zipWith (fun (s : Int) (k : Nat) => k * s) st i).sum

/-- the number of an element when the elements are counted in the given dimension order -/
def number (s : Seen) (i : List Nat) : Nat := (s.order.take s.dim).foldl (fun acc d => acc * s.sizes.getD d 0 + i.getD d 0) 0

/-- the fastest dimension -/
def minor (s : Seen) : Nat := s.order.getD (s.dim - 1) 0

/-- the elements of a line are adjacent -/
def Adjacent (s : Seen) : Prop := s.strides.getD s.minor 0 = 1

/-- all elements are adjacent, in the dimension order -/
def Contiguous (s : Seen) : Prop := ∀ i, InRange i s.sizes → off s.strides i = s.number i

/-- every line starts at a multiple of `A` bytes, in every array -/
def Lines (A : Nat) (s : Seen) : Prop :=
  ∀ a ∈ s.starts, ∀ i, InRange i s.sizes → i.getD s.minor 0 = 0 → (A : Int) ∣ a + s.unit * off s.strides i

/-- the promise of a packing (vsip/layout.hpp l.21-41).  `aligned` does not name its boundary, so it promises adjacent lines only. -/
def Meets : Lay.Packing → Seen → Prop
  | .any, _ => True
  | .unitStride, s => s.Adjacent
  | .dense, s => s.Adjacent ∧ s.Contiguous
  | .aligned, s => s.Adjacent
  | .alignedTo A, s => s.Adjacent ∧ s.Lines A

end Seen
end Verif.Acc
