import Verif.Domain.Model
/-!
Specification vocabulary for domains: the mathematical progression a domain stands for.
Nothing here uses the model's functions (only the three numbers the user supplied).
-/
namespace Verif.Spec
open Verif

/-- The `i`-th index the user means by "first, stride, length". -/
def elem (d : Dom) (i : Nat) : Int := (d.first : Int) + d.stride * i

/-- The indices of a domain, in order. -/
def elems (d : Dom) : List Int := (List.range d.length).map (elem d)

/-- The integer `z` is one of the indices of `d`. -/
def Mem (z : Int) (d : Dom) : Prop := ∃ i, i < d.length ∧ z = elem d i

/-- The domain's indices are representable: the three numbers fit their C++ types and every index is a non-negative
`ptrdiff_t`. -/
structure Fits (d : Dom) : Prop where
  length_lt : d.length < W₆₃
  stride_fits : FitsSigned d.stride
  first_lt : d.first < W₆₃
  elem_nonneg : ∀ i, i < d.length → 0 ≤ elem d i
  elem_lt : ∀ i, i < d.length → elem d i < W₆₃

/-- Membership for multi-dimensional indices / domains. -/
def MemN : List Int → List Dom → Prop
  | [], [] => True
  | z :: zs, d :: ds => Mem z d ∧ MemN zs ds
  | _, _ => False

end Verif.Spec
