import Verif.Domain.Model
/-!
`vsip::Domain<D>` for several dimensions (/repo/src/vsip/domain.hpp l.228-500): a list of one-dimensional domains, one per dimension.
The templates that recurse over the dimensions stop at dimension 0 (predicates, updates) or 1 (copies, sizes).
-/
namespace Verif.DomN
open Verif

/-- `Vec_mem_pred` (l.279-292): conjunction over the dimensions, stopping at the first failure -/
def vecPred (p : Dom → Dom → Bool) : List Dom → List Dom → Bool
  | a :: as, b :: bs => p a b && vecPred p as bs
  | _, _ => true

/-- `Vec_mem_op_scalar` (l.248-262): the same scalar applied in every dimension -/
def vecOp {α : Type} (op : Dom → α → Dom) : List Dom → α → List Dom
  | d :: ds, s => op d s :: vecOp op ds s
  | [], _ => []

/-- `impl_equals` (l.393-398), `operator==` (l.463-466) -/
def equalsN (a b : List Dom) : Bool := vecPred Dom.equals a b

/-- `operator!=` (l.468-471) -/
def differN (a b : List Dom) : Bool := !equalsN a b

/-- `element_conformant` (l.360-362) -/
def conformantN (a b : List Dom) : Bool := vecPred Dom.elementConformant a b

/-- `product_conformant` (l.132-133 for one dimension, l.445-452 for others) with a matrix's domain -/
def productConformant (a b : List Dom) : Bool :=
  match a, b with
  | [_, k], [l, _] => k.length == l.length
  | _, _ => false

/-- `vec_domain_size` (l.317-325), `size` (l.355-356): the product of the lengths as `size_t` -/
def sizeN : List Dom → Nat
  | [] => 1
  | [d] => d.length
  | d :: ds => d.length * sizeN ds % W₆₄

/-- `operator+` (l.473-482, 489-492) -/
def addN (a : List Dom) (s : Int) : List Dom := vecOp Dom.addIn a s

/-- `operator-` (l.483) -/
def subN (a : List Dom) (s : Int) : List Dom := vecOp Dom.subOut a s

/-- `operator*` (l.484, 494-497) -/
def mulN (a : List Dom) (s : Nat) : List Dom := vecOp Dom.mulBy a s

/-- `operator/` (l.485); division by 0 is undefined -/
def divN (a : List Dom) (s : Nat) : Option (List Dom) := a.mapM fun d => d.divBy? s

end Verif.DomN
