import Verif.Signal.Model
import Verif.Map.Derived

/-!
# Vector-matrix multiplication by rows or columns

Model of `src/ovxx/expr/vmmul.hpp` (the expression block and its parallel support conditions) and `src/vsip/impl/vmmul.hpp` (its evaluator).

Values: `mul : V → M → T` is the product and the conversion to the value type of the destination.  Reading outside a view gives `none`.
-/

namespace Verif.Vm

open Verif.Sig

section
variable {V M T : Type} (mul : V → M → T)

/-- `Vmmul::get`, expr/vmmul.hpp l.54-60. -/
def get (D : Nat) (v : Vec V) (m : Mat M) (i j : Nat) : Option T :=
  if D = 0 then do
    let a ← v.get j
    let b ← m.get i j
    some (mul a b)
  else do
    let a ← v.get i
    let b ← m.get i j
    some (mul a b)

/-- Element by element, when the evaluator below does not apply: the loop of the dimension order of the destination (expr loop evaluator).  `src`
gives the matrix operand from the current state: it is constant, or the destination itself. -/
def evalElems (rowMajor : Bool) (D : Nat) (v : Vec V) (src : Mat T → Mat M) (lhs : Mat T) : Option (Mat T) :=
  if rowMajor then
    loop lhs.rows lhs fun s i => loop lhs.cols s fun s j => do s.put i j (← get mul D v (src s) i j)
  else
    loop lhs.cols lhs fun s j => loop lhs.rows s fun s i => do s.put i j (← get mul D v (src s) i j)

/-- `m_dst.row(r) = v * m.row(r)`, vsip/impl/vmmul.hpp l.84. -/
def rowByVec (v : Vec V) (src : Mat T → Mat M) (s : Mat T) (r : Nat) : Option (Mat T) :=
  loop s.cols s fun s j => do s.put r j (mul (← v.get j) (← (src s).get r j))

/-- `m_dst.row(r) = v.get(r) * m.row(r)`, l.89. -/
def rowByElem (v : Vec V) (src : Mat T → Mat M) (s : Mat T) (r : Nat) : Option (Mat T) :=
  (v.get r).bind fun a => loop s.cols s fun s j => do s.put r j (mul a (← (src s).get r j))

/-- `m_dst.col(c) = v.get(c) * m.col(c)`, l.97. -/
def colByElem (v : Vec V) (src : Mat T → Mat M) (s : Mat T) (c : Nat) : Option (Mat T) :=
  (v.get c).bind fun a => loop s.rows s fun s i => do s.put i c (mul a (← (src s).get i c))

/-- `m_dst.col(c) = v * m.col(c)`, l.102. -/
def colByVec (v : Vec V) (src : Mat T → Mat M) (s : Mat T) (c : Nat) : Option (Mat T) :=
  loop s.rows s fun s i => do s.put i c (mul (← v.get i) (← (src s).get i c))

/-- The evaluator, l.66-106. -/
def eval (rowMajor : Bool) (D : Nat) (v : Vec V) (src : Mat T → Mat M) (lhs : Mat T) : Option (Mat T) :=
  if rowMajor then
    if D = 0 then loop lhs.rows lhs (rowByVec mul v src)
    else loop lhs.rows lhs (rowByElem mul v src)
  else
    if D = 0 then loop lhs.cols lhs (colByElem mul v src)
    else loop lhs.cols lhs (colByVec mul v src)

end

/-! ## Distributed operands -/

/-- How the vector is mapped: replicated, or by a map. -/
inductive VMap
  | replicated
  | map (m : Map)
  deriving DecidableEq

/-- `map.num_subblocks(k)` of a matrix map. -/
def subblocks (m : Map3) (k : Nat) : Nat := if k = 0 then m.d0.numSubblocks else m.d1.numSubblocks

/-- `map_project_1<VecDim, M>::project(map, 0)`. -/
def project (D : Nat) (m : Map3) : Option Map := if D = 0 then m.project_0 0 else m.project_1 0

/-- `has_same_map(map, Vmmul)`, expr/vmmul.hpp l.128-145, for a matrix operand that has the map of the destination, and a vector of map `v`. -/
def sameMap (D : Nat) (m : Map3) (v : VMap) : Bool :=
  (v = .replicated && subblocks m (1 - D) == 1) ||
  (subblocks m D == 1 && (project D m).map VMap.map == some v)

/-- The element the local block of the vector has at `k`: `sb` is its subblock here, `n` its global length. -/
def localVec {V : Type} (v : VMap) (f : Nat → V) (n sb k : Nat) : V :=
  match v with
  | .replicated => f k
  | .map m => f ((m.dist.headD .whole).globalFromLocal n sb k)

/-- The product of the local blocks, expr/vmmul.hpp l.97-111, on subblock (s0, s1) of a matrix with the map `mm`. -/
def localGet {V M T : Type} (mul : V → M → T) (D : Nat) (mm : Map3) (vm : VMap) (f : Nat → V) (m : Nat → Nat → M) (s0 s1 i j : Nat) : T :=
  let b := m (mm.d0.globalFromLocal mm.n0 s0 i) (mm.d1.globalFromLocal mm.n1 s1 j)
  if D = 0 then mul (localVec vm f mm.n1 s1 j) b else mul (localVec vm f mm.n0 s0 i) b

end Verif.Vm
