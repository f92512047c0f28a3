import Mathlib.Logic.Function.Basic
import Verif.Prod.Spec
import Verif.Signal.Model

/-!
# Model of matrix products by the generic back end

Sources: `/repo/src/vsip/impl/matvec_prod.hpp`, the non-elementwise `expr::Binary` of `/repo/src/ovxx/expr/binary.hpp` (l.126-209), `expr::Transposed`
(`/repo/src/ovxx/expr/transposed.hpp`) and the assignment of such blocks (`/repo/src/ovxx/assign/rbo.hpp` l.34-49).

Memory is one map from addresses to values, so that the result may overlap the arguments.  All values have one type; where the code stores a sum in the type of the
result the conversion is the parameter `cv`.  A vector is a matrix of one column (second argument, result) or one row (first argument).  Reading outside of an
argument is `none`.  Rounding is not modelled.
-/

namespace Verif.Prd

open Verif.Sig

variable {T : Type}

/-- An argument block at run time. -/
inductive E (T : Type) where
  | view (v : MV)
  /-- `Transposed` (transposed.hpp l.48-63) -/
  | trans (x : E T)
  /-- `Binary<Operation, L, R, true>` (binary.hpp l.60-124), with any operation -/
  | bin (f : T → T → T) (x y : E T)
  /-- `Binary<Operation, L, R, false>` (binary.hpp l.126-209): the operation bound to its arguments, and `cache_` -/
  | node (rows cols : ℕ) (fresh : (ℤ → T) → Option (ℕ → ℕ → T)) (cache : Option (ℕ → ℕ → T))

namespace E
mutual
/-- `size(2, 0)` -/
def rows : E T → ℕ
  | view v => v.rows
  | trans x => cols x
  | bin _ x _ => rows x
  | node r _ _ _ => r
/-- `size(2, 1)` -/
def cols : E T → ℕ
  | view v => v.cols
  | trans x => rows x
  | bin _ x _ => cols x
  | node _ c _ _ => c
end

/-- `get(i, j)` (transposed.hpp l.62-63, binary.hpp l.112-116, 159-163), with the block afterwards: `evaluate()` (l.170-178) fills the cache. -/
def get (m : ℤ → T) : E T → ℕ → ℕ → Option (T × E T)
  | view v, i, j => some (m (v.at i j), view v)
  | trans x, i, j => (get m x j i).map fun p => (p.1, trans p.2)
  | bin f x y, i, j => (get m x i j).bind fun p => (get m y i j).map fun q => (f p.1 q.1, bin f p.2 q.2)
  | node r c fresh (some g), i, j => some (g i j, node r c fresh (some g))
  | node r c fresh none, i, j => (fresh m).map fun g => (g i j, node r c fresh (some g))
end E

section
variable [Semiring T]

/-- The innermost loop (matvec_prod.hpp l.66-70, 93-97, 121-124, 148-151): `K` is the bound, `a.size(2, 1)`, or `b.size(2, 0)` for a vector and a matrix; `c` is
`conj` for `prodj`; `cv` the conversion to the type of the result. -/
def inner (c cv : T → T) (K : ℕ) (m : ℤ → T) (a b : E T) (i j : ℕ) : Option (T × E T × E T) :=
  loop K ((0 : T), a, b) fun st k =>
    if i < st.2.1.rows ∧ k < st.2.1.cols ∧ k < st.2.2.rows ∧ j < st.2.2.cols then
      (st.2.1.get m i k).bind fun p => (st.2.2.get m k j).map fun q => (cv (st.1 + p.1 * c q.1), p.2, q.2)
    else none

/-- `Evaluator<op::prod | op::prodj, be::generic>::exec` (l.58-73, 85-100, 114-127, 141-154).  The result of `R` rows and `C` columns is written by `put`; `mem` is
what the arguments are read from. -/
def exec {σ : Type} (mem : σ → ℤ → T) (put : σ → ℕ → ℕ → T → σ) (R C : ℕ) (c cv : T → T) (K : ℕ) (a b : E T) (s : σ) : Option (σ × E T × E T) :=
  loop R (s, a, b) fun st i => loop C st fun st j => (inner c cv K (mem st.1) st.2.1 st.2.2 i j).map fun r => (put st.1 i j r.1, r.2)

/-- `evaluate` (binary.hpp l.170-178): the operation applied to a new block of its size (matvec_prod.hpp l.208-227), whose type is that of the products -/
def fresh (c : T → T) (a b : E T) (m : ℤ → T) : Option (ℕ → ℕ → T) :=
  (exec (σ := ℕ → ℕ → T) (fun _ => m) (fun s i j x => fun i' j' => if i' = i ∧ j' = j then x else s i' j') a.rows b.cols c id a.cols a b fun _ _ => 0).map (·.1)

/-- What `prod`, `prodj`, `transpose` and elementwise functions make of their arguments (l.262-442). -/
def P.toE : P T → E T
  | .view v => .view v
  | .trans x => .trans x.toE
  | .bin f x y => .bin f x.toE y.toE
  | .prod c x y => .node x.toE.rows y.toE.cols (fresh c x.toE y.toE) none

/-- `r = prod(x, y)`: `Binary::apply` without a cache (binary.hpp l.180-188), `Product::apply` (l.238-239, 249-250) -/
def assign (cv c : T → T) (r : MV) (x y : P T) (m : ℤ → T) : Option (ℤ → T) :=
  (exec (σ := ℤ → T) (fun m => m) (fun m i j v => Function.update m (r.at i j) v) r.rows r.cols c cv x.toE.cols x.toE y.toE m).map (·.1)

/-- The same for a vector and a matrix (l.141-154): the bound is `b.size(2, 0)`. -/
def assignVM (cv c : T → T) (r : MV) (x y : P T) (m : ℤ → T) : Option (ℤ → T) :=
  (exec (σ := ℤ → T) (fun m => m) (fun m i j v => Function.update m (r.at i j) v) r.rows r.cols c cv y.toE.rows x.toE y.toE m).map (·.1)
end

/-- The functions of the front end. -/
inductive Fn where | prod | prod3 | prod4 | prodh | prodj | prodt deriving DecidableEq, Repr

/-- Their preconditions on the sizes of the arguments (l.271, 289, 307, 321-322, 338-339, 356-357, 373-374; none at l.386-437) -/
def Fn.pre (f : Fn) (a b : ℕ × ℕ) : Bool :=
  match f with
  | .prod => a.2 == b.1
  | .prod3 => a.1 == 3 && a.2 == 3
  | .prod4 => a.1 == 4 && a.2 == 4
  | _ => true

/-- The expression they build. -/
def Fn.build (f : Fn) (conj : T → T) (x y : P T) : P T :=
  match f with
  | .prodh => .prod conj x (.trans y)
  | .prodj => .prod conj x y
  | .prodt => .prod id x (.trans y)
  | _ => .prod id x y

end Verif.Prd
