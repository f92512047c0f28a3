import Mathlib.Logic.Function.Basic
import Mathlib.Data.List.Basic
/-!
Model of the lazy evaluation of operations that are not element by element: the caches of `expr::Unary/Binary<…, false>`
(`/repo/src/ovxx/expr/unary.hpp` l.79-157, `/repo/src/ovxx/expr/binary.hpp` l.130-215), the traversal that is to fill them
(`/repo/src/ovxx/expr/traversal.hpp`, `/repo/src/ovxx/expr/evaluate.hpp`) and the loops that read expressions
(`/repo/src/ovxx/assign/loop_fusion.hpp`, `/repo/src/ovxx/dda/block_copy.hpp` l.264-274).

Expression blocks hold their arguments by value (`by_value_traits`, block_traits.hpp l.180-186), so the tree carries the caches.  A cache
does not change once it is set; copies of the block share it, which here means they have the same value.  `k` says whether the type of
a block, as it appears in the type of the block above, is `const`: it is for the blocks of operators and functions
(view/operators.hpp l.28-41), it is not for subsets and slices; the template `Traversal` is specialised for types without `const` only.
Indices are numbers; an operation may use every element of its arguments.  Ternary operations are like binary ones.
-/
namespace Verif.Lz

/-- expression blocks -/
inductive E (A V : Type) where
  /-- a stored block or a view of one -/
  | leaf (addr : Nat → A)
  /-- `Scalar` -/
  | scalar (v : V)
  /-- `Unary<O, B, true>` -/
  | un (k : Bool) (f : V → V) (x : E A V)
  /-- `Binary<O, L, R, true>` -/
  | bin (k : Bool) (f : V → V → V) (x y : E A V)
  /-- `Subset`, `Sliced`, `Sliced2`, `Transposed`, `Permuted`, `Component` of an expression -/
  | view (k : Bool) (g : Nat → Nat) (x : E A V)
  /-- a block the traversal does not know, such as `Diag` -/
  | other (g : Nat → Nat) (x : E A V)
  /-- `Unary<O, B, false>` with `cache_` -/
  | op (k : Bool) (F : (Nat → V) → Nat → V) (x : E A V) (cache : Option (Nat → V))
  /-- `Binary<O, L, R, false>` with `cache_` -/
  | op2 (k : Bool) (F : (Nat → V) → (Nat → V) → Nat → V) (x y : E A V) (cache : Option (Nat → V))

variable {A V : Type}

/-- whether the block's type is `const` in the block above; for blocks not traversed it makes no difference -/
def E.const : E A V → Bool
  | .leaf _ | .scalar _ | .other _ _ => true
  | .un k _ _ | .bin k _ _ _ | .view k _ _ | .op k _ _ _ | .op2 k _ _ _ _ => k

/-- the value `get(i)` returns (unary.hpp l.66-67, 108-112) -/
def val (m : A → V) : E A V → Nat → V
  | .leaf a, i => m (a i)
  | .scalar v, _ => v
  | .un _ f x, i => f (val m x i)
  | .bin _ f x y, i => f (val m x i) (val m y i)
  | .view _ g x, i => val m x (g i)
  | .other g x, i => val m x (g i)
  | .op _ _ _ (some c), i => c i
  | .op _ F x none, i => F (val m x) i
  | .op2 _ _ _ _ (some c), i => c i
  | .op2 _ F x y none, i => F (val m x) (val m y) i

/-- the block after `get(i)`: every operation it came to has been evaluated (unary.hpp l.125-132) and has read its arguments.
(An operation may also read its argument by `apply`, which leaves no cache there; nothing reads that argument again.) -/
def fill (m : A → V) : E A V → E A V
  | .leaf a => .leaf a
  | .scalar v => .scalar v
  | .un k f x => .un k f (fill m x)
  | .bin k f x y => .bin k f (fill m x) (fill m y)
  | .view k g x => .view k g (fill m x)
  | .other g x => .other g (fill m x)
  | .op k F x (some c) => .op k F x (some c)
  | .op k F x none => .op k F (fill m x) (some (F (val m x)))
  | .op2 k F x y (some c) => .op2 k F x y (some c)
  | .op2 k F x y none => .op2 k F (fill m x) (fill m y) (some (F (val m x) (val m y)))

/-- how many operations `get(i)` applies -/
def cost : E A V → Nat
  | .leaf _ | .scalar _ => 0
  | .un _ _ x | .view _ _ x | .other _ x => cost x
  | .bin _ _ x y => cost x + cost y
  | .op _ _ _ (some _) | .op2 _ _ _ _ (some _) => 0
  | .op _ _ x none => 1 + cost x
  | .op2 _ _ x y none => 1 + (cost x + cost y)

/-- `Evaluator<B>::apply` (evaluate.hpp l.19-53): an operation is evaluated, nothing is done for other blocks -/
def own (m : A → V) (e : E A V) : E A V :=
  match e with
  | .op .. | .op2 .. => fill m e
  | e => e

/-- how many operations that applies -/
def ownCost (e : E A V) : Nat :=
  match e with
  | .op .. | .op2 .. => cost e
  | _ => 0

/-- `Traversal<Evaluator, B>::apply` for a type without `const` (traversal.hpp l.35-178): the arguments, by the primary template if their
type is `const`, then the block itself -/
def visit (m : A → V) : E A V → E A V
  | .un k f x => .un k f (if x.const then own m x else visit m x)
  | .bin k f x y => .bin k f (if x.const then own m x else visit m x) (if y.const then own m y else visit m y)
  | .view k g x => .view k g (if x.const then own m x else visit m x)
  | .op k F x c => own m (.op k F (if x.const then own m x else visit m x) c)
  | .op2 k F x y c => own m (.op2 k F (if x.const then own m x else visit m x) (if y.const then own m y else visit m y) c)
  | e => e

/-- how many operations that applies -/
def visitCost (m : A → V) : E A V → Nat
  | .un _ _ x | .view _ _ x => if x.const then ownCost x else visitCost m x
  | .bin _ _ x y => (if x.const then ownCost x else visitCost m x) + (if y.const then ownCost y else visitCost m y)
  | .op k F x c => (if x.const then ownCost x else visitCost m x) + ownCost (.op k F (if x.const then own m x else visit m x) c)
  | .op2 k F x y c => (if x.const then ownCost x else visitCost m x) + (if y.const then ownCost y else visitCost m y) +
      ownCost (.op2 k F (if x.const then own m x else visit m x) (if y.const then own m y else visit m y) c)
  | _ => 0

/-- memory, the expression, and the number of operations applied so far -/
structure State (A V : Type) where
  m : A → V
  e : E A V
  n : Nat

/-- `expr::evaluate(rhs)` (evaluate.hpp l.55-60): the type of the outermost block is taken without `const` -/
def evaluate (s : State A V) : State A V := ⟨s.m, visit s.m s.e, s.n + visitCost s.m s.e⟩

/-- `lhs.put(i, rhs.get(i))` -/
def step [DecidableEq A] (lhs : Nat → A) (s : State A V) (i : Nat) : State A V :=
  ⟨Function.update s.m (lhs i) (val s.m s.e i), fill s.m s.e, s.n + cost s.e⟩

/-- `loop_fusion::exec` (loop_fusion.hpp l.24-33 and the others) -/
def assign [DecidableEq A] (lhs : Nat → A) (l : List Nat) (s : State A V) : State A V :=
  l.foldl (step lhs) (evaluate s)

end Verif.Lz
