import Mathlib.Logic.Function.Basic
import Mathlib.Data.List.Basic
/-!
Model of element-wise expressions and their evaluation by loop fusion (`/repo/src/ovxx/expr/{unary,binary,ternary,scalar,generator}.hpp`,
`/repo/src/ovxx/assign/loop_fusion.hpp`) and of the dispatcher (`/repo/src/ovxx/dispatcher/dispatcher.hpp`).

A stored block (or any stack of views of one, see C22) is given by the address of each index.  All elements have one value type `V`; the
operations are arbitrary functions.
-/
namespace Verif.Ex

abbrev Idx := List Nat

/-- expression blocks over memory with addresses `A` and values `V` -/
inductive Expr (A V : Type) where
  | block (addr : Idx → A)
  /-- `Scalar` (scalar.hpp) -/
  | scalar (v : V)
  /-- `Generator` (generator.hpp l.55-59) -/
  | generator (f : Idx → V)
  /-- `Unary<Op, Block, true>` -/
  | unary (f : V → V) (x : Expr A V)
  /-- `Binary<Op, L, R, true>` -/
  | binary (f : V → V → V) (x y : Expr A V)
  /-- `Ternary<Op, B1, B2, B3, true>` -/
  | ternary (f : V → V → V → V) (x y z : Expr A V)
  /-- non-elementwise node (`Unary/Binary/Ternary<…, false>`): its value is computed once and cached -/
  | whole (f : (A → V) → Idx → V)

variable {A V : Type}

/-- `expr::evaluate(rhs)` (evaluate.hpp l.19-60): all non-elementwise nodes compute their caches -/
def evaluate (m : A → V) : Expr A V → Expr A V
  | .block a => .block a
  | .scalar v => .scalar v
  | .generator f => .generator f
  | .unary f x => .unary f (evaluate m x)
  | .binary f x y => .binary f (evaluate m x) (evaluate m y)
  | .ternary f x y z => .ternary f (evaluate m x) (evaluate m y) (evaluate m z)
  | .whole f => .generator (f m)

/-- `get(i…)` (unary.hpp l.66-71, binary.hpp l.108-122, ternary.hpp l.119-136) -/
def get (m : A → V) : Expr A V → Idx → V
  | .block a, i => m (a i)
  | .scalar v, _ => v
  | .generator f, i => f i
  | .unary f x, i => f (get m x i)
  | .binary f x y, i => f (get m x i) (get m y i)
  | .ternary f x y z, i => f (get m x i) (get m y i) (get m z i)
  | .whole f, i => f m i

/-- `loop_fusion<LHS, RHS, 1>` (loop_fusion.hpp l.24-33): indices in the order visited -/
def visit1 (n : Nat) : List Idx := (List.range n).map fun i => [i]
/-- `row2_type` (l.36-48) -/
def visit2row (rows cols : Nat) : List Idx := (List.range rows).flatMap fun i => (List.range cols).map fun j => [i, j]
/-- `col2_type` (l.51-63) -/
def visit2col (rows cols : Nat) : List Idx := (List.range cols).flatMap fun j => (List.range rows).map fun i => [i, j]
/-- `tuple<0,1,2>` (l.66-81) -/
def visit012 (a b c : Nat) : List Idx := (List.range a).flatMap fun i => (List.range b).flatMap fun j => (List.range c).map fun k => [i, j, k]
/-- `tuple<0,2,1>` (l.84-99) -/
def visit021 (a b c : Nat) : List Idx := (List.range a).flatMap fun i => (List.range c).flatMap fun k => (List.range b).map fun j => [i, j, k]
/-- `tuple<1,0,2>` (l.102-117) -/
def visit102 (a b c : Nat) : List Idx := (List.range b).flatMap fun j => (List.range a).flatMap fun i => (List.range c).map fun k => [i, j, k]
/-- `tuple<1,2,0>` (l.120-135) -/
def visit120 (a b c : Nat) : List Idx := (List.range b).flatMap fun j => (List.range c).flatMap fun k => (List.range a).map fun i => [i, j, k]
/-- `tuple<2,0,1>` (l.138-153) -/
def visit201 (a b c : Nat) : List Idx := (List.range c).flatMap fun k => (List.range a).flatMap fun i => (List.range b).map fun j => [i, j, k]
/-- `tuple<2,1,0>` (l.156-171) -/
def visit210 (a b c : Nat) : List Idx := (List.range c).flatMap fun k => (List.range b).flatMap fun j => (List.range a).map fun i => [i, j, k]

/-- the loops a left-hand side of given dimension order and size gets -/
inductive Loop : List Nat → List Nat → List Idx → Prop
  | d1 (n) : Loop [n] [0] (visit1 n)
  | row (r c) : Loop [r, c] [0, 1] (visit2row r c)
  | col (r c) : Loop [r, c] [1, 0] (visit2col r c)
  | d012 (a b c) : Loop [a, b, c] [0, 1, 2] (visit012 a b c)
  | d021 (a b c) : Loop [a, b, c] [0, 2, 1] (visit021 a b c)
  | d102 (a b c) : Loop [a, b, c] [1, 0, 2] (visit102 a b c)
  | d120 (a b c) : Loop [a, b, c] [1, 2, 0] (visit120 a b c)
  | d201 (a b c) : Loop [a, b, c] [2, 0, 1] (visit201 a b c)
  | d210 (a b c) : Loop [a, b, c] [2, 1, 0] (visit210 a b c)

/-- body of the loops: `lhs.put(i…, rhs.get(i…))` -/
def assignLoop [DecidableEq A] (lhs : Idx → A) (e : Expr A V) (m : A → V) (visit : List Idx) : A → V :=
  visit.foldl (fun m i => Function.update m (lhs i) (get m e i)) m

/-- `loop_fusion::exec(lhs, rhs)` -/
def loopFusion [DecidableEq A] (lhs : Idx → A) (e : Expr A V) (m : A → V) (visit : List Idx) : A → V :=
  assignLoop lhs (evaluate m e) m visit

/-! ### Dispatcher -/

/-- an `Evaluator`: `ct_valid`, `rt_valid(args)`, `exec(args)`; executing is recorded by a step on a state -/
structure Backend (Args S : Type) where
  ct : Bool
  rt : Args → Bool
  exec : Args → S → S

/-- outcome of `dispatch`: the state after executing a backend, or the exception `No backend` with the state at that time -/
inductive Outcome (S : Type) where
  | done (s : S)
  | noBackend (s : S)
deriving DecidableEq

/-- `Dispatcher<O, R(A...), L>::dispatch` for the list `b :: rest` (dispatcher.hpp l.76-78, 99-131): a backend that is not valid at
compile time is skipped; the last one of the list is the terminator -/
def dispatch {Args S : Type} (b : Backend Args S) : List (Backend Args S) → Args → S → Outcome S
  | [], args, s =>
    if b.ct then (if b.rt args then .done (b.exec args s) else .noBackend s)
    else .noBackend s
  | b' :: rest, args, s =>
    if b.ct then (if b.rt args then .done (b.exec args s) else dispatch b' rest args s)
    else dispatch b' rest args s

end Verif.Ex
