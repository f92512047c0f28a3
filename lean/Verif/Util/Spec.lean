import Mathlib.Algebra.Order.Field.Basic
import Mathlib.Algebra.Order.AbsoluteValue.Basic
import Mathlib.Order.Lattice

/-!
# What the utilities are for

Nearness of numbers, updates in place, equally spaced values, costs of formulas and instants.  Nothing here refers to the model of the code.
-/

namespace Verif.Utl

/-- `a` and `b` differ by less than `ae`, or by no more than `re` of the smaller one. -/
def Close {F : Type} [Field F] [LinearOrder F] (re ae a b : F) : Prop := |a - b| < ae ∨ |a - b| ≤ re * min |a| |b|

/-- `m'` arises from `m` by replacing, for every index in `l`, what is at `f i` by `v i`. -/
def Updated {ι α : Type} (l : List ι) (f : ι → ℕ) (v : ι → α) (m m' : ℕ → α) : Prop :=
  (∀ i ∈ l, m' (f i) = v i) ∧ ∀ a, (∀ i ∈ l, f i ≠ a) → m' a = m a

/-- Formulas over given numbers. -/
inductive Tree
  | leaf
  | add (a b : Tree)
  | mul (a b : Tree)

/-- What a formula costs, if an addition costs `ca` and a product `cm`. -/
def Tree.cost (cm ca : ℕ) : Tree → ℕ
  | leaf => 0
  | add a b => a.cost cm ca + b.cost cm ca + ca
  | mul a b => a.cost cm ca + b.cost cm ca + cm

/-- The inner product of two vectors of length `n`. -/
def Tree.inner : ℕ → Tree
  | 0 => leaf
  | 1 => mul leaf leaf
  | n + 2 => add (inner (n + 1)) (mul leaf leaf)

/-- One element of `alpha * A * B + beta * C` with `k` columns in `A`. -/
def Tree.gemp (k : ℕ) : Tree := add (mul leaf (inner k)) (mul leaf leaf)

end Verif.Utl
