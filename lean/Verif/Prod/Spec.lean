import Mathlib.Data.Nat.Notation
import Mathlib.Data.Int.Notation
import Mathlib.Algebra.BigOperators.Group.Finset.Basic
import Mathlib.Algebra.BigOperators.Ring.Finset

/-!
# Specification of matrix products

What an expression of products, transpositions and elementwise operations on stored matrices means, in terms of the memory at the time of the assignment.  A vector
is a matrix of one column or one row.
-/

namespace Verif.Prd

open Finset

/-- A stored matrix: address of element `(i, j)` is `base + i * sr + j * sc`. -/
structure MV where
  base : ℤ
  sr : ℤ
  sc : ℤ
  rows : ℕ
  cols : ℕ
deriving DecidableEq

/-- The address of an element. -/
def MV.at (v : MV) (i j : ℕ) : ℤ := v.base + i * v.sr + j * v.sc

/-- An expression as a program writes it. -/
inductive P (T : Type) where
  | view (v : MV)
  | trans (x : P T)
  /-- elementwise, with any function -/
  | bin (f : T → T → T) (x y : P T)
  /-- `prod(x, y)` with the second argument passed through `c`, conjugation or nothing -/
  | prod (c : T → T) (x y : P T)

namespace P
variable {T : Type}

mutual
/-- number of rows -/
def rows : P T → ℕ
  | view v => v.rows
  | trans x => cols x
  | bin _ x _ => rows x
  | prod _ x _ => rows x
/-- number of columns -/
def cols : P T → ℕ
  | view v => v.cols
  | trans x => rows x
  | bin _ x _ => cols x
  | prod _ _ y => cols y
end

/-- Sizes agree everywhere. -/
def Sized : P T → Prop
  | view _ => True
  | trans x => Sized x
  | bin _ x y => Sized x ∧ Sized y ∧ rows x = rows y ∧ cols x = cols y
  | prod _ x y => Sized x ∧ Sized y ∧ cols x = rows y

/-- The matrix an expression stands for. -/
def val [Semiring T] (m : ℤ → T) : P T → ℕ → ℕ → T
  | view v => fun i j => m (v.at i j)
  | trans x => fun i j => val m x j i
  | bin f x y => fun i j => f (val m x i j) (val m y i j)
  | prod c x y => fun i j => ∑ k ∈ range (cols x), val m x i k * c (val m y k j)

/-- The stored matrices in an expression that are not inside of a product. -/
def outer : P T → List MV
  | view v => [v]
  | trans x => outer x
  | bin _ x y => outer x ++ outer y
  | prod _ _ _ => []

end P

/-- Different elements have different addresses. -/
def MV.Distinct (v : MV) : Prop := ∀ i < v.rows, ∀ j < v.cols, ∀ i' < v.rows, ∀ j' < v.cols, v.at i j = v.at i' j' → i = i' ∧ j = j'

/-- Conversions that may be applied to every partial sum or only to the whole one; such are the identity and reductions modulo a power of two, but not truncation. -/
def Absorbs {T : Type} [Semiring T] (cv : T → T) : Prop := cv 0 = 0 ∧ ∀ x y, cv (cv x + y) = cv (x + y)

/-- No element in common. -/
def MV.Apart (v w : MV) : Prop := ∀ i < v.rows, ∀ j < v.cols, ∀ i' < w.rows, ∀ j' < w.cols, v.at i j ≠ w.at i' j'

end Verif.Prd
