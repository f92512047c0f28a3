import Mathlib.Data.Rat.Defs
import Mathlib.Data.Rat.Floor
import Mathlib.Algebra.Order.Field.Rat
import Mathlib.Algebra.BigOperators.Group.List.Basic

/-! # What the examples of custom evaluators, convolutions and solvers are said to compute -/

namespace Verif.Custom.Spec

/-- `v` lies on the straight line through `(p, f)` and `(q, g)` at the place `t`. -/
def OnLine (p f q g t v : ℚ) : Prop := (v - f) * (q - p) = (t - p) * (g - f)

/-- Element `(i, j)` of the product of `a` with `b`, the inner length being `n`. -/
def product (n : ℕ) (a b : ℕ → ℕ → ℚ) (i j : ℕ) : ℚ :=
  ((List.range n).map fun k => a i k * b k j).sum

/-- A matrix in memory, row by row with the distance `s` between rows. -/
def rows (s : ℕ) (m : List ℚ) (i j : ℕ) : ℚ := m.getD (i * s + j) 0

/-- Value `n` of the circular convolution of a kernel of `K` values with a periodic signal of `N`
values, `K ≤ N + 1`. -/
def circular (N K : ℕ) (kernel input : ℕ → ℚ) (n : ℕ) : ℚ :=
  ((List.range K).map fun k => kernel k * input ((n + N - k) % N)).sum

/-- The values of a spectrum of a real signal: the upper half mirrors the lower one. -/
def Hermitian {V : Type} (conj : V → V) (N : ℕ) (X : ℕ → V) : Prop :=
  ∀ k, 0 < k → k < N → X (N - k) = conj (X k)

/-- Three equations with three unknowns. -/
structure V3 where
  a : ℚ
  b : ℚ
  c : ℚ
deriving DecidableEq

/-- A matrix given by its rows, times a vector. -/
def mulVec (r0 r1 r2 x : V3) : V3 :=
  ⟨r0.a * x.a + r0.b * x.b + r0.c * x.c, r1.a * x.a + r1.b * x.b + r1.c * x.c,
    r2.a * x.a + r2.b * x.b + r2.c * x.c⟩

end Verif.Custom.Spec
