import Verif.Domain.Model
import Mathlib.Data.List.Basic
import Mathlib.Data.Int.Notation
import Mathlib.Order.Lattice

/-!
# What the Python front end promises

Independent of the model: which elements a Python slice selects, and what a row, a column, a diagonal and a component are.
-/

namespace Verif.Py

/-- A Python slice `start:stop:step`; `none` is an omitted part. -/
structure Slice where
  start : Option ℤ
  stop : Option ℤ
  step : Option ℤ
  deriving DecidableEq

/-- An index counted from the end when negative. -/
def norm (n : ℕ) (i : ℤ) : ℤ := if i < 0 then i + n else i

/-- Where a slice with positive step starts. -/
def bottom (n : ℕ) : Option ℤ → ℤ
  | none => 0
  | some i => max 0 (norm n i)

/-- Where a slice with negative step starts. -/
def top (n : ℕ) : Option ℤ → ℤ
  | none => (n : ℤ) - 1
  | some i => min ((n : ℤ) - 1) (norm n i)

/-- The indices `0 ≤ x < n` a slice with positive step selects: from the first on, before the last, in whole steps. -/
def SelUp (s : Slice) (k : ℤ) (n : ℕ) (x : ℤ) : Prop :=
  0 ≤ x ∧ x < n ∧ bottom n s.start ≤ x ∧ (∀ j ∈ s.stop, x < norm n j) ∧ k ∣ x - bottom n s.start

/-- The indices a slice with negative step selects: from the first down, above the last, in whole steps. -/
def SelDown (s : Slice) (k : ℤ) (n : ℕ) (x : ℤ) : Prop :=
  0 ≤ x ∧ x < n ∧ x ≤ top n s.start ∧ (∀ j ∈ s.stop, norm n j < x) ∧ k ∣ x - top n s.start

/-- `l` is the list of the elements a slice of a sequence of length `n` selects, in order (Python library reference, "Common sequence operations", s[i:j:k]). -/
structure Selects (s : Slice) (n : ℕ) (l : List ℕ) : Prop where
  up : ∀ k, s.step.getD 1 = k → 0 < k → l.Pairwise (· < ·) ∧ ∀ x : ℕ, x ∈ l ↔ SelUp s k n x
  down : ∀ k, s.step.getD 1 = k → k < 0 → l.Pairwise (· > ·) ∧ ∀ x : ℕ, x ∈ l ↔ SelDown s k n x

end Verif.Py
