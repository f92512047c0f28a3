import Mathlib.Data.Rat.Defs
import Mathlib.Algebra.Order.Field.Rat

/-! # What the benchmarks should measure and check (specification) -/

namespace Verif.Bops

/-- the processors meant by a letter: all, the first, the last, all but the first, all but the first and the last -/
def wanted (np : ℕ) (c : Char) : List ℕ :=
  if c = '1' then [0]
  else if c = '2' then [np - 1]
  else if c = 'b' then (List.range np).filter fun p => p ≠ 0
  else if c = 'w' then (List.range np).filter fun p => p ≠ 0 ∧ p ≠ np - 1
  else List.range np

/-- elements of a `rows` by `cols` matrix times vector product that must be read: the matrix, and the vector once -/
def readElems (byRow : Bool) (rows cols : ℕ) : ℕ := rows * cols + if byRow then cols else rows

/-- a range of memory filled with one value, nothing else changed -/
def Filled {V : Type} (size : ℕ) (val : V) (m m' : ℕ → V) : Prop :=
  (∀ a < size, m' a = val) ∧ ∀ a, size ≤ a → m' a = m a

end Verif.Bops
