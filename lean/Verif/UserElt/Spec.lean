import Mathlib.Data.Rat.Floor
import Mathlib.Algebra.Order.Field.Rat
import Mathlib.Algebra.BigOperators.Group.List.Basic
/-!
What user-supplied element functions are expected to do: values of two arithmetic types, and the value of a function with declared
parameter and result types at given arguments.
-/
namespace Verif.Ue

/-- an integer type and a real type (overflow and rounding are not modelled) -/
inductive Ty | int | real
  deriving DecidableEq

/-- conversion of a value to a type: to integers by truncation towards zero -/
def into : Ty → ℚ → ℚ
  | .int, x => if 0 ≤ x then (⌊x⌋ : ℤ) else (⌈x⌉ : ℤ)
  | .real, x => x

/-- values of a type are those that the conversion keeps -/
def HasTy (t : Ty) (x : ℚ) : Prop := into t x = x

/-- What the user's function returns in C++ for arguments `xs`: the arguments are converted to the declared parameters, the result to
the declared result. -/
def callValue (args : List Ty) (res : Ty) (body : List ℚ → ℚ) (xs : List ℚ) : ℚ :=
  into res (body (List.zipWith into args xs))

/-- The sum of the first `n` values. -/
def sumTo (n : Nat) (g : Nat → ℚ) : ℚ := ((List.range n).map g).sum

end Verif.Ue
