import Mathlib.Data.Nat.Notation
/-!
What a caller of the Python signal processing classes means by the arguments: written without reference to the model.
-/
namespace Verif.Pys

/-- how much time to spend on preparing a transform -/
inductive Effort where
  | estimate | measure | patient
  deriving DecidableEq

/-- effort by the number of times the transform will be used, 0 meaning very often (comment of src/ovxx/signal/fft.hpp l.73-78) -/
def effortFor (n : ℕ) : Effort :=
  if n = 0 then .patient else if n < 12 then .estimate else if n < 32 then .measure else .patient

/-- number of independent coefficients of the transform of `n` real numbers -/
def halfSpectrum (n : ℕ) : ℕ := n / 2 + 1

/-- sizes (rows, columns) after the size along one axis has been replaced: transforming rows changes the number of columns -/
def alongRows (rowWise : Bool) (f : ℕ → ℕ) (s : ℕ × ℕ) : ℕ × ℕ := if rowWise then (s.1, f s.2) else (f s.1, s.2)

end Verif.Pys
