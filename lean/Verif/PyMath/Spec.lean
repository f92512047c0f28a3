import Verif.PyMath.Model
/-! What the functions of the Python front end should give, from mathematics alone. -/
namespace Verif.Pym

/-- types of numbers -/
def Numeric (k : K) : Prop := k = .f ∨ k = .d ∨ k = .cf ∨ k = .cd

/-- the type of `f x` -/
inductive HasType : Fn → K → K → Prop where
  /-- argument and squared magnitude are real -/
  | argF : HasType .arg .cf .f
  | argD : HasType .arg .cd .d
  | magF : HasType .magsq .f .f
  | magD : HasType .magsq .d .d
  | magCF : HasType .magsq .cf .f
  | magCD : HasType .magsq .cd .d
  /-- Euler's formula gives complex numbers -/
  | eulF : HasType .euler .f .cf
  | eulD : HasType .euler .d .cd
  /-- comparison gives truth values -/
  | eq (k : K) : HasType .eq k .b
  /-- all other functions keep the type -/
  | same (f : Fn) (k : K) (h : f ≠ .arg ∧ f ≠ .magsq ∧ f ≠ .euler ∧ f ≠ .eq) : HasType f k k

/-- the shape of the product of matrices -/
def Mul (a b c : Nat × Nat) : Prop := a.2 = b.1 ∧ c = (a.1, b.2)

/-- the shape of a matrix after an operation -/
def OpShape : Op → Nat × Nat → Nat × Nat
  | .ntrans, s | .conj, s => s
  | .trans, s | .herm, s => (s.2, s.1)

/-- the shape of the saved factor -/
def QShape (q : Qrd) : QSave → Option (Nat × Nat)
  | .nosave => none
  | .saveq1 => some (q.rows, q.cols)
  | .saveq => some (q.rows, q.rows)

/-- raises an exception -/
def Raises {α : Type} (o : Out α) : Prop := ∃ e, o = .raise e

end Verif.Pym
