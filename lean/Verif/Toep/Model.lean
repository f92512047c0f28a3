import Verif.Signal.Model
import Mathlib.Algebra.Star.Basic

/-!
# The Toeplitz solver

Model of `src/vsip/impl/solver/toepsol.hpp` l.46-104 (Levinson's recursion).

Values are from a field with a conjugation (`star`); `re` is the real part.  No rounding.  The four vectors do not share storage.  The result is
`none` where the code reads or writes outside a vector or divides by zero, `some (.error ())` where it throws `computation_error`.
-/

namespace Verif.Toep

open Verif.Sig

section
variable {K : Type} [Field K] [StarRing K] [DecidableEq K]

/-- `r.get(i)` for `r = t(Domain<1>(1, 1, n-1))`, toepsol.hpp l.61. -/
def rget (t : Vec K) (i : Nat) : Option K := if i < t.n - 1 then t.get (i + 1) else none

/-- Division; by zero there is no result. -/
def div? (a d : K) : Option K := if d = 0 then none else some (a / d)

/-- `dot(impl_conj(r(Domain<1>(k))), v(Domain<1>(k-1, -1, k)))`, l.82 and l.92. -/
def dotRev (t v : Vec K) (k : Nat) : Option K :=
  loop k 0 fun s i => do
    let a ← rget t i
    let b ← v.get (k - 1 - i)
    some (s + star a * b)

/-- `x(Domain<1>(k)) = mu * impl_conj(y(Domain<1>(k-1, -1, k))) + x(Domain<1>(k))`, l.86-87. -/
def addRev (mu : K) (y x : Vec K) (k : Nat) : Option (Vec K) :=
  loop k x fun x i => do
    let a ← y.get (k - 1 - i)
    let b ← x.get i
    x.put i (mu * star a + b)

/-- `tmpv(Domain<1>(k)) = alpha * impl_conj(y(Domain<1>(k-1, -1, k))) + y(Domain<1>(k))`, l.95-96. -/
def tmpRev (alpha : K) (y tmpv : Vec K) (k : Nat) : Option (Vec K) :=
  loop k tmpv fun tmpv i => do
    let a ← y.get (k - 1 - i)
    let b ← y.get i
    tmpv.put i (alpha * star a + b)

/-- `y(Domain<1>(k)) = tmpv(Domain<1>(k))`, l.97. -/
def copyTo (tmpv y : Vec K) (k : Nat) : Option (Vec K) :=
  loop k y fun y i => do
    let a ← tmpv.get i
    y.put i a

/-- The variables of the loop. -/
structure St (K : Type) where
  beta : K
  alpha : K
  x : Vec K
  y : Vec K
  tmpv : Vec K

/-- The body of the loop, l.76-100. -/
def step (scale : K) (t b : Vec K) (st : St K) (k : Nat) : Option (Except Unit (St K)) :=
  let beta := st.beta * (1 - st.alpha * star st.alpha)
  if beta = 0 then some (.error ())
  else do
    let tmps ← dotRev t st.x k
    let bk ← b.get k
    let mu ← div? (bk - tmps) (scale * beta)
    let x ← addRev mu st.y st.x k
    let x ← x.put k mu
    if k < t.n - 1 then
      (dotRev t st.y k).bind fun tmps =>
      (rget t k).bind fun rk =>
      (div? (-(tmps + star rk)) (scale * beta)).bind fun alpha =>
      (tmpRev alpha st.y st.tmpv k).bind fun tmpv =>
      (copyTo tmpv st.y k).bind fun y =>
      (y.put k alpha).bind fun y =>
      some (.ok ⟨beta, alpha, x, y, tmpv⟩)
    else some (.ok ⟨beta, st.alpha, x, st.y, st.tmpv⟩)

/-- Turn `i` of `for (index_type k=1; k<n; ++k)`, unless an exception is on its way. -/
def turn (scale : K) (t b : Vec K) (s : Except Unit (St K)) (i : Nat) : Option (Except Unit (St K)) :=
  match s with
  | .error e => some (.error e)
  | .ok st => step scale t b st (i + 1)

/-- `toepsol`, l.46-104. -/
def toepsol (re : K → K) (t b y x : Vec K) : Option (Except Unit (Vec K)) :=
  if t.n = b.n ∧ t.n = y.n ∧ t.n = x.n then do
    let t0 ← t.get 0
    let scale := re t0
    let r0 ← rget t 0
    let q ← div? (-r0) scale
    let alpha := star q
    let y ← y.put 0 alpha
    let b0 ← b.get 0
    let q ← div? b0 scale
    let x ← x.put 0 q
    let s ← loop (t.n - 1) (.ok ⟨1, alpha, x, y, ⟨t.n, fun _ => 0⟩⟩) (turn scale t b)
    some (s.map St.x)
  else none

end

end Verif.Toep
