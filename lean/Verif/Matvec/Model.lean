import Verif.Signal.Model
import Mathlib.Algebra.Ring.Defs
/-!
Model of `/repo/src/vsip/impl/matvec.hpp`, the generic evaluators.  Rounding is not modelled.  Reading or writing outside a view and
failed preconditions give `none`.  The result of `a * b` is in the promoted type; where the code stores an intermediate value in the type
of a scalar argument (which may be narrower) the conversion appears as the parameter `cv`.
-/
namespace Verif.Mv
open Verif.Sig

variable {S T K : Type}

/-- `for (index_type i = n; i-- > 0; )` -/
def loopDown {σ : Type} (n : Nat) (s : σ) (body : σ → Nat → Option σ) : Option σ := (List.range n).reverse.foldlM body s

/-- generic outer product: real `alpha` (l.52-64) and complex `alpha` (l.76-88) -/
def outerExec [Mul T] (conj : T → T) (alphaComplex : Bool) (alpha : T) (a b : Vec T) (r : Mat T) : Option (Mat T) :=
  if a.n = r.rows ∧ b.n = r.cols then
    loopDown a.n r fun r i => loopDown b.n r fun r j => do
      let y ← b.get j
      r.put i j (alpha * (← a.get i) * (if alphaComplex then conj y else y))
  else none

/-- `outer(alpha, v, w)` (l.628-642); `alpha` and `v` have the same value type (l.181-184) -/
def outer [Mul T] [Zero T] (conj : T → T) (alphaComplex : Bool) (alpha : T) (v w : Vec T) : Option (Mat T) :=
  outerExec conj alphaComplex alpha v w ⟨v.n, w.n, fun _ _ => 0⟩

/-- generic dot product (l.109-120) -/
def dot [Add T] [Mul T] [Zero T] (a b : Vec T) : Option T :=
  if a.n = b.n then loop a.n 0 fun r i => do some (r + (← a.get i) * (← b.get i)) else none

/-- `cvjdot` (l.577-584): `conj(w)` is an expression view -/
def cvjdot [Add T] [Mul T] [Zero T] (conj : T → T) (v w : Vec T) : Option T := dot v ⟨w.n, fun i => conj (w.f i)⟩

/-- the innermost loop of gemp (l.158-160); `T1 dot` has the type of alpha -/
def gempDot [Add T] [Mul T] [Zero T] (cv : T → T) (a b : Mat T) (i j : Nat) : Option T :=
  loop a.cols 0 fun d k => do some (cv (d + (← a.get i k) * (← b.get k j)))

/-- generic gemp (l.146-165) -/
def gempExec [Add T] [Mul T] [Zero T] (cv : T → T) (alpha : T) (a b : Mat T) (beta : T) (c : Mat T) : Option (Mat T) :=
  if a.rows = c.rows ∧ b.cols = c.cols ∧ a.cols = b.rows then
    loopDown a.rows c fun c i => loopDown b.cols c fun c j => do
      c.put i j (alpha * (← gempDot cv a b i j) + beta * (← c.get i j))
  else none

/-- vector-vector kron (l.223-234) -/
def kronVec [Mul T] (fresh : Nat → Nat → T) (alpha : T) (v w : Vec T) : Option (Mat T) :=
  loopDown w.n ⟨w.n, v.n, fresh⟩ fun r i => loopDown v.n r fun r j => do r.put i j (alpha * (← w.get i) * (← v.get j))

/-- matrix-matrix kron (l.244-262); `T0 val` has the type of alpha -/
def kronMat [Mul T] (cv : T → T) (fresh : Nat → Nat → T) (alpha : T) (v w : Mat T) : Option (Mat T) :=
  loopDown v.rows ⟨v.rows * w.rows, v.cols * w.cols, fresh⟩ fun r i => loopDown w.rows r fun r j =>
    loopDown v.cols r fun r k => loopDown w.cols r fun r l => do
      r.put (j + i * w.rows) (l + k * w.cols) (cv (alpha * (← v.get i k) * (← w.get j l)))

/-- `mat_op_type` (vsip/impl/math_enum.hpp l.15-22) -/
inductive MatOp | ntrans | trans | herm | conj

/-- `Apply_mat_op` (l.346-450); for real element types `conj` is the identity -/
def applyOp (conj : T → T) : MatOp → Mat T → Mat T
  | .ntrans, m => m
  | .trans, m => ⟨m.cols, m.rows, fun i j => m.f j i⟩
  | .herm, m => ⟨m.cols, m.rows, fun i j => conj (m.f j i)⟩
  | .conj, m => ⟨m.rows, m.cols, fun i j => conj (m.f i j)⟩

/-- `gemp<OpA, OpB>` (l.647-671) -/
def gemp [Add T] [Mul T] [Zero T] (cv conj : T → T) (opA opB : MatOp) (alpha : T) (A B : Mat T) (beta : T) (C : Mat T) :
    Option (Mat T) := gempExec cv alpha (applyOp conj opA A) (applyOp conj opB B) beta C

/-- `gems<OpA>` (l.288-297, 674-688): the assignment of the expression is an elementwise loop (C29) -/
def gems [Add T] [Mul T] (conj : T → T) (opA : MatOp) (alpha : T) (A : Mat T) (beta : T) (C : Mat T) : Option (Mat T) :=
  let A := applyOp conj opA A
  if A.rows = C.rows ∧ A.cols = C.cols then
    loop C.rows C fun M i => loop C.cols M fun M j => do M.put i j (alpha * (← A.get i j) + beta * (← M.get i j))
  else none

/-- cumsum of a vector (l.460-475); the state is `(sum, w)` -/
def cumsumVec [AddMonoid T] (cv : S → T) (v : Vec S) (w : Vec T) : Option (T × Vec T) :=
  if v.n = w.n then loop v.n (0, w) fun st i => do
    let sum := st.1 + cv (← v.get i)
    some (sum, ← st.2.put i sum)
  else none

/-- the same with `v` and `w` the same view -/
def cumsumVecInplace [AddMonoid T] (w : Vec T) : Option (T × Vec T) :=
  loop w.n (0, w) fun st i => do
    let sum := st.1 + (← st.2.get i)
    some (sum, ← st.2.put i sum)

/-- position `i` on line `k`: `(m, i)` for `d == 0` (l.492-500), `(i, n)` for `d == 1` (l.510-518) -/
def lineAt (d k i : Nat) : Nat × Nat := if d = 0 then (k, i) else (i, k)

/-- inner loop of cumsum of a matrix (l.496-500, 514-518); the input is read from `src` of the current output -/
def cumsumLine [AddMonoid T] (cv : S → T) (d : Nat) (src : Mat T → Mat S) (n k : Nat) (w : Mat T) : Option (T × Mat T) :=
  loop n (0, w) fun st i => do
    let sum := st.1 + cv (← (src st.2).get (lineAt d k i).1 (lineAt d k i).2)
    some (sum, ← st.2.put (lineAt d k i).1 (lineAt d k i).2 sum)

/-- cumsum of a matrix of size `rows × cols` (l.485-521); `src` gives the input from the current output: a constant function, or the
identity in place.  The code does not check that the sizes of input and output agree. -/
def cumsumMat [AddMonoid T] (cv : S → T) (d : Nat) (src : Mat T → Mat S) (rows cols : Nat) (w : Mat T) : Option (Mat T) :=
  if d = 0 then loop rows w fun w m => (cumsumLine cv 0 src cols m w).map (·.2)
  else if d = 1 then loop cols w fun w n => (cumsumLine cv 1 src rows n w).map (·.2)
  else some w

/-- modulate (l.531-562): the phase returned and the output; `expi x` is `exp(complex(0, x))` -/
def modulate [Ring K] [Mul T] (expi : K → T) (v : Vec T) (nu phi : K) (w : Vec T) : Option (K × Vec T) :=
  if v.n = w.n then do
    let w ← loopDown v.n w fun w i => do w.put i ((← v.get i) * expi (i * nu + phi))
    some (v.n * nu + phi, w)
  else none

/-- a caller that modulates a series frame by frame, passing on the phase (as the comment at l.558-559 says) -/
def modulateFrames [Ring K] [Mul T] [Inhabited T] (expi : K → T) (nu : K) : K → List (Vec T) → Option (K × List (Vec T))
  | phi, [] => some (phi, [])
  | phi, v :: vs => do
    let r ← modulate expi v nu phi ⟨v.n, fun _ => default⟩
    let rs ← modulateFrames expi nu r.1 vs
    some (rs.1, r.2 :: rs.2)

end Verif.Mv
