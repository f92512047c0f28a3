import Mathlib.LinearAlgebra.Matrix.ConjTranspose
import Mathlib.LinearAlgebra.Matrix.NonsingularInverse

/-!
# The LAPACK based solvers

Model of `src/ovxx/lapack/{lu,cholesky,qr}.hpp` and of `covsol` and `llsqsol` in `src/vsip/impl/solver/`.

LAPACK itself is not part of the repository.  The factorisations (`getrf`, `potrf`, `geqrf`) are parameters, about which the theorems assume what the LAPACK
documentation says of them; the functions that use the factors (`getrs`, `potrs`, `mqr`, `trsm`) are given by their definition.

Simplifications.  Values are from a field with a conjugation (`star`), which is the identity for real types: no rounding.  Views are matrices, with sizes in their types;
`assign_local` is an assignment that visits the elements of its left hand side.  `none`: LAPACK refuses the arguments (the wrappers abort), a division by zero, or
an access outside of a matrix.
-/

noncomputable section

namespace Verif.Slv

open Matrix

/-- `mat_op_type` (`vsip/impl/math_enum.hpp`). -/
inductive Op where
  | ntrans
  | trans
  | herm
  deriving DecidableEq

/-- `product_side_type`. -/
inductive Side where
  | l
  | r
  deriving DecidableEq

/-- `storage_type`. -/
inductive Store where
  | nosaveq
  | saveq1
  | saveq
  deriving DecidableEq

section
variable {K : Type} [Field K] [StarRing K]

/-- `op(A)`. -/
def Op.app {m : ℕ} (o : Op) (A : Matrix (Fin m) (Fin m) K) : Matrix (Fin m) (Fin m) K :=
  match o with
  | .ntrans => A
  | .trans => Aᵀ
  | .herm => Aᴴ

/-- `blas::traits<T>::trans` (`blas.hpp` l.188-218): `'t'` for real types, `'c'` for complex ones. -/
def ctrans (cplx : Bool) : Op := if cplx then .herm else .trans

/-! ## LAPACK and BLAS -/

/-- `trsm('l', 'u', op, 'n', ...)`: solves `op(R) X = alpha B`, `R` being the upper triangle; divides by the diagonal. -/
def trsm [DecidableEq K] {n p : ℕ} (R : Matrix (Fin n) (Fin n) K) (o : Op) (alpha : K) (B : Matrix (Fin n) (Fin p) K) : Option (Matrix (Fin n) (Fin p) K) :=
  if ∀ i, R i i ≠ 0 then some ((o.app R)⁻¹ * (alpha • B)) else none

/-- What `getrf` leaves behind: the pivots, the strictly lower and the upper triangle. -/
structure LuFact (K : Type) (n : ℕ) where
  perm : Equiv.Perm (Fin n)
  data : Matrix (Fin n) (Fin n) K

/-- the unit lower triangular factor -/
def LuFact.low {n : ℕ} (f : LuFact K n) : Matrix (Fin n) (Fin n) K := fun i j => if j < i then f.data i j else if i = j then 1 else 0

/-- the upper triangular factor -/
def LuFact.up {n : ℕ} (f : LuFact K n) : Matrix (Fin n) (Fin n) K := fun i j => if i ≤ j then f.data i j else 0

/-- the permutation `P` of `A = P L U` -/
def LuFact.p {n : ℕ} (f : LuFact K n) : Matrix (Fin n) (Fin n) K := fun i j => if f.perm i = j then 1 else 0

/-- `getrs`: for `'N'`, apply the row interchanges, solve with `L`, solve with `U`; for `'T'` and `'C'` solve with `op(U)`, solve with `op(L)`, and undo the
interchanges. -/
def getrs [DecidableEq K] {n p : ℕ} (o : Op) (f : LuFact K n) (B : Matrix (Fin n) (Fin p) K) : Option (Matrix (Fin n) (Fin p) K) :=
  if ∀ i, f.data i i ≠ 0 then
    match o with
    | .ntrans => some (f.up⁻¹ * (f.low⁻¹ * (f.pᵀ * B)))
    | o => some (f.p * ((o.app f.low)⁻¹ * ((o.app f.up)⁻¹ * B)))
  else none

/-- The triangle of a Cholesky factor. -/
def tri {n : ℕ} (upper : Bool) (data : Matrix (Fin n) (Fin n) K) : Matrix (Fin n) (Fin n) K :=
  fun i j => if (if upper then i ≤ j else j ≤ i) then data i j else 0

/-- `potrs`: solves `Uᴴ U X = B` or `L Lᴴ X = B`. -/
def potrs [DecidableEq K] {n p : ℕ} (upper : Bool) (data : Matrix (Fin n) (Fin n) K) (B : Matrix (Fin n) (Fin p) K) : Option (Matrix (Fin n) (Fin p) K) :=
  if ∀ i, data i i ≠ 0 then
    if upper then some ((tri true data)⁻¹ * ((tri true data)ᴴ⁻¹ * B)) else some ((tri false data)ᴴ⁻¹ * ((tri false data)⁻¹ * B))
  else none

/-- What `geqrf` leaves behind: the upper triangle `R` with the reflectors below it, and the factors `tau`. -/
structure QrFact (K : Type) (m n : ℕ) where
  data : Matrix (Fin m) (Fin n) K
  tau : Fin n → K

/-- The top n x n upper triangle, which is what `trsm` reads of `data_`. -/
def QrFact.r {m n : ℕ} (h : n ≤ m) (f : QrFact K m n) : Matrix (Fin n) (Fin n) K := fun i j => if i ≤ j then f.data (Fin.castLE h i) j else 0

/-- LAPACK: how it factorises, and the matrix `Q` of order `k` that the first `k` rows of the reflectors stand for. -/
structure Lapack (K : Type) (m n : ℕ) where
  getrf : Matrix (Fin n) (Fin n) K → LuFact K n × Bool
  potrf : Bool → Matrix (Fin n) (Fin n) K → Matrix (Fin n) (Fin n) K × Bool
  geqrf : Matrix (Fin m) (Fin n) K → QrFact K m n
  q : (k : ℕ) → QrFact K m n → Matrix (Fin k) (Fin k) K

/-- `xORMQR` (real types, which does not know `'c'`), `xUNMQR` (complex types, which does not know `'t'`): `C := op(Q) C` or `C := C op(Q)`; the order of `Q` is
the number of rows or columns of `C`, which must be at least the number of reflectors and (on account of `lda`) not more than `m`. -/
def mqr {m n : ℕ} (lib : Lapack K m n) (cplx : Bool) (s : Side) (o : Op) (f : QrFact K m n) {r c : ℕ} (C : Matrix (Fin r) (Fin c) K) :
    Option (Matrix (Fin r) (Fin c) K) :=
  if o = (if cplx then .trans else .herm) then none
  else
    match s with
    | .l => if n ≤ r ∧ r ≤ m then some (o.app (lib.q r f) * C) else none
    | .r => if n ≤ c ∧ c ≤ m then some (C * o.app (lib.q c f)) else none

/-! ## LU (`lu.hpp`) -/

/-- A `lud` object: `ipiv_` and `data_`. -/
structure Lud (K : Type) (n : ℕ) where
  fact : LuFact K n

/-- `decompose` (l.58-69). -/
def Lud.decompose {m n : ℕ} (lib : Lapack K m n) (_s : Lud K n) (A : Matrix (Fin n) (Fin n) K) : Lud K n × Bool :=
  let r := lib.getrf A
  (⟨r.1⟩, r.2)

/-- `solve` (l.71-99): the value returned and what is assigned to `x`; `mat_herm` is for complex types only (l.80). -/
def Lud.solve [DecidableEq K] {n p : ℕ} (cplx : Bool) (s : Lud K n) (o : Op) (B : Matrix (Fin n) (Fin p) K) : Option (Bool × Matrix (Fin n) (Fin p) K) :=
  if o = .herm ∧ cplx = false then none
  else (getrs o s.fact B).map fun x => (true, x)

/-! ## Cholesky (`cholesky.hpp`) -/

/-- A `chold` object. -/
structure Chold (K : Type) (n : ℕ) where
  upper : Bool
  data : Matrix (Fin n) (Fin n) K

/-- `decompose` (l.57-66). -/
def Chold.decompose {m n : ℕ} (lib : Lapack K m n) (s : Chold K n) (A : Matrix (Fin n) (Fin n) K) : Chold K n × Bool :=
  let r := lib.potrf s.upper A
  ({ s with data := r.1 }, r.2)

/-- `solve` (l.68-87). -/
def Chold.solve [DecidableEq K] {n p : ℕ} (s : Chold K n) (B : Matrix (Fin n) (Fin p) K) : Option (Bool × Matrix (Fin n) (Fin p) K) :=
  (potrs s.upper s.data B).map fun x => (true, x)

/-! ## QR (`qr.hpp`) -/

/-- A `qrd` object (rows and columns in its type). -/
structure Qrd (K : Type) (m n : ℕ) where
  store : Store
  fact : QrFact K m n

/-- `decompose` (l.82-97). -/
def Qrd.decompose {m n : ℕ} (lib : Lapack K m n) (s : Qrd K m n) (A : Matrix (Fin m) (Fin n) K) : Qrd K m n × Bool :=
  ({ s with fact := lib.geqrf A }, true)

/-- Assignment of a matrix to one of other sizes: reads the right hand side wherever the left hand side has an element. -/
def assign {r c r' c' : ℕ} (C : Matrix (Fin r) (Fin c) K) : Option (Matrix (Fin r') (Fin c') K) :=
  if h : (r' ≤ r ∧ c' ≤ c) ∨ r' = 0 ∨ c' = 0 then
    some fun i j => C (Fin.castLE (by have := i.2; have := j.2; omega) i) (Fin.castLE (by have := i.2; have := j.2; omega) j)
  else none

/-- The size `q_rows`, `q_cols` of the matrix that multiplies (l.113-138). -/
def qSize (m n : ℕ) (st : Store) (o : Op) : ℕ × ℕ :=
  let q := if st = .saveq1 then (m, n) else (m, m)
  if o = .ntrans then q else (q.2, q.1)

/-- `prodq` (l.99-180); `none` also where a precondition (l.104, 142-154) is violated. -/
def Qrd.prodq {m n : ℕ} (lib : Lapack K m n) (cplx : Bool) (s : Qrd K m n) (o : Op) (sd : Side) {r c r' c' : ℕ} (B : Matrix (Fin r) (Fin c) K) :
    Option (Matrix (Fin r') (Fin c') K) :=
  if s.store = .nosaveq then none
  else
    let q := qSize m n s.store o
    if (if sd = .l then r = q.2 ∧ r' = q.1 ∧ c = c' else c = q.1 ∧ c' = q.2 ∧ r = r') then (mqr lib cplx sd o s.fact B).bind assign
    else none

/-- The size of what the by-value `prodq` returns (`vsip/impl/solver/qr.hpp` l.127-143). -/
def prodqSize (m n : ℕ) (st : Store) (o : Op) (sd : Side) (r c : ℕ) : ℕ × ℕ :=
  if sd = .l then (if st = .saveq then m else if o = .trans ∨ o = .herm then n else m, c)
  else (r, if st = .saveq then m else if o = .trans ∨ o = .herm then m else n)

/-- `rsol` (l.182-226). -/
def Qrd.rsol [DecidableEq K] {m n p : ℕ} (h : n ≤ m) (s : Qrd K m n) (o : Op) (B : Matrix (Fin n) (Fin p) K) (alpha : K) :
    Option (Bool × Matrix (Fin n) (Fin p) K) :=
  (trsm (s.fact.r h) o alpha B).map fun x => (true, x)

/-- `covsol` (l.228-275). -/
def Qrd.covsol [DecidableEq K] {m n p : ℕ} (h : n ≤ m) (cplx : Bool) (s : Qrd K m n) (B : Matrix (Fin n) (Fin p) K) :
    Option (Bool × Matrix (Fin n) (Fin p) K) :=
  (trsm (s.fact.r h) (ctrans cplx) 1 B).bind fun b1 => (trsm (s.fact.r h) .ntrans 1 b1).map fun x => (true, x)

/-- `lsqsol` (l.277-337): `trsm` works on the first n rows of `c`, which are then assigned. -/
def Qrd.lsqsol [DecidableEq K] {m n p : ℕ} (h : n ≤ m) (lib : Lapack K m n) (cplx : Bool) (s : Qrd K m n) (B : Matrix (Fin m) (Fin p) K) :
    Option (Bool × Matrix (Fin n) (Fin p) K) :=
  (mqr lib cplx .l (ctrans cplx) s.fact B).bind fun c =>
    (trsm (s.fact.r h) .ntrans 1 (fun i j => c (Fin.castLE h i) j)).map fun x => (true, x)

/-! ## The functions (`vsip/impl/solver/{covsol,llsqsol}.hpp`) -/

/-- `covsol(a, b, x)` (covsol.hpp l.24-63). -/
def covsol [DecidableEq K] {m n p : ℕ} (h : n ≤ m) (lib : Lapack K m n) (cplx : Bool) (A : Matrix (Fin m) (Fin n) K) (B : Matrix (Fin n) (Fin p) K) :
    Option (Matrix (Fin n) (Fin p) K) :=
  let s := ((⟨.nosaveq, ⟨0, 0⟩⟩ : Qrd K m n).decompose lib A).1
  (s.rsol h (if cplx then .herm else .trans) B 1).bind fun b1 => (s.rsol h .ntrans b1.2 1).map fun x => x.2

/-- `llsqsol(a, b, x)` (llsqsol.hpp l.27-66). -/
def llsqsol [DecidableEq K] {m n p : ℕ} (h : n ≤ m) (lib : Lapack K m n) (cplx : Bool) (A : Matrix (Fin m) (Fin n) K) (B : Matrix (Fin m) (Fin p) K) :
    Option (Matrix (Fin n) (Fin p) K) :=
  let s := ((⟨.saveq1, ⟨0, 0⟩⟩ : Qrd K m n).decompose lib A).1
  (s.lsqsol h lib cplx B).map fun x => x.2

end

end Verif.Slv
