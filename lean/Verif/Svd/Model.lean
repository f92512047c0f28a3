import Verif.Svd.Spec

/-!
# The LAPACK based singular value decomposition

Model of `src/ovxx/lapack/svd.hpp` and of the class `svd` in `src/vsip/impl/solver/svd.hpp`.

LAPACK is not part of the repository: `gebrd`, `gbr` (`orgbr`, `ungbr`) and `bdsqr` are parameters (structure `Lapack`), and the theorems assume what the
LAPACK documentation says about the calls that are made (`GebrdOk`, `GbrQOk`, `GbrPOk`, `BdsqrOk`).

Simplifications.  Values are from `RCLike 𝕜` (the real or the complex numbers): no rounding.  Sizes are below 2^31, so that their conversion to `int` changes
nothing.  `trans_or_herm` is the conjugate transpose for both.  Matrices are functions with sizes beside them; access outside is checked by the outcome
`none`, which also stands for a failed `OVXX_PRECONDITION` and for `abort()` in a LAPACK wrapper.
-/

namespace Verif.Svd

variable {𝕜 : Type} [RCLike 𝕜]

/-- `storage_type`: `svd_uvnos`, `svd_uvpart`, `svd_uvfull`. -/
inductive Store | nos | part | full
  deriving DecidableEq

/-- `product_side_type`. -/
inductive Side | l | r
  deriving DecidableEq

/-- `mat_op_type`: `mat_ntrans`, and `mat_trans` for real or `mat_herm` for complex types. -/
inductive Op | n | h
  deriving DecidableEq

/-- A matrix object. -/
structure Mx (𝕜 : Type) where
  rows : ℕ
  cols : ℕ
  val : ℕ → ℕ → 𝕜

/-! ## LAPACK -/

/-- What `gebrd` leaves behind. -/
structure Bidiag (𝕜 : Type) where
  a : ℕ → ℕ → 𝕜
  d : ℕ → ℝ
  e : ℕ → ℝ
  tauq : ℕ → 𝕜
  taup : ℕ → 𝕜

/-- The LAPACK functions; `bdsqr` may fail to converge, which the wrappers turn into `abort()` (flapack.hpp l.228-233, lapacke.hpp l.156-161). -/
structure Lapack (𝕜 : Type) where
  gebrd : (m n : ℕ) → (ℕ → ℕ → 𝕜) → Bidiag 𝕜
  /-- `orgbr('Q', m, n, k, a, tau)` -/
  gbrQ : (m n k : ℕ) → (ℕ → ℕ → 𝕜) → (ℕ → 𝕜) → ℕ → ℕ → 𝕜
  /-- `orgbr('P', m, n, k, a, tau)` -/
  gbrP : (m n k : ℕ) → (ℕ → ℕ → 𝕜) → (ℕ → 𝕜) → ℕ → ℕ → 𝕜
  /-- `bdsqr(uplo, n, ncvt, nru, 0, d, e, vt, u)`: the singular values, `vt` and `u` -/
  bdsqr : (upper : Bool) → (n ncvt nru : ℕ) → (d e : ℕ → ℝ) → (vt u : ℕ → ℕ → 𝕜) → Option ((ℕ → ℝ) × (ℕ → ℕ → 𝕜) × (ℕ → ℕ → 𝕜))

/-- The bidiagonal matrix. -/
def bidiag (upper : Bool) (d e : ℕ → ℝ) (i j : ℕ) : ℝ :=
  if i = j then d i else if upper ∧ j = i + 1 then e i else if ¬upper ∧ i = j + 1 then e j else 0

/-- What is promised about `gebrd`, for the unitary matrices `Q` and `P` that the reflectors it leaves behind determine. -/
structure GebrdOk (m n : ℕ) (A : ℕ → ℕ → 𝕜) (f : Bidiag 𝕜) (Q P : ℕ → ℕ → 𝕜) : Prop where
  q : Ortho m m Q
  p : Ortho n n P
  eq : ∀ i < m, ∀ j < n, A i j =
    ∑ k ∈ Finset.range (min m n), ∑ l ∈ Finset.range (min m n), Q i k * (bidiag (decide (n ≤ m)) f.d f.e k l : 𝕜) * star (P j l)

/-- `gbr('Q', m, c, k, ...)`, with `min(m, k) ≤ c ≤ m`, makes the first `c` columns of `Q` from the first `min(m, k)` columns of what `gebrd` left. -/
def GbrQOk (L : Lapack 𝕜) (m n : ℕ) (f : Bidiag 𝕜) (Q : ℕ → ℕ → 𝕜) : Prop :=
  ∀ c a, min m n ≤ c → c ≤ m → (∀ i < m, ∀ j < min m n, a i j = f.a i j) → ∀ i < m, ∀ j < c, L.gbrQ m c n a f.tauq i j = Q i j

/-- `gbr('P', r, n, k, ...)`, with `min(n, k) ≤ r ≤ n`, makes the first `r` rows of `P^H` from the first `min(n, k)` rows of what `gebrd` left. -/
def GbrPOk (L : Lapack 𝕜) (m n : ℕ) (f : Bidiag 𝕜) (P : ℕ → ℕ → 𝕜) : Prop :=
  ∀ r a, min m n ≤ r → r ≤ n → (∀ i < min m n, ∀ j < n, a i j = f.a i j) → ∀ i < r, ∀ j < n, L.gbrP r n m a f.taup i j = star (P j i)

/-- What is promised about `bdsqr` when it converges: `B = X diag(s) Y^T` with orthogonal `X` and `Y`, `u := u X`, `vt := Y^T vt`; other columns of `u` and
other rows of `vt` are not touched. -/
def BdsqrOk (L : Lapack 𝕜) (upper : Bool) (p : ℕ) (d e : ℕ → ℝ) : Prop :=
  ∀ ncvt nru vt u s vt' u', L.bdsqr upper p ncvt nru d e vt u = some (s, vt', u') → ∃ X Y : ℕ → ℕ → ℝ, Ortho p p X ∧ Ortho p p Y ∧
    (∀ i < p, ∀ j < p, bidiag upper d e i j = ∑ t ∈ Finset.range p, X i t * s t * Y j t) ∧
    (∀ l < p, 0 ≤ s l) ∧ (∀ k l, k ≤ l → l < p → s l ≤ s k) ∧
    (∀ i < nru, ∀ j < p, u' i j = ∑ k ∈ Finset.range p, u i k * (X k j : 𝕜)) ∧ (∀ i j, p ≤ j → u' i j = u i j) ∧
    (∀ i < p, ∀ j < ncvt, vt' i j = ∑ k ∈ Finset.range p, (Y k i : 𝕜) * vt k j) ∧ (∀ i j, p ≤ i → vt' i j = vt i j)

/-! ## The class -/

/-- `select_dim`, svd.hpp l.222-227. -/
def selectDim (st : Store) (full part : ℕ) : ℕ := if st = .full then full else if st = .part then part else 0

/-- The members that matter, svd.hpp l.199-219. -/
structure Svd (𝕜 : Type) where
  m : ℕ
  n : ℕ
  ust : Store
  vst : Store
  q : Mx 𝕜
  pt : Mx 𝕜

/-- `order()`. -/
def Svd.p (o : Svd 𝕜) : ℕ := min o.m o.n

/-- The constructor, svd.hpp l.229-254. -/
def make (m n : ℕ) (ust vst : Store) : Svd 𝕜 :=
  ⟨m, n, ust, vst, ⟨selectDim ust m m, selectDim ust m (min m n), fun _ _ => 0⟩, ⟨selectDim vst n (min m n), selectDim vst n n, fun _ _ => 0⟩⟩

/-- Assignment of the first `r` x `c` elements of `src` to a view of that size on `dst`; the rest of `dst` stays. -/
def put (dst : Mx 𝕜) (r c : ℕ) (src : ℕ → ℕ → 𝕜) : Option (Mx 𝕜) :=
  if r ≤ dst.rows ∧ c ≤ dst.cols then some { dst with val := fun i j => if i < r ∧ j < c then src i j else dst.val i j } else none

/-- The reflectors copied to `q_`, svd.hpp l.329-332. -/
def loadQ (o : Svd 𝕜) (a : ℕ → ℕ → 𝕜) : Option (Mx 𝕜) :=
  if o.n ≤ o.m then put o.q o.m o.n a else if o.q.rows = o.m ∧ o.q.cols = o.m then put o.q o.m o.m a else none

/-- Step 2 for `q_`, svd.hpp l.322-339. -/
def stepQ (L : Lapack 𝕜) (o : Svd 𝕜) (f : Bidiag 𝕜) : Option (Mx 𝕜) :=
  if o.ust = .full ∨ o.ust = .part then
    let cols := if o.ust = .full then o.m else o.p
    (loadQ o f.a).map fun q => { q with val := L.gbrQ o.m cols o.n q.val f.tauq }
  else some o.q

/-- The reflectors copied to `pt_`, svd.hpp l.349-352. -/
def loadP (o : Svd 𝕜) (a : ℕ → ℕ → 𝕜) : Option (Mx 𝕜) :=
  if o.n ≤ o.m then (if o.pt.rows = o.n ∧ o.pt.cols = o.n then put o.pt o.n o.n a else none) else put o.pt o.m o.n a

/-- Step 2 for `pt_`, svd.hpp l.342-359. -/
def stepP (L : Lapack 𝕜) (o : Svd 𝕜) (f : Bidiag 𝕜) : Option (Mx 𝕜) :=
  if o.vst = .full ∨ o.vst = .part then
    let rows := if o.vst = .full then o.n else o.p
    (loadP o f.a).map fun pt => { pt with val := L.gbrP rows o.n o.m pt.val f.taup }
  else some o.pt

/-- Step 3, svd.hpp l.378-403. -/
def step3 (L : Lapack 𝕜) (o : Svd 𝕜) (f : Bidiag 𝕜) (q pt : Mx 𝕜) : Option ((ℕ → ℝ) × Svd 𝕜) :=
  let nru := if o.ust ≠ .nos then o.m else 0
  let ncvt := if o.vst ≠ .nos then o.n else 0
  (L.bdsqr (decide (o.n ≤ o.m)) o.p ncvt nru f.d f.e pt.val q.val).map fun r =>
    (r.1, { o with q := { q with val := r.2.2 }, pt := { pt with val := r.2.1 } })

/-- `decompose`, svd.hpp l.284-409: the singular values, and the object afterwards.  It returns `true` or does not return. -/
def decompose (L : Lapack 𝕜) (o : Svd 𝕜) (A : Mx 𝕜) : Option (Bool × (ℕ → ℝ) × Svd 𝕜) :=
  if A.rows = o.m ∧ A.cols = o.n then
    let f := L.gebrd o.m o.n A.val
    (stepQ L o f).bind fun q => (stepP L o f).bind fun pt => (step3 L o f q pt).map fun r => (true, r)
  else none

/-- `prod_uv`, svd.hpp l.25-129: a product with `uv` or its (conjugate) transpose, to a matrix of `xr` x `xc`. -/
def prodUv (tr : Op) (ps : Side) (uv b : Mx 𝕜) (xr xc : ℕ) : Option (Mx 𝕜) := match ps, tr with
  | .l, .n => if b.rows = uv.cols ∧ xr = uv.rows ∧ b.cols = xc then some ⟨xr, xc, mul uv.cols uv.val b.val⟩ else none
  | .l, .h => if b.rows = uv.rows ∧ xr = uv.cols ∧ b.cols = xc then some ⟨xr, xc, mul uv.rows (herm uv.val) b.val⟩ else none
  | .r, .n => if b.cols = uv.rows ∧ xc = uv.cols ∧ b.rows = xr then some ⟨xr, xc, mul uv.rows b.val uv.val⟩ else none
  | .r, .h => if b.cols = uv.cols ∧ xc = uv.rows ∧ b.rows = xr then some ⟨xr, xc, mul uv.cols b.val (herm uv.val)⟩ else none

/-- `trans_or_herm`, matvec.hpp l.335-342. -/
def transOrHerm (a : Mx 𝕜) : Mx 𝕜 := ⟨a.cols, a.rows, herm a.val⟩

/-- `produ`, svd.hpp l.152-158. -/
def produ (o : Svd 𝕜) (tr : Op) (ps : Side) (b : Mx 𝕜) (xr xc : ℕ) : Option (Mx 𝕜) := prodUv tr ps o.q b xr xc

/-- `prodv`, svd.hpp l.160-167. -/
def prodv (o : Svd 𝕜) (tr : Op) (ps : Side) (b : Mx 𝕜) (xr xc : ℕ) : Option (Mx 𝕜) := prodUv tr ps (transOrHerm o.pt) b xr xc

/-- `u(low, high, u)`, svd.hpp l.169-178; sizes in 64 bit arithmetic. -/
def getU (o : Svd 𝕜) (low high ur uc : ℕ) : Option (Mx 𝕜) :=
  if ((o.ust = .part ∧ high < o.p) ∨ (o.ust = .full ∧ high < o.m)) ∧ ur = o.m ∧ uc = (high + 2 ^ 64 - low + 1) % 2 ^ 64 then
    if uc = 0 ∨ low + uc ≤ o.q.cols then some ⟨ur, uc, fun i j => o.q.val i (low + j)⟩ else none
  else none

/-- `v(low, high, v)`, svd.hpp l.180-189. -/
def getV (o : Svd 𝕜) (low high vr vc : ℕ) : Option (Mx 𝕜) :=
  if ((o.vst = .part ∧ high < o.p) ∨ (o.vst = .full ∧ high < o.n)) ∧ vr = o.n ∧ vc = (high + 2 ^ 64 - low + 1) % 2 ^ 64 then
    if vc = 0 ∨ low + vc ≤ o.pt.rows then some (transOrHerm ⟨vc, vr, fun i j => o.pt.val (low + i) j⟩) else none
  else none

/-! ## By value -/

/-- `svd<T, by_value>::produ`, vsip/impl/solver/svd.hpp l.119-145. -/
def produByValue (o : Svd 𝕜) (tr : Op) (ps : Side) (b : Mx 𝕜) : Option (Mx 𝕜) :=
  let qr := o.m
  let qc := if o.ust = .full then o.m else o.p
  if ps = .l then produ o tr ps b (if tr = .n then qr else qc) b.cols else produ o tr ps b b.rows (if tr = .n then qc else qr)

/-- `svd<T, by_value>::prodv`, l.147-168. -/
def prodvByValue (o : Svd 𝕜) (tr : Op) (ps : Side) (b : Mx 𝕜) : Option (Mx 𝕜) :=
  let vr := if o.vst = .full then o.n else o.p
  let vc := o.n
  if ps = .l then prodv o tr ps b (if tr = .n then vc else vr) b.cols else prodv o tr ps b b.rows (if tr = .n then vr else vc)

/-- The precondition of `svd<T, by_value>::u`, l.173-174. -/
def uPre (o : Svd 𝕜) (high : ℕ) : Bool := decide ((o.ust = .part ∧ high ≤ o.p) ∨ (o.ust = .full ∧ high ≤ o.m))

/-- `svd<T, by_value>::u`, l.170-179. -/
def uByValue (o : Svd 𝕜) (low high : ℕ) : Option (Mx 𝕜) :=
  if uPre o high then getU o low high o.m ((high + 2 ^ 64 - low + 1) % 2 ^ 64) else none

end Verif.Svd
