import Verif.Solver.Model
import Mathlib.LinearAlgebra.Matrix.Block
import Mathlib.LinearAlgebra.Matrix.Notation
import Mathlib.Analysis.RCLike.Basic
import Mathlib.Tactic.Ring
import Mathlib.Tactic.NoncommRing
import Mathlib.Tactic.FinCases
import Mathlib.Tactic.NormNum
import Mathlib.Algebra.Star.Rat

/-!
# C65: the solvers return solutions
-/

noncomputable section

namespace Verif.Slv

open Matrix

variable {K : Type} [Field K] [StarRing K]

/-! ## What LAPACK promises -/

/-- `getrf`: `A = P L U`, and success means that no pivot is zero. -/
def IsLu {m n : ℕ} (lib : Lapack K m n) (A : Matrix (Fin n) (Fin n) K) : Prop :=
  A = (lib.getrf A).1.p * (lib.getrf A).1.low * (lib.getrf A).1.up ∧ ((lib.getrf A).2 = true ↔ ∀ i, (lib.getrf A).1.data i i ≠ 0)

/-- The Hermitian matrix of which only one triangle is stored. -/
def sym {n : ℕ} (upper : Bool) (A : Matrix (Fin n) (Fin n) K) : Matrix (Fin n) (Fin n) K :=
  fun i j => if (if upper then i ≤ j else j ≤ i) then A i j else star (A j i)

/-- `potrf`: on success, `A = Uᴴ U` or `A = L Lᴴ`, with no zero on the diagonal. -/
def IsChol {m n : ℕ} (lib : Lapack K m n) (upper : Bool) (A : Matrix (Fin n) (Fin n) K) : Prop :=
  (lib.potrf upper A).2 = true → (∀ i, (lib.potrf upper A).1 i i ≠ 0) ∧
    sym upper A = if upper then (tri true (lib.potrf upper A).1)ᴴ * tri true (lib.potrf upper A).1 else tri false (lib.potrf upper A).1 * (tri false (lib.potrf upper A).1)ᴴ

/-- `geqrf`: `A = Q R`, `Q` unitary of order m, `R` being m x n upper triangular. -/
def IsQr {m n : ℕ} (lib : Lapack K m n) (A : Matrix (Fin m) (Fin n) K) : Prop :=
  (lib.q m (lib.geqrf A))ᴴ * lib.q m (lib.geqrf A) = 1 ∧
    A = lib.q m (lib.geqrf A) * Matrix.of fun i j => if i.val ≤ j.val then (lib.geqrf A).data i j else 0

/-! ## Triangular matrices -/

theorem det_up {n : ℕ} (D : Matrix (Fin n) (Fin n) K) : (Matrix.of fun i j => if i ≤ j then D i j else 0 : Matrix (Fin n) (Fin n) K).det = ∏ i, D i i := by
  rw [det_of_isUpperTriangular]
  · simp
  · intro i j h
    have : ¬ i ≤ j := not_le.2 h
    simp [this]

theorem det_low {n : ℕ} (f : LuFact K n) : f.low.det = 1 := by
  rw [det_of_isLowerTriangular]
  · simp [LuFact.low]
  · intro i j h
    have h : i < j := h
    simp [LuFact.low, not_lt.2 h.le, h.ne]

theorem p_mul {n : ℕ} (f : LuFact K n) : f.pᵀ * f.p = 1 := by
  ext i j
  rw [mul_apply]
  simp only [LuFact.p, transpose_apply, one_apply]
  rw [Finset.sum_eq_single (f.perm.symm i)]
  · simp [Equiv.apply_symm_apply]
  · intro b _ hb
    have : f.perm b ≠ i := fun e => hb (by rw [← e]; simp)
    simp [this]
  · simp

theorem p_mul' {n : ℕ} (f : LuFact K n) : f.p * f.pᵀ = 1 := mul_eq_one_comm.1 (p_mul f)

theorem op_det {n : ℕ} (o : Op) {A : Matrix (Fin n) (Fin n) K} (h : A.det ≠ 0) : IsUnit (o.app A).det := by
  cases o
  · exact h.isUnit
  · simpa [Op.app] using h
  · simp only [Op.app, det_conjTranspose]
    exact (star_ne_zero.2 h).isUnit

theorem p_star {n : ℕ} (f : LuFact K n) : f.pᴴ = f.pᵀ := by
  ext i j
  simp only [conjTranspose_apply, transpose_apply, LuFact.p]
  split <;> simp

theorem r_det {m n : ℕ} (h : n ≤ m) (f : QrFact K m n) : (f.r h).det = ∏ i, f.r h i i := by
  have : f.r h = Matrix.of fun i j => if i ≤ j then f.r h i j else 0 := by
    ext i j
    simp only [QrFact.r, of_apply]
    split <;> simp_all
  conv_lhs => rw [this]
  exact det_up _

/-- `trsm` solves when nothing on the diagonal is zero. -/
theorem trsm_spec [DecidableEq K] {m n p : ℕ} (h : n ≤ m) (f : QrFact K m n) (o : Op) (alpha : K) (B : Matrix (Fin n) (Fin p) K) (hd : (f.r h).det ≠ 0) :
    ∃ x, trsm (f.r h) o alpha B = some x ∧ o.app (f.r h) * x = alpha • B := by
  have hd' := hd
  rw [r_det, Finset.prod_ne_zero_iff] at hd'
  refine ⟨_, if_pos fun i => hd' i (Finset.mem_univ _), ?_⟩
  rw [← Matrix.mul_assoc, mul_nonsing_inv _ (op_det o hd), Matrix.one_mul]

/-- the first columns of the identity -/
def e (K : Type) [Field K] (m n : ℕ) : Matrix (Fin m) (Fin n) K := Matrix.of fun i j => if i.val = j.val then 1 else 0

theorem e_mul {m n p : ℕ} (h : n ≤ m) (C : Matrix (Fin m) (Fin p) K) : (e K m n)ᴴ * C = Matrix.of fun i j => C (Fin.castLE h i) j := by
  ext i j
  rw [mul_apply, Finset.sum_eq_single (Fin.castLE h i)]
  · simp [e]
  · intro b _ hb
    have : b.val ≠ i.val := fun e => hb (Fin.ext (by simpa using e))
    simp [e, this]
  · simp

theorem e_star_e {m n : ℕ} (h : n ≤ m) : (e K m n)ᴴ * e K m n = 1 := by
  rw [e_mul h]
  ext i j
  simp [e, one_apply, Fin.ext_iff]

theorem e_r {m n : ℕ} (h : n ≤ m) (f : QrFact K m n) :
    e K m n * f.r h = Matrix.of fun i j => if i.val ≤ j.val then f.data i j else 0 := by
  ext i j
  rw [mul_apply]
  by_cases hi : i.val < n
  · rw [Finset.sum_eq_single ⟨i.val, hi⟩]
    · simp only [e, of_apply, QrFact.r, if_true, one_mul, Fin.le_def]
      rfl
    · intro b _ hb
      have : i.val ≠ b.val := fun e => hb (Fin.ext e.symm)
      simp [e, this]
    · simp
  · rw [Finset.sum_eq_zero]
    · have : ¬ i.val ≤ j.val := by have := j.2; omega
      simp [this]
    · intro b _
      have : i.val ≠ b.val := by have := b.2; omega
      simp [e, this]

theorem qr_eq {m n : ℕ} (h : n ≤ m) {lib : Lapack K m n} {A : Matrix (Fin m) (Fin n) K} (hA : IsQr lib A) :
    A = lib.q m (lib.geqrf A) * (e K m n * (lib.geqrf A).r h) := by
  conv_lhs => rw [hA.2]
  rw [e_r]

/-- `Aᴴ A = Rᴴ R` -/
theorem gram {m n : ℕ} (h : n ≤ m) {lib : Lapack K m n} {A : Matrix (Fin m) (Fin n) K} (hA : IsQr lib A) :
    Aᴴ * A = ((lib.geqrf A).r h)ᴴ * (lib.geqrf A).r h := by
  have h1 := hA.1
  have h2 := qr_eq h hA
  generalize lib.q m (lib.geqrf A) = Q at h1 h2
  generalize (lib.geqrf A).r h = R at h2 ⊢
  rw [h2, conjTranspose_mul, conjTranspose_mul]
  calc Rᴴ * (e K m n)ᴴ * Qᴴ * (Q * (e K m n * R)) = Rᴴ * (e K m n)ᴴ * (Qᴴ * Q) * (e K m n * R) := by simp only [Matrix.mul_assoc]
    _ = Rᴴ * ((e K m n)ᴴ * e K m n) * R := by rw [h1]; simp only [Matrix.mul_assoc, Matrix.one_mul]
    _ = Rᴴ * R := by rw [e_star_e h, Matrix.mul_one]

theorem r_ne {m n : ℕ} (h : n ≤ m) {lib : Lapack K m n} {A : Matrix (Fin m) (Fin n) K} (hA : IsQr lib A) (hr : (Aᴴ * A).det ≠ 0) :
    ((lib.geqrf A).r h).det ≠ 0 := by
  rw [gram h hA, det_mul] at hr
  exact right_ne_zero_of_mul hr

theorem ctrans_app {n : ℕ} {cplx : Bool} (hc : cplx = false → ∀ x : K, star x = x) (A : Matrix (Fin n) (Fin n) K) : (ctrans cplx).app A = Aᴴ := by
  cases cplx with
  | true => rfl
  | false =>
    ext i j
    simp [ctrans, Op.app, hc rfl]

end Verif.Slv

namespace Verif.Props

open Verif.Slv Matrix

variable {K : Type} [Field K] [StarRing K] [DecidableEq K]

/-- LU: `decompose` succeeds exactly for the matrices that have an inverse. -/
theorem C65_lu_ok {m n : ℕ} (lib : Lapack K m n) (s : Lud K n) (A : Matrix (Fin n) (Fin n) K) (hA : IsLu lib A) :
    (s.decompose lib A).2 = true ↔ IsUnit A.det := by
  have h1 := hA.1
  have h2 := hA.2
  show (lib.getrf A).2 = true ↔ _
  rw [h2]
  have hp : IsUnit (lib.getrf A).1.p.det := by
    have := congrArg det (p_mul (lib.getrf A).1)
    rw [det_mul, det_one] at this
    exact IsUnit.of_mul_eq_one _ (by rw [mul_comm]; exact this)
  have e : A.det = (lib.getrf A).1.p.det * ∏ i, (lib.getrf A).1.data i i := by
    conv_lhs => rw [h1]
    rw [det_mul, det_mul, det_low, mul_one]
    congr 1
    exact det_up _
  rw [e, IsUnit.mul_iff, isUnit_iff_ne_zero (a := ∏ i, _), Finset.prod_ne_zero_iff]
  exact ⟨fun h => ⟨hp, fun i _ => h i⟩, fun h i => h.2 i (Finset.mem_univ _)⟩

/-- LU: after a successful `decompose`, `solve` solves `op(A) X = B`, for each operation, any number of right hand sides, and any number of times (the object does
not change). -/
theorem C65_lu {m n p : ℕ} (lib : Lapack K m n) (s : Lud K n) (A : Matrix (Fin n) (Fin n) K) (hA : IsLu lib A) (cplx : Bool)
    (hok : (s.decompose lib A).2 = true) (o : Op) (ho : o = .herm → cplx = true) (B : Matrix (Fin n) (Fin p) K) :
    ∃ x, (s.decompose lib A).1.solve cplx o B = some (true, x) ∧ o.app A * x = B := by
  have hd := hA.2.1 hok
  have h1 := hA.1
  change ∃ x, Lud.solve cplx ⟨(lib.getrf A).1⟩ o B = some (true, x) ∧ o.app A * x = B
  generalize (lib.getrf A).1 = f at hd h1
  have hl : f.low.det ≠ 0 := by rw [det_low]; exact one_ne_zero
  have hu : f.up.det ≠ 0 := by
    have : f.up.det = ∏ i, f.data i i := det_up _
    rw [this, Finset.prod_ne_zero_iff]
    exact fun i _ => hd i
  unfold Lud.solve getrs
  rw [if_neg (fun h => by have := ho h.1; rw [h.2] at this; cases this), if_pos hd]
  have hpt := p_mul f
  have hpt' := p_mul' f
  cases o with
  | ntrans =>
    refine ⟨_, rfl, ?_⟩
    show A * _ = B
    have a1 := mul_nonsing_inv f.up hu.isUnit
    have a2 := mul_nonsing_inv f.low hl.isUnit
    rw [h1]
    calc f.p * f.low * f.up * (f.up⁻¹ * (f.low⁻¹ * (f.pᵀ * B))) = f.p * f.low * (f.up * f.up⁻¹) * (f.low⁻¹ * (f.pᵀ * B)) := by simp only [Matrix.mul_assoc]
      _ = f.p * (f.low * f.low⁻¹) * (f.pᵀ * B) := by rw [a1]; simp only [Matrix.mul_assoc, Matrix.one_mul]
      _ = (f.p * f.pᵀ) * B := by rw [a2]; simp only [Matrix.mul_assoc, Matrix.one_mul]
      _ = B := by rw [hpt', Matrix.one_mul]
  | trans =>
    refine ⟨_, rfl, ?_⟩
    show Aᵀ * _ = B
    have a1 := mul_nonsing_inv _ (op_det .trans hu)
    have a2 := mul_nonsing_inv _ (op_det .trans hl)
    simp only [Op.app] at a1 a2 ⊢
    rw [h1, transpose_mul, transpose_mul]
    calc f.upᵀ * (f.lowᵀ * f.pᵀ) * (f.p * (f.lowᵀ⁻¹ * (f.upᵀ⁻¹ * B))) = f.upᵀ * (f.lowᵀ * (f.pᵀ * f.p)) * (f.lowᵀ⁻¹ * (f.upᵀ⁻¹ * B)) := by
          simp only [Matrix.mul_assoc]
      _ = f.upᵀ * (f.lowᵀ * f.lowᵀ⁻¹) * (f.upᵀ⁻¹ * B) := by rw [hpt]; simp only [Matrix.mul_assoc, Matrix.one_mul]
      _ = (f.upᵀ * f.upᵀ⁻¹) * B := by rw [a2]; simp only [Matrix.mul_assoc, Matrix.one_mul]
      _ = B := by rw [a1, Matrix.one_mul]
  | herm =>
    refine ⟨_, rfl, ?_⟩
    show Aᴴ * _ = B
    have a1 := mul_nonsing_inv _ (op_det .herm hu)
    have a2 := mul_nonsing_inv _ (op_det .herm hl)
    simp only [Op.app] at a1 a2 ⊢
    rw [h1, conjTranspose_mul, conjTranspose_mul, p_star]
    calc f.upᴴ * (f.lowᴴ * f.pᵀ) * (f.p * (f.lowᴴ⁻¹ * (f.upᴴ⁻¹ * B))) = f.upᴴ * (f.lowᴴ * (f.pᵀ * f.p)) * (f.lowᴴ⁻¹ * (f.upᴴ⁻¹ * B)) := by
          simp only [Matrix.mul_assoc]
      _ = f.upᴴ * (f.lowᴴ * f.lowᴴ⁻¹) * (f.upᴴ⁻¹ * B) := by rw [hpt]; simp only [Matrix.mul_assoc, Matrix.one_mul]
      _ = (f.upᴴ * f.upᴴ⁻¹) * B := by rw [a2]; simp only [Matrix.mul_assoc, Matrix.one_mul]
      _ = B := by rw [a1, Matrix.one_mul]

/-- Cholesky: after a successful `decompose` of a Hermitian matrix, `solve` solves `A X = B`; in general it solves with the matrix that the chosen triangle
stands for. -/
theorem C65_chol {m n p : ℕ} (lib : Lapack K m n) (s : Chold K n) (A : Matrix (Fin n) (Fin n) K) (hA : IsChol lib s.upper A)
    (hok : (s.decompose lib A).2 = true) (B : Matrix (Fin n) (Fin p) K) :
    ∃ x, (s.decompose lib A).1.solve B = some (true, x) ∧ sym s.upper A * x = B ∧ (Aᴴ = A → A * x = B) := by
  obtain ⟨hd, h1⟩ := hA hok
  have hs : Aᴴ = A → sym s.upper A = A := by
    intro h
    ext i j
    have := congrFun (congrFun h i) j
    simp only [conjTranspose_apply] at this
    unfold sym
    split <;> simp [this]
  change ∃ x, Chold.solve ⟨s.upper, (lib.potrf s.upper A).1⟩ B = some (true, x) ∧ _
  unfold Chold.solve potrs
  dsimp only
  rw [if_pos hd]
  generalize s.upper = u at *
  generalize (lib.potrf u A).1 = D at hd h1
  suffices h : ∀ x, sym u A * x = B → (sym u A * x = B ∧ (Aᴴ = A → A * x = B)) by
    cases u with
    | true =>
      refine ⟨_, rfl, h _ ?_⟩
      have hu : (tri true D).det ≠ 0 := by
        have : (tri true D).det = ∏ i, D i i := det_up _
        rw [this, Finset.prod_ne_zero_iff]
        exact fun i _ => hd i
      have a1 := mul_nonsing_inv _ hu.isUnit
      have a2 := mul_nonsing_inv _ (op_det .herm hu)
      simp only [Op.app] at a2
      rw [h1, if_pos rfl]
      generalize tri true D = U at *
      calc Uᴴ * U * (U⁻¹ * (Uᴴ⁻¹ * B)) = Uᴴ * (U * U⁻¹) * (Uᴴ⁻¹ * B) := by simp only [Matrix.mul_assoc]
        _ = (Uᴴ * Uᴴ⁻¹) * B := by rw [a1]; simp only [Matrix.mul_assoc, Matrix.one_mul]
        _ = B := by rw [a2, Matrix.one_mul]
    | false =>
      refine ⟨_, rfl, h _ ?_⟩
      have hl : (tri false D).det ≠ 0 := by
        have e : tri false D = (tri true Dᵀ)ᵀ := by
          ext i j
          simp [tri]
        have : (tri false D).det = ∏ i, D i i := by
          rw [e, det_transpose]
          exact det_up _
        rw [this, Finset.prod_ne_zero_iff]
        exact fun i _ => hd i
      have a1 := mul_nonsing_inv _ hl.isUnit
      have a2 := mul_nonsing_inv _ (op_det .herm hl)
      simp only [Op.app] at a2
      rw [h1, if_neg (by simp)]
      generalize tri false D = L at *
      calc L * Lᴴ * (Lᴴ⁻¹ * (L⁻¹ * B)) = L * (Lᴴ * Lᴴ⁻¹) * (L⁻¹ * B) := by simp only [Matrix.mul_assoc]
        _ = (L * L⁻¹) * B := by rw [a2]; simp only [Matrix.mul_assoc, Matrix.one_mul]
        _ = B := by rw [a1, Matrix.one_mul]
  exact fun x hx => ⟨hx, fun hh => by rw [hs hh] at hx; exact hx⟩

/-- `rsol` solves `op(R) X = alpha B` for full rank. -/
theorem C65_rsol {m n p : ℕ} (h : n ≤ m) (lib : Lapack K m n) (s : Qrd K m n) (A : Matrix (Fin m) (Fin n) K) (hA : IsQr lib A) (hr : (Aᴴ * A).det ≠ 0)
    (o : Op) (B : Matrix (Fin n) (Fin p) K) (alpha : K) :
    ∃ (R : Matrix (Fin n) (Fin n) K) (x : Matrix (Fin n) (Fin p) K),
      A = lib.q m (lib.geqrf A) * (Matrix.of fun (i : Fin m) j => if hi : i.val < n then R ⟨i, hi⟩ j else 0) ∧ (∀ i j, j < i → R i j = 0) ∧
      (s.decompose lib A).1.rsol h o B alpha = some (true, x) ∧ o.app R * x = alpha • B := by
  obtain ⟨x, h1, h2⟩ := trsm_spec h (lib.geqrf A) o alpha B (r_ne h hA hr)
  refine ⟨(lib.geqrf A).r h, x, ?_, ?_, ?_, h2⟩
  · conv_lhs => rw [hA.2]
    congr 1
    ext i j
    simp only [of_apply, QrFact.r, Fin.le_def]
    by_cases hi : i.val < n
    · rw [dif_pos hi]
      rfl
    · rw [dif_neg hi, if_neg (by have := j.2; omega)]
  · intro i j hij
    simp [QrFact.r, not_le.2 hij]
  · unfold Qrd.rsol Qrd.decompose
    rw [h1]
    rfl

/-- `covsol`, member and function: `Aᴴ A X = B` for full rank. -/
theorem C65_covsol {m n p : ℕ} (h : n ≤ m) (lib : Lapack K m n) (cplx : Bool) (hc : cplx = false → ∀ x : K, star x = x) (s : Qrd K m n)
    (A : Matrix (Fin m) (Fin n) K) (hA : IsQr lib A) (hr : (Aᴴ * A).det ≠ 0) (B : Matrix (Fin n) (Fin p) K) :
    ∃ x, (s.decompose lib A).1.covsol h cplx B = some (true, x) ∧ covsol h lib cplx A B = some x ∧ Aᴴ * A * x = B := by
  obtain ⟨y, h1, h2⟩ := trsm_spec h (lib.geqrf A) (ctrans cplx) 1 B (r_ne h hA hr)
  obtain ⟨x, h3, h4⟩ := trsm_spec h (lib.geqrf A) .ntrans 1 y (r_ne h hA hr)
  refine ⟨x, ?_, ?_, ?_⟩
  · unfold Qrd.covsol Qrd.decompose
    dsimp only
    rw [h1, Option.bind_some, h3]
    rfl
  · unfold covsol Qrd.rsol Qrd.decompose
    dsimp only
    change trsm ((lib.geqrf A).r h) (if cplx = true then .herm else .trans) 1 B = some y at h1
    rw [h1, Option.map_some, Option.bind_some, h3]
    rfl
  · rw [ctrans_app hc, one_smul] at h2
    rw [one_smul] at h4
    change (lib.geqrf A).r h * x = y at h4
    rw [gram h hA, Matrix.mul_assoc, h4, h2]

/-- `lsqsol`, `llsqsol`: the result satisfies the normal equations, for full rank. -/
theorem C65_lsqsol {m n p : ℕ} (h : n ≤ m) (lib : Lapack K m n) (cplx : Bool) (hc : cplx = false → ∀ x : K, star x = x) (s : Qrd K m n)
    (A : Matrix (Fin m) (Fin n) K) (hA : IsQr lib A) (hr : (Aᴴ * A).det ≠ 0) (B : Matrix (Fin m) (Fin p) K) :
    ∃ x, (s.decompose lib A).1.lsqsol h lib cplx B = some (true, x) ∧ llsqsol h lib cplx A B = some x ∧ Aᴴ * (A * x - B) = 0 := by
  have hm : mqr lib cplx .l (ctrans cplx) (lib.geqrf A) B = some ((lib.q m (lib.geqrf A))ᴴ * B) := by
    unfold mqr
    rw [if_neg (by cases cplx <;> simp [ctrans])]
    dsimp only
    rw [if_pos ⟨h, le_refl _⟩, ctrans_app hc]
  obtain ⟨x, h3, h4⟩ := trsm_spec h (lib.geqrf A) .ntrans 1 (Matrix.of fun i j => ((lib.q m (lib.geqrf A))ᴴ * B) (Fin.castLE h i) j) (r_ne h hA hr)
  refine ⟨x, ?_, ?_, ?_⟩
  · unfold Qrd.lsqsol Qrd.decompose
    dsimp only
    rw [hm, Option.bind_some]
    refine Eq.trans (congrArg (Option.map _) h3) ?_
    rfl
  · unfold llsqsol Qrd.lsqsol Qrd.decompose
    dsimp only
    rw [hm, Option.bind_some]
    refine Eq.trans (congrArg (fun y => Option.map Prod.snd (Option.map (fun x => (true, x)) y)) h3) ?_
    rfl
  · rw [one_smul] at h4
    change (lib.geqrf A).r h * x = Matrix.of fun i j => ((lib.q m (lib.geqrf A))ᴴ * B) (Fin.castLE h i) j at h4
    rw [← e_mul h] at h4
    rw [Matrix.mul_sub, ← Matrix.mul_assoc, gram h hA, Matrix.mul_assoc, h4]
    have h2 := qr_eq h hA
    generalize lib.q m (lib.geqrf A) = Q at h2 h4 ⊢
    generalize (lib.geqrf A).r h = R at h2 h4 ⊢
    rw [h2, conjTranspose_mul, conjTranspose_mul]
    simp only [Matrix.mul_assoc, sub_self]

/-- The normal equations characterise the least squares solutions: no other matrix leaves a smaller residual in any column. -/
theorem C65_least {𝕜 : Type} [RCLike 𝕜] {m n p : ℕ} (A : Matrix (Fin m) (Fin n) 𝕜) (B : Matrix (Fin m) (Fin p) 𝕜) (x : Matrix (Fin n) (Fin p) 𝕜)
    (hx : Aᴴ * (A * x - B) = 0) (y : Matrix (Fin n) (Fin p) 𝕜) (j : Fin p) :
    ∑ i, ‖(A * x - B) i j‖ ^ 2 ≤ ∑ i, ‖(A * y - B) i j‖ ^ 2 := by
  have hn : ∀ D : Matrix (Fin m) (Fin p) 𝕜, (Dᴴ * D) j j = ((∑ i, ‖D i j‖ ^ 2 : ℝ) : 𝕜) := by
    intro D
    rw [mul_apply]
    push_cast
    refine Finset.sum_congr rfl fun i _ => ?_
    rw [conjTranspose_apply]
    exact RCLike.conj_mul _
  have h' : (A * x - B)ᴴ * A = 0 := by
    have := congrArg conjTranspose hx
    rw [conjTranspose_mul, conjTranspose_conjTranspose, conjTranspose_zero] at this
    exact this
  have key : (A * y - B)ᴴ * (A * y - B) = (A * x - B)ᴴ * (A * x - B) + (A * (y - x))ᴴ * (A * (y - x)) := by
    have e : A * y - B = (A * x - B) + A * (y - x) := by rw [Matrix.mul_sub]; abel
    rw [e]
    generalize A * x - B = D at *
    rw [conjTranspose_add, Matrix.add_mul, Matrix.mul_add, Matrix.mul_add]
    rw [← Matrix.mul_assoc Dᴴ, h', conjTranspose_mul, Matrix.mul_assoc _ Aᴴ D, hx]
    simp
  have := congrFun (congrFun key j) j
  rw [Matrix.add_apply, hn, hn, hn, ← RCLike.ofReal_add] at this
  have := RCLike.ofReal_injective this
  rw [this]
  exact le_add_of_nonneg_right (Finset.sum_nonneg fun i _ => by positivity)

/-- The by-value `prodq` makes its result of the size the back end requires. -/
theorem C65_prodq_size (m n : ℕ) (st : Store) (hst : st ≠ .nosaveq) (o : Op) (r c : ℕ) :
    prodqSize m n st o .l r c = ((qSize m n st o).1, c) ∧ prodqSize m n st o .r r c = (r, (qSize m n st o).2) := by
  cases st <;> cases o <;> simp_all [prodqSize, qSize]

omit [DecidableEq K] in
/-- `prodq`, with all of `Q` saved: `op(Q) B` and `B op(Q)`.  (For real types `mat_herm`, and for complex types `mat_trans`, is refused by LAPACK.) -/
theorem C65_prodq_saveq {m n : ℕ} (h : n ≤ m) (lib : Lapack K m n) (cplx : Bool) (s : Qrd K m n) (hs : s.store = .saveq) (o : Op)
    (ho : o = .ntrans ∨ o = ctrans cplx) (k : ℕ) (B : Matrix (Fin m) (Fin k) K) (C : Matrix (Fin k) (Fin m) K) :
    s.prodq lib cplx o .l (r' := m) (c' := k) B = some (o.app (lib.q m s.fact) * B) ∧
    s.prodq lib cplx o .r (r' := k) (c' := m) C = some (C * o.app (lib.q m s.fact)) := by
  have hq : qSize m n s.store o = (m, m) := by rw [hs]; cases o <;> rfl
  have hb : o ≠ (if cplx then Op.trans else Op.herm) := by
    rcases ho with rfl | rfl <;> cases cplx <;> simp [ctrans]
  constructor
  · unfold Qrd.prodq
    rw [if_neg (by rw [hs]; simp)]
    dsimp only
    rw [hq, if_pos (by simp)]
    unfold mqr
    rw [if_neg hb]
    dsimp only
    rw [if_pos ⟨h, le_refl _⟩, Option.bind_some]
    unfold assign
    rw [dif_pos (by omega)]
    rfl
  · unfold Qrd.prodq
    rw [if_neg (by rw [hs]; simp)]
    dsimp only
    rw [hq, if_pos (by simp)]
    unfold mqr
    rw [if_neg hb]
    dsimp only
    rw [if_pos ⟨h, le_refl _⟩, Option.bind_some]
    unfold assign
    rw [dif_pos (by omega)]
    rfl

omit [DecidableEq K] in
/-- `prodq`, with the first n columns `Q₁` saved: `Q₁ᴴ B` and `B Q₁`.  Partial: the other two products, `Q₁ B` and `B Q₁ᴴ`, read outside of a matrix
(`C65_prodq_false`). -/
theorem C65_prodq_partial {m n : ℕ} (h : n ≤ m) (lib : Lapack K m n) (cplx : Bool) (hc : cplx = false → ∀ x : K, star x = x) (s : Qrd K m n)
    (hs : s.store = .saveq1) (k : ℕ) (B : Matrix (Fin m) (Fin k) K) (C : Matrix (Fin k) (Fin m) K) :
    s.prodq lib cplx (ctrans cplx) .l (r' := n) (c' := k) B = some (((lib.q m s.fact).submatrix id (Fin.castLE h))ᴴ * B) ∧
    s.prodq lib cplx .ntrans .r (r' := k) (c' := n) C = some (C * (lib.q m s.fact).submatrix id (Fin.castLE h)) := by
  constructor
  · unfold Qrd.prodq
    rw [if_neg (by rw [hs]; simp)]
    dsimp only
    have hq : qSize m n s.store (ctrans cplx) = (n, m) := by rw [hs]; cases cplx <;> rfl
    rw [hq, if_pos (by simp)]
    unfold mqr
    rw [if_neg (by cases cplx <;> simp [ctrans])]
    dsimp only
    rw [if_pos ⟨h, le_refl _⟩, Option.bind_some]
    unfold assign
    rw [dif_pos (by omega), ctrans_app hc]
    rfl
  · unfold Qrd.prodq
    rw [if_neg (by rw [hs]; simp)]
    dsimp only
    have hq : qSize m n s.store .ntrans = (m, n) := by rw [hs]; rfl
    rw [hq, if_pos (by simp)]
    unfold mqr
    rw [if_neg (by cases cplx <;> simp)]
    dsimp only
    rw [if_pos ⟨h, le_refl _⟩, Option.bind_some]
    unfold assign
    rw [dif_pos (by omega)]
    rfl

/-! ## Where it goes wrong -/

omit [DecidableEq K] in
/-- With the skinny `Q` saved, `Q₁ B` and `B Q₁ᴴ` are accepted (sizes and storage are as required) but never computed: the temporary has the size of `B`, so the
assignment to the larger result reads outside of it. -/
theorem C65_prodq_false {m n : ℕ} (h : n < m) (lib : Lapack K m n) (cplx : Bool) (s : Qrd K m n) (hs : s.store = .saveq1) (k : ℕ) (hk : 0 < k) :
    qSize m n s.store .ntrans = (m, n) ∧ (∀ B : Matrix (Fin n) (Fin k) K, s.prodq lib cplx .ntrans .l (r' := m) (c' := k) B = none) ∧
    qSize m n s.store (ctrans cplx) = (n, m) ∧ (∀ C : Matrix (Fin k) (Fin n) K, s.prodq lib cplx (ctrans cplx) .r (r' := k) (c' := m) C = none) := by
  have hq : qSize m n s.store .ntrans = (m, n) := by rw [hs]; rfl
  have hq' : qSize m n s.store (ctrans cplx) = (n, m) := by rw [hs]; cases cplx <;> rfl
  have ha : ∀ X : Matrix (Fin n) (Fin k) K, (assign X : Option (Matrix (Fin m) (Fin k) K)) = none := fun X => by
    unfold assign
    rw [dif_neg (by omega)]
  have ha' : ∀ X : Matrix (Fin k) (Fin n) K, (assign X : Option (Matrix (Fin k) (Fin m) K)) = none := fun X => by
    unfold assign
    rw [dif_neg (by omega)]
  refine ⟨hq, fun B => ?_, hq', fun C => ?_⟩
  · unfold Qrd.prodq
    dsimp only
    rw [if_neg (by rw [hs]; simp), hq, if_pos (by simp)]
    cases mqr lib cplx .l .ntrans s.fact B with
    | none => rfl
    | some X => exact ha X
  · unfold Qrd.prodq
    dsimp only
    rw [if_neg (by rw [hs]; simp), hq', if_pos (by simp)]
    cases mqr lib cplx .r (ctrans cplx) s.fact C with
    | none => rfl
    | some X => exact ha' X

/-- Rank deficient systems are not reported: `decompose` of the zero matrix returns `true`, `covsol` and `lsqsol` then divide by zero. -/
theorem C65_rank_false {m n p : ℕ} (h : n ≤ m) (hn : 0 < n) (lib : Lapack K m n) (cplx : Bool) (s : Qrd K m n) (hA : IsQr lib 0)
    (B : Matrix (Fin n) (Fin p) K) (C : Matrix (Fin m) (Fin p) K) :
    (s.decompose lib 0).2 = true ∧ (s.decompose lib 0).1.covsol h cplx B = none ∧ (s.decompose lib 0).1.lsqsol h lib cplx C = none := by
  have hz : ¬ ∀ i, (lib.geqrf 0).r h i i ≠ 0 := by
    intro hd
    have := gram h hA
    rw [Matrix.mul_zero] at this
    have := congrArg det this
    haveI hne : Nonempty (Fin n) := ⟨⟨0, hn⟩⟩
    rw [det_mul, det_zero] at this
    have hd' : ((lib.geqrf 0).r h).det ≠ 0 := by
      rw [r_det, Finset.prod_ne_zero_iff]
      exact fun i _ => hd i
    rcases mul_eq_zero.1 this.symm with h | h
    · rw [det_conjTranspose, star_eq_zero] at h
      exact hd' h
    · exact hd' h
  have ht : ∀ (o : Op) (alpha : K) (X : Matrix (Fin n) (Fin p) K), trsm ((lib.geqrf 0).r h) o alpha X = none := fun o alpha X => if_neg hz
  refine ⟨rfl, ?_, ?_⟩
  · unfold Qrd.covsol Qrd.decompose
    dsimp only
    rw [ht]
    rfl
  · unfold Qrd.lsqsol Qrd.decompose
    dsimp only
    cases mqr lib cplx .l (ctrans cplx) (lib.geqrf 0) C with
    | none => rfl
    | some X => exact congrArg (Option.map _) (ht _ _ _)

/-- `solve` never reports a failure: whatever it computes, it returns `true`; for a matrix without an inverse it divides by zero. -/
theorem C65_singular_false {m n p : ℕ} (lib : Lapack K m n) (s : Lud K n) (A : Matrix (Fin n) (Fin n) K) (hA : IsLu lib A) (hs : A.det = 0) (cplx : Bool)
    (o : Op) (B : Matrix (Fin n) (Fin p) K) :
    (s.decompose lib A).2 = false ∧ (s.decompose lib A).1.solve cplx o B = none ∧
    ∀ (t : Lud K n) (b : Bool) (x : Matrix (Fin n) (Fin p) K), t.solve cplx o B = some (b, x) → b = true := by
  have h0 : (s.decompose lib A).2 = false := by
    by_contra hne
    have := (C65_lu_ok lib s A hA).1 (by simpa using hne)
    rw [hs] at this
    exact not_isUnit_zero this
  have hd : ¬ ∀ i, (lib.getrf A).1.data i i ≠ 0 := by
    rw [← hA.2]
    intro ht
    have : (lib.getrf A).2 = false := h0
    rw [this] at ht
    cases ht
  refine ⟨h0, ?_, ?_⟩
  · unfold Lud.solve Lud.decompose getrs
    dsimp only
    rw [if_neg hd]
    split <;> rfl
  · intro t b x hb
    unfold Lud.solve at hb
    split at hb
    · cases hb
    · obtain ⟨y, _, hy⟩ := Option.map_eq_some_iff.1 hb
      cases hy
      rfl

/-! ## Examples -/

/-- A library that factorises the matrices of the examples below. -/
def exLib : Lapack ℚ 2 1 where
  getrf := fun A => (⟨1, A⟩, !decide (A 0 0 = 0))
  potrf := fun _ _ => (!![2], true)
  geqrf := fun _ => ⟨!![5; 0], 0⟩
  q := fun k _ => if h : k = 2 then h ▸ !![3/5, -4/5; 4/5, 3/5] else 1

example : IsQr exLib !![3; 4] ∧ ((!![3; 4] : Matrix (Fin 2) (Fin 1) ℚ)ᴴ * (!![3; 4] : Matrix (Fin 2) (Fin 1) ℚ)).det ≠ 0 := by
  refine ⟨⟨?_, ?_⟩, ?_⟩
  · ext i j
    fin_cases i <;> fin_cases j <;> simp [exLib, mul_apply, Fin.sum_univ_two] <;> norm_num
  · ext i j
    fin_cases i <;> fin_cases j <;> simp [exLib, mul_apply, Fin.sum_univ_two] <;> norm_num
  · simp [mul_apply, Fin.sum_univ_two]
    norm_num

example : IsLu exLib !![7] := by
  refine ⟨?_, ?_⟩
  · ext i j
    fin_cases i; fin_cases j
    simp [exLib, mul_apply, LuFact.p, LuFact.low, LuFact.up]
  · simp [exLib]

example : IsChol exLib true !![4] ∧ IsChol exLib false !![4] := by
  refine ⟨fun _ => ⟨?_, ?_⟩, fun _ => ⟨?_, ?_⟩⟩
  · intro i; fin_cases i; simp [exLib]
  · ext i j; fin_cases i; fin_cases j; simp [exLib, sym, tri, mul_apply]; norm_num
  · intro i; fin_cases i; simp [exLib]
  · ext i j; fin_cases i; fin_cases j; simp [exLib, sym, tri, mul_apply]; norm_num

/-- **C65 (the other triangle).** Solving with a Cholesky factor depends only on the triangle the factor is stored in. -/
theorem C65_triangle {n p : ℕ} (u : Bool) (D D' : Matrix (Fin n) (Fin n) K) (B : Matrix (Fin n) (Fin p) K)
    (h : ∀ i j, (if u then i ≤ j else j ≤ i) → D i j = D' i j) : potrs u D B = potrs u D' B := by
  have ht : tri u D = tri u D' := by
    ext i j
    unfold tri
    by_cases hc : if u then i ≤ j else j ≤ i
    · rw [if_pos hc, if_pos hc]; exact h i j hc
    · rw [if_neg hc, if_neg hc]
  have hd : ∀ i, D i i = D' i i := fun i => h i i (by cases u <;> simp)
  unfold potrs
  simp only [hd]
  cases u <;> simp [ht]

end Verif.Props
