import Verif.Blas.Lemmas
import Mathlib.Algebra.Star.BigOperators

/-!
# C64: products computed with the BLAS are the products of the views
-/

namespace Verif.Blas

open Finset

/-- A matrix in one of the two usual forms: the elements of a line are adjacent, lines do not overlap, and all numbers fit an `int`. -/
structure MView.Usual (v : MView) : Prop where
  minor : (if v.rowMajor then v.s1 else v.s0) = 1
  lead : max 1 (if v.rowMajor then (v.cols : ℤ) else v.rows) ≤ if v.rowMajor then v.s0 else v.s1
  small : (if v.rowMajor then v.s0 else v.s1) < 2147483648
  rows : v.rows < 2147483648
  cols : v.cols < 2147483648

/-- The same without a condition on the distance of the elements of a line. -/
structure MView.Led (v : MView) : Prop where
  lead : max 1 (if v.rowMajor then (v.cols : ℤ) else v.rows) ≤ if v.rowMajor then v.s0 else v.s1
  small : (if v.rowMajor then v.s0 else v.s1) < 2147483648
  rows : v.rows < 2147483648
  cols : v.cols < 2147483648

theorem MView.Led.usual {v : MView} (h : v.Led) (m : (if v.rowMajor then v.s1 else v.s0) = 1) : v.Usual := ⟨m, h.lead, h.small, h.rows, h.cols⟩

/-- Nothing but the elements of the matrix has changed. -/
def OnlyM {K : Type} (r : MView) (R R' : Mem K) : Prop := ∀ x, (∀ i < r.rows, ∀ j < r.cols, x ≠ r.addr i j) → R' x = R x

/-- Nothing but the elements of the vector has changed. -/
def OnlyV {K : Type} (r : VView) (R R' : Mem K) : Prop := ∀ x, (∀ i < r.n, x ≠ r.addr i) → R' x = R x

theorem usual_inj {r : MView} (h : r.Usual) : Inj r := by
  intro i hi j hj i' hi' j' hj' e
  have h1 := h.minor
  have h2 := h.lead
  unfold MView.addr at e
  cases hr : r.rowMajor with
  | true =>
    simp only [hr, if_true] at h1 h2
    rw [h1] at e
    obtain ⟨a1, a2⟩ := divmod (d := (j : ℤ) + i * r.s0) (i := j) (j := i) (ld := r.s0) (by omega) (by omega) rfl
    obtain ⟨b1, b2⟩ := divmod (d := (j : ℤ) + i * r.s0) (i := j') (j := i') (ld := r.s0) (by omega) (by omega) (by linear_combination e)
    omega
  | false =>
    simp only [hr, Bool.false_eq_true, if_false] at h1 h2
    rw [h1] at e
    obtain ⟨a1, a2⟩ := divmod (d := (i : ℤ) + j * r.s1) (i := i) (j := j) (ld := r.s1) (by omega) (by omega) rfl
    obtain ⟨b1, b2⟩ := divmod (d := (i : ℤ) + j * r.s1) (i := i') (j := j') (ld := r.s1) (by omega) (by omega) (by linear_combination e)
    omega

section
variable {K : Type} [CommRing K] [StarRing K] [DecidableEq K]

omit [StarRing K] [DecidableEq K] in
/-- The wrapper finds the elements of the view, whatever the sign of the stride. -/
theorem vec_adjust (x s : ℤ) (n : ℕ) (h : -2147483648 ≤ s * ((n : ℤ) - 1) ∧ s * ((n : ℤ) - 1) < 2147483648) :
    ∃ y, adjust x s n = some y ∧ ∀ l : ℕ, vecAddr y s n l = x + l * s := by
  unfold adjust vecAddr
  by_cases hs : s < 0
  · rw [if_pos hs]
    dsimp only
    rw [if_pos (by constructor <;> [exact h.1; exact h.2])]
    refine ⟨_, rfl, fun l => ?_⟩
    rw [if_neg (by omega)]
    ring
  · rw [if_neg hs]
    refine ⟨x, rfl, fun l => ?_⟩
    by_cases h0 : 0 < s
    · rw [if_pos h0]
    · have : s = 0 := by omega
      subst this
      simp

omit [DecidableEq K] in
theorem dot_spec {cplx cj : Bool} {toFloat : K → K} {A B : Mem K} {a b : VView} {n : ℕ}
    (ha : -2147483648 ≤ a.s * ((n : ℤ) - 1) ∧ a.s * ((n : ℤ) - 1) < 2147483648)
    (hb : -2147483648 ≤ b.s * ((n : ℤ) - 1) ∧ b.s * ((n : ℤ) - 1) < 2147483648) :
    dot cplx cj toFloat n A a.ptr a.s B b.ptr b.s =
      some (if cplx then toFloat (∑ l ∈ range n, (if cj then star (A (a.addr l)) else A (a.addr l)) * B (b.addr l))
        else ∑ l ∈ range n, (if cj then star (A (a.addr l)) else A (a.addr l)) * B (b.addr l)) := by
  obtain ⟨x, e, hx⟩ := vec_adjust a.ptr a.s n ha
  obtain ⟨y, e', hy⟩ := vec_adjust b.ptr b.s n hb
  have : dotBlas cj n A x a.s B y b.s = ∑ l ∈ range n, (if cj then star (A (a.addr l)) else A (a.addr l)) * B (b.addr l) := by
    unfold dotBlas
    rw [Int.toNat_natCast]
    refine sum_congr rfl fun l _ => ?_
    rw [hx, hy]
    rfl
  unfold dot
  rw [e, e']
  simp only [Option.bind_eq_bind, Option.bind_some, this]

end

end Verif.Blas

namespace Verif.Props

open Verif.Blas Finset

section
variable {K : Type} [CommRing K] [StarRing K] [DecidableEq K]

/-- `gemp`, any of the eight combinations of orders: `R := alpha A B + beta R`, and nothing else is written.  Partial: nothing in the evaluator
makes sure that the result has adjacent elements (`C64_result_stride_false`), that strides are positive (`C64_negative_false`), that the inner
dimension is not empty (`C64_empty_false`) or that numbers fit an `int`. -/
theorem C64_gemp_partial (alpha beta : K) (A B R : Mem K) (a b r : MView) (ha : a.Usual) (hb : b.Usual) (hr : r.Usual) (hk : a.cols = b.rows)
    (hm : r.rows = a.rows) (hn : r.cols = b.cols) :
    mmValid a b = true ∧ ∃ R', evalGemp alpha A a B b beta R r = some R' ∧
      (∀ i < r.rows, ∀ j < r.cols, R' (r.addr i j) = alpha * (∑ l ∈ range a.cols, A (a.addr i l) * B (b.addr l j)) + beta * R (r.addr i j)) ∧
      OnlyM r R R' := by
  refine ⟨?_, ?_⟩
  · simp [mmValid, ha.minor, hb.minor]
  obtain ⟨ap, as0, as1, am, ak, ao⟩ := a
  obtain ⟨bp, bs0, bs1, bk, bn, bo⟩ := b
  obtain ⟨rp, rs0, rs1, rm, rn, ro⟩ := r
  dsimp only at hk hm hn
  subst hk hm hn
  obtain ⟨a1, a2, a3, a4, a5⟩ := ha
  obtain ⟨b1, b2, b3, b4, b5⟩ := hb
  obtain ⟨r1, r2, r3, r4, r5⟩ := hr
  dsimp only at a1 a2 a3 a4 a5 b1 b2 b3 b4 b5 r1 r2 r3 r4 r5
  unfold evalGemp
  dsimp only
  rw [int_eq (z := (rn : ℤ)) (by omega) (by omega), int_eq (z := (rm : ℤ)) (by omega) (by omega), int_eq (z := (ak : ℤ)) (by omega) (by omega),
    int_eq (z := if ao = true then as0 else as1) (by omega) (by omega), int_eq (z := if bo = true then bs0 else bs1) (by omega) (by omega)]
  cases ro with
  | true =>
    simp only [if_true] at r1 r2 r3 ⊢
    rw [int_eq (z := rs0) (by omega) (by omega)]
    obtain ⟨R', e, h1, h2⟩ := gemm_spec (!bo) (!ao) rn rm ak alpha B bp (if bo = true then bs0 else bs1) A ap (if ao = true then as0 else as1) beta R rp rs0
      (by cases bo <;> simp_all) (by cases ao <;> simp_all) (by omega)
    refine ⟨R', e, ?_, ?_⟩
    · intro i hi j hj
      have := h1 j hj i hi
      unfold MView.addr
      dsimp only
      rw [r1, show rp + (i : ℤ) * rs0 + j * 1 = rp + j + i * rs0 by ring, this]
      congr 2
      refine sum_congr rfl fun l _ => ?_
      rw [mul_comm]
      congr 1
      · cases ao <;> simp only [opElem, Bool.not_true, Bool.not_false, Bool.false_eq_true, if_true, if_false] at a1 ⊢ <;> rw [a1] <;> congr 1 <;> ring
      · cases bo <;> simp only [opElem, Bool.not_true, Bool.not_false, Bool.false_eq_true, if_true, if_false] at b1 ⊢ <;> rw [b1] <;> congr 1 <;> ring
    · intro x hx
      refine h2 x fun j hj i hi => ?_
      have := hx i hi j hj
      unfold MView.addr at this
      dsimp only at this
      rw [r1] at this
      intro e
      exact this (by linear_combination e)
  | false =>
    simp only [Bool.false_eq_true, if_false] at r1 r2 r3 ⊢
    rw [int_eq (z := rs1) (by omega) (by omega)]
    obtain ⟨R', e, h1, h2⟩ := gemm_spec ao bo rm rn ak alpha A ap (if ao = true then as0 else as1) B bp (if bo = true then bs0 else bs1) beta R rp rs1
      (by cases ao <;> simp_all) (by cases bo <;> simp_all) (by omega)
    refine ⟨R', e, ?_, ?_⟩
    · intro i hi j hj
      have := h1 i hi j hj
      unfold MView.addr
      dsimp only
      rw [r1, show rp + (i : ℤ) * 1 + j * rs1 = rp + i + j * rs1 by ring, this]
      congr 2
      refine sum_congr rfl fun l _ => ?_
      congr 1
      · cases ao <;> simp only [opElem, Bool.false_eq_true, if_true, if_false] at a1 ⊢ <;> rw [a1] <;> congr 1 <;> ring
      · cases bo <;> simp only [opElem, Bool.false_eq_true, if_true, if_false] at b1 ⊢ <;> rw [b1] <;> congr 1 <;> ring
    · intro x hx
      refine h2 x fun i hi j hj => ?_
      have := hx i hi j hj
      unfold MView.addr at this
      dsimp only at this
      rw [r1] at this
      intro e
      exact this (by linear_combination e)

/-- Matrix times matrix (partial as `C64_gemp_partial`). -/
theorem C64_prod_partial (A B R : Mem K) (a b r : MView) (ha : a.Usual) (hb : b.Usual) (hr : r.Usual) (hk : a.cols = b.rows)
    (hm : r.rows = a.rows) (hn : r.cols = b.cols) :
    mmValid a b = true ∧ ∃ R', evalMm A a B b R r = some R' ∧
      (∀ i < r.rows, ∀ j < r.cols, R' (r.addr i j) = ∑ l ∈ range a.cols, A (a.addr i l) * B (b.addr l j)) ∧ OnlyM r R R' := by
  obtain ⟨h, R', e, h1, h2⟩ := C64_gemp_partial (1 : K) 0 A B R a b r ha hb hr hk hm hn
  exact ⟨h, R', e, fun i hi j hj => by rw [h1 i hi j hj]; ring, h2⟩

/-- Matrix times vector.  Partial: a row-major matrix has to be packed (`C64_submatrix_false`), a column-major one needs operands with positive
strides (`C64_reversed_false`), and the inner dimension is not empty (`C64_empty_false`). -/
theorem C64_matvec_partial (A B R : Mem K) (a : MView) (b r : VView) (ha : a.Usual) (hp : a.rowMajor = true → a.s0 = a.cols ∧ b.s = 1)
    (hb : 0 < b.s ∧ b.s < 2147483648) (hr : 0 < r.s ∧ r.s < 2147483648) (hk : a.cols = b.n) (hm : r.n = a.rows) (h0 : 0 < a.cols) :
    mvValid a b = true ∧ ∃ R', evalMv A a B b R r = some R' ∧
      (∀ i < r.n, R' (r.addr i) = ∑ l ∈ range a.cols, A (a.addr i l) * B (b.addr l)) ∧ OnlyV r R R' := by
  obtain ⟨ap, as0, as1, am, ak, ao⟩ := a
  obtain ⟨bp, bs, bn⟩ := b
  obtain ⟨rp, rs, rn⟩ := r
  dsimp only at hp hb hr hk hm h0
  subst hk hm
  obtain ⟨a1, a2, a3, a4, a5⟩ := ha
  dsimp only at a1 a2 a3 a4 a5
  unfold mvValid evalMv
  dsimp only
  rw [if_pos rfl, int_eq (z := (rn : ℤ)) (by omega) (by omega), int_eq (z := (ak : ℤ)) (by omega) (by omega), int_eq (z := bs) (by omega) (by omega),
    int_eq (z := rs) (by omega) (by omega)]
  cases ao with
  | true =>
    simp only [if_true] at a1 a2 a3 ⊢
    obtain ⟨p1, p2⟩ := hp rfl
    subst a1 p1 p2
    refine ⟨rfl, ?_⟩
    obtain ⟨R', e, h1, h2⟩ := gemm_spec false false 1 rn ak (1 : K) B bp 1 A ap ak 0 R rp rs (by simp) (by simp; omega) (by omega)
    refine ⟨R', e, ?_, ?_⟩
    · intro i hi
      have := h1 0 (by omega) i hi
      rw [Nat.cast_zero, add_zero] at this
      unfold VView.addr MView.addr
      dsimp only
      rw [this, one_mul, zero_mul, add_zero]
      refine sum_congr rfl fun l _ => ?_
      simp only [opElem, Bool.false_eq_true, if_false]
      rw [mul_comm]
      congr 2 <;> ring
    · intro x hx
      refine h2 x fun i hi j hj => ?_
      have hi0 : i = 0 := by omega
      subst hi0
      have := hx j hj
      unfold VView.addr at this
      dsimp only at this
      rw [Nat.cast_zero, add_zero]
      exact this
  | false =>
    simp only [Bool.false_eq_true, if_false] at a1 a2 a3 ⊢
    rw [int_eq (z := as1) (by omega) (by omega)]
    subst a1
    refine ⟨rfl, ?_⟩
    by_cases hm : rn = 0
    · subst hm
      refine ⟨R, ?_, fun i hi => absurd hi (by omega), fun x _ => rfl⟩
      unfold gemv
      rw [if_neg (by rintro (h | h | h | h | h) <;> omega), if_pos (by simp)]
    · obtain ⟨R', e, h1, h2⟩ := gemv_spec rn ak (1 : K) A ap as1 B bp bs 0 R rp rs (by omega) hb.1 hr.1 (by omega) h0
      refine ⟨R', e, ?_, h2⟩
      intro i hi
      have := h1 i hi
      unfold VView.addr MView.addr
      dsimp only
      rw [this, one_mul, zero_mul, add_zero]
      refine sum_congr rfl fun l _ => ?_
      congr 2; ring

/-- Vector times matrix.  Partial as `C64_matvec_partial`, with rows and columns exchanged. -/
theorem C64_vecmat_partial (A B R : Mem K) (a r : VView) (b : MView) (hb : b.Usual) (hp : b.rowMajor = false → b.s1 = b.rows ∧ a.s = 1)
    (ha : 0 < a.s ∧ a.s < 2147483648) (hr : 0 < r.s ∧ r.s < 2147483648) (hk : a.n = b.rows) (hn : r.n = b.cols) (h0 : 0 < b.rows) :
    vmValid a b = true ∧ ∃ R', evalVm A a B b R r = some R' ∧
      (∀ j < r.n, R' (r.addr j) = ∑ l ∈ range b.rows, A (a.addr l) * B (b.addr l j)) ∧ OnlyV r R R' := by
  obtain ⟨ap, as, an⟩ := a
  obtain ⟨bp, bs0, bs1, bk, bn, bo⟩ := b
  obtain ⟨rp, rs, rn⟩ := r
  dsimp only at hp ha hr hk hn h0
  subst hk hn
  obtain ⟨b1, b2, b3, b4, b5⟩ := hb
  dsimp only at b1 b2 b3 b4 b5
  unfold vmValid evalVm
  dsimp only
  rw [if_pos rfl, int_eq (z := (rn : ℤ)) (by omega) (by omega), int_eq (z := (an : ℤ)) (by omega) (by omega), int_eq (z := as) (by omega) (by omega),
    int_eq (z := rs) (by omega) (by omega)]
  cases bo with
  | false =>
    simp only [Bool.false_eq_true, if_false] at b1 b2 b3 ⊢
    obtain ⟨p1, p2⟩ := hp rfl
    subst b1 p1 p2
    refine ⟨rfl, ?_⟩
    obtain ⟨R', e, h1, h2⟩ := gemm_spec false false 1 rn an (1 : K) A ap 1 B bp an 0 R rp rs (by simp) (by simp; omega) (by omega)
    refine ⟨R', e, ?_, ?_⟩
    · intro i hi
      have := h1 0 (by omega) i hi
      rw [Nat.cast_zero, add_zero] at this
      unfold VView.addr MView.addr
      dsimp only
      rw [this, one_mul, zero_mul, add_zero]
      refine sum_congr rfl fun l _ => ?_
      simp only [opElem, Bool.false_eq_true, if_false]
      congr 2 <;> ring
    · intro x hx
      refine h2 x fun i hi j hj => ?_
      have hi0 : i = 0 := by omega
      subst hi0
      have := hx j hj
      unfold VView.addr at this
      dsimp only at this
      rw [Nat.cast_zero, add_zero]
      exact this
  | true =>
    simp only [if_true] at b1 b2 b3 ⊢
    rw [int_eq (z := bs0) (by omega) (by omega)]
    subst b1
    refine ⟨rfl, ?_⟩
    by_cases hm : rn = 0
    · subst hm
      refine ⟨R, ?_, fun i hi => absurd hi (by omega), fun x _ => rfl⟩
      unfold gemv
      rw [if_neg (by rintro (h | h | h | h | h) <;> omega), if_pos (by simp)]
    · obtain ⟨R', e, h1, h2⟩ := gemv_spec rn an (1 : K) B bp bs0 A ap as 0 R rp rs (by omega) ha.1 hr.1 (by omega) h0
      refine ⟨R', e, ?_, h2⟩
      intro i hi
      have := h1 i hi
      unfold VView.addr MView.addr
      dsimp only
      rw [this, one_mul, zero_mul, add_zero]
      refine sum_congr rfl fun l _ => ?_
      rw [mul_comm]
      congr 2; ring

/-- Operands of any strides whose lines do not overlap: whenever the evaluator of matrix products accepts them, the product is right.  So operands
whose elements are not adjacent are declined.  Partial as `C64_gemp_partial`. -/
theorem C64_gemp_accepted_partial (alpha beta : K) (A B R : Mem K) (a b r : MView) (ha : a.Led) (hb : b.Led) (hr : r.Usual) (hk : a.cols = b.rows)
    (hm : r.rows = a.rows) (hn : r.cols = b.cols) (hv : mmValid a b = true) :
    ∃ R', evalGemp alpha A a B b beta R r = some R' ∧
      (∀ i < r.rows, ∀ j < r.cols, R' (r.addr i j) = alpha * (∑ l ∈ range a.cols, A (a.addr i l) * B (b.addr l j)) + beta * R (r.addr i j)) ∧
      OnlyM r R R' := by
  simp only [mmValid, Bool.and_eq_true, beq_iff_eq] at hv
  exact (C64_gemp_partial alpha beta A B R a b r (ha.usual hv.1) (hb.usual hv.2) hr hk hm hn).2

/-- The same for matrix times vector: an accepted row-major matrix, if its lines follow each other without gaps, gives the product whatever its
strides and that of the vector are. -/
theorem C64_matvec_accepted_partial (A B R : Mem K) (a : MView) (b r : VView) (ha : a.Led) (hp : a.rowMajor = true → a.s0 = a.cols)
    (hb : 0 < b.s ∧ b.s < 2147483648) (hr : 0 < r.s ∧ r.s < 2147483648) (hk : a.cols = b.n) (hm : r.n = a.rows) (h0 : 0 < a.cols)
    (hv : mvValid a b = true) :
    ∃ R', evalMv A a B b R r = some R' ∧ (∀ i < r.n, R' (r.addr i) = ∑ l ∈ range a.cols, A (a.addr i l) * B (b.addr l)) ∧ OnlyV r R R' := by
  have h1 : (if a.rowMajor then a.s1 else a.s0) = 1 ∧ (a.rowMajor = true → b.s = 1) := by
    unfold mvValid at hv
    cases e : a.rowMajor <;> simp_all
  exact (C64_matvec_partial A B R a b r (ha.usual h1.1) (fun e => ⟨hp e, h1.2 e⟩) hb hr hk hm h0).2

/-- The same for vector times matrix. -/
theorem C64_vecmat_accepted_partial (A B R : Mem K) (a r : VView) (b : MView) (hb : b.Led) (hp : b.rowMajor = false → b.s1 = b.rows)
    (ha : 0 < a.s ∧ a.s < 2147483648) (hr : 0 < r.s ∧ r.s < 2147483648) (hk : a.n = b.rows) (hn : r.n = b.cols) (h0 : 0 < b.rows)
    (hv : vmValid a b = true) :
    ∃ R', evalVm A a B b R r = some R' ∧ (∀ j < r.n, R' (r.addr j) = ∑ l ∈ range b.rows, A (a.addr l) * B (b.addr l j)) ∧ OnlyV r R R' := by
  have h1 : (if b.rowMajor then b.s1 else b.s0) = 1 ∧ (b.rowMajor = false → a.s = 1) := by
    unfold vmValid at hv
    cases e : b.rowMajor <;> simp_all
  exact (C64_vecmat_partial A B R a r b (h1.1 |> hb.usual) (fun e => ⟨hp e, h1.2 e⟩) ha hr hk hn h0).2

/-- Operands that meet the hypotheses: one accepted, one (every second column) declined. -/
example : (⟨0, 6, 1, 2, 3, true⟩ : MView).Led ∧ (⟨0, 6, 2, 2, 3, true⟩ : MView).Led ∧
    mmValid ⟨0, 6, 1, 2, 3, true⟩ ⟨0, 1, 3, 3, 2, false⟩ = true ∧ mmValid ⟨0, 6, 2, 2, 3, true⟩ ⟨0, 1, 3, 3, 2, false⟩ = false ∧
    mvValid ⟨0, 3, 1, 2, 3, true⟩ ⟨0, 1, 3⟩ = true ∧ vmValid ⟨0, 1, 2⟩ ⟨0, 3, 1, 2, 3, true⟩ = true := by
  refine ⟨⟨?_, ?_, ?_, ?_⟩, ⟨?_, ?_, ?_, ?_⟩, ?_, ?_, ?_, ?_⟩ <;> decide

/-- The outer product of real vectors.  Partial: the result has to be packed, that is its lines have to follow each other without gaps
(`C64_outer_gap_false`). -/
theorem C64_outer_partial (alpha : K) (A B R : Mem K) (a b : VView) (r : MView) (hv : outerValid a b = true) (hr : r.Usual)
    (hp : (if r.rowMajor then r.s0 else r.s1) = if r.rowMajor then (r.cols : ℤ) else r.rows) (hm : r.rows = a.n) (hn : r.cols = b.n) :
    ∃ R', evalOuter alpha A a B b R r = some R' ∧ (∀ i < r.rows, ∀ j < r.cols, R' (r.addr i j) = alpha * A (a.addr i) * B (b.addr j)) ∧
      OnlyM r R R' := by
  have hi := usual_inj hr
  obtain ⟨z1, z2⟩ := fold_view r hi (fun _ => (0 : K)) R
  change (∀ i < r.rows, ∀ j < r.cols, zero r R (r.addr i j) = 0) at z1
  change (∀ z, (∀ i < r.rows, ∀ j < r.cols, z ≠ r.addr i j) → zero r R z = R z) at z2
  generalize hR : zero r R = R1 at z1 z2
  unfold evalOuter
  rw [if_pos ⟨hm.symm, hn.symm⟩, hR]
  obtain ⟨ap, as, an⟩ := a
  obtain ⟨bp, bs, bn⟩ := b
  obtain ⟨rp, rs0, rs1, rm, rn, ro⟩ := r
  simp only [outerValid, Bool.and_eq_true, beq_iff_eq] at hv
  dsimp only at hm hn hp hv
  subst hm hn
  obtain ⟨rfl, rfl⟩ := hv
  obtain ⟨r1, r2, r3, r4, r5⟩ := hr
  dsimp only at r1 r2 r3 r4 r5
  dsimp only
  rw [int_eq (z := (rn : ℤ)) (by omega) (by omega), int_eq (z := (rm : ℤ)) (by omega) (by omega), int_eq (z := 1) (by omega) (by omega)]
  cases ro with
  | true =>
    simp only [if_true] at r1 r2 r3 hp ⊢
    subst hp r1
    obtain ⟨R', e, h1, h2⟩ := ger_spec false rn rm alpha B bp A ap R1 rp rn r2
    refine ⟨R', e, ?_, ?_⟩
    · intro i hi j hj
      have h := h1 j hj i hi
      have hz := z1 i hi j hj
      unfold MView.addr VView.addr at *
      dsimp only at hz ⊢
      rw [show rp + (i : ℤ) * rn + j * 1 = rp + j + i * rn by ring] at hz ⊢
      rw [h, hz]
      simp only [Bool.false_eq_true, if_false, mul_one]
      ring
    · intro x hx
      rw [h2 x, z2 x hx]
      intro j hj i hi e
      exact hx i hi j hj (by unfold MView.addr; dsimp only; linear_combination e)
  | false =>
    simp only [Bool.false_eq_true, if_false] at r1 r2 r3 hp ⊢
    subst hp r1
    obtain ⟨R', e, h1, h2⟩ := ger_spec false rm rn alpha A ap B bp R1 rp rm r2
    refine ⟨R', e, ?_, ?_⟩
    · intro i hi j hj
      have h := h1 i hi j hj
      have hz := z1 i hi j hj
      unfold MView.addr VView.addr at *
      dsimp only at hz ⊢
      rw [show rp + (i : ℤ) * 1 + j * rm = rp + i + j * rm by ring] at hz ⊢
      rw [h, hz]
      simp only [Bool.false_eq_true, if_false, mul_one]
      ring
    · intro x hx
      rw [h2 x, z2 x hx]
      intro i hi j hj e
      exact hx i hi j hj (by unfold MView.addr; dsimp only; linear_combination e)

/-- The outer product of complex vectors, `alpha a bᴴ`.  Partial as `C64_outer_partial`. -/
theorem C64_outer_complex_partial (alpha : K) (A B R : Mem K) (a b : VView) (r : MView) (hv : outerValid a b = true) (hr : r.Usual)
    (hp : (if r.rowMajor then r.s0 else r.s1) = if r.rowMajor then (r.cols : ℤ) else r.rows) (hm : r.rows = a.n) (hn : r.cols = b.n) :
    ∃ R', evalOuterC alpha A a B b R r = some R' ∧ (∀ i < r.rows, ∀ j < r.cols, R' (r.addr i j) = alpha * A (a.addr i) * star (B (b.addr j))) ∧
      OnlyM r R R' := by
  have hi := usual_inj hr
  have hr' := hr
  obtain ⟨z1, z2⟩ := fold_view r hi (fun _ => (0 : K)) R
  change (∀ i < r.rows, ∀ j < r.cols, zero r R (r.addr i j) = 0) at z1
  change (∀ z, (∀ i < r.rows, ∀ j < r.cols, z ≠ r.addr i j) → zero r R z = R z) at z2
  generalize hR : zero r R = R1 at z1 z2
  have hconj := fun R => fold_view r hi (fun x => alpha * star x) R
  change ∀ R, (∀ i < r.rows, ∀ j < r.cols, conjAll alpha r R (r.addr i j) = alpha * star (R (r.addr i j))) ∧
    (∀ z, (∀ i < r.rows, ∀ j < r.cols, z ≠ r.addr i j) → conjAll alpha r R z = R z) at hconj
  unfold evalOuterC
  rw [if_pos ⟨hm.symm, hn.symm⟩, hR]
  obtain ⟨ap, as, an⟩ := a
  obtain ⟨bp, bs, bn⟩ := b
  obtain ⟨rp, rs0, rs1, rm, rn, ro⟩ := r
  simp only [outerValid, Bool.and_eq_true, beq_iff_eq] at hv
  dsimp only at hm hn hp hv
  subst hm hn
  obtain ⟨rfl, rfl⟩ := hv
  obtain ⟨r1, r2, r3, r4, r5⟩ := hr
  dsimp only at r1 r2 r3 r4 r5
  dsimp only
  rw [int_eq (z := (rn : ℤ)) (by omega) (by omega), int_eq (z := (rm : ℤ)) (by omega) (by omega), int_eq (z := 1) (by omega) (by omega)]
  cases ro with
  | true =>
    simp only [if_true] at r1 r2 r3 hp ⊢
    subst hp r1
    obtain ⟨R', e, h1, h2⟩ := ger_spec true rn rm (1 : K) B bp A ap R1 rp rn r2
    rw [e]
    refine ⟨_, rfl, ?_, ?_⟩
    · intro i hi j hj
      have h := h1 j hj i hi
      have hz := z1 i hi j hj
      rw [(hconj R').1 i hi j hj]
      unfold MView.addr VView.addr at *
      dsimp only at hz ⊢
      rw [show rp + (i : ℤ) * rn + j * 1 = rp + j + i * rn by ring] at hz ⊢
      rw [h, hz]
      simp only [if_true, mul_one, one_mul, zero_add, star_mul, star_star]
      ring
    · intro x hx
      rw [(hconj R').2 x hx, h2 x, z2 x hx]
      intro j hj i hi e
      exact hx i hi j hj (by unfold MView.addr; dsimp only; linear_combination e)
  | false =>
    simp only [Bool.false_eq_true, if_false] at r1 r2 r3 hp ⊢
    subst hp r1
    obtain ⟨R', e, h1, h2⟩ := ger_spec true rm rn alpha A ap B bp R1 rp rm r2
    refine ⟨R', e, ?_, ?_⟩
    · intro i hi j hj
      have h := h1 i hi j hj
      have hz := z1 i hi j hj
      unfold MView.addr VView.addr at *
      dsimp only at hz ⊢
      rw [show rp + (i : ℤ) * 1 + j * rm = rp + i + j * rm by ring] at hz ⊢
      rw [h, hz]
      simp only [if_true, mul_one]
      ring
    · intro x hx
      rw [h2 x, z2 x hx]
      intro i hi j hj e
      exact hx i hi j hj (by unfold MView.addr; dsimp only; linear_combination e)

/-- The dot product, with strides of either sign or zero.  Partial: for complex types `toFloat` must not change the result (`C64_double_false`),
and sizes and strides have to fit an `int` (`C64_long_false`). -/
theorem C64_dot_partial (cplx : Bool) (toFloat : K → K) (A B : Mem K) (a b : VView) (hn : a.n = b.n) (hs : a.n < 2147483648)
    (ha : -2147483648 ≤ a.s ∧ a.s < 2147483648 ∧ -2147483648 ≤ a.s * ((a.n : ℤ) - 1) ∧ a.s * ((a.n : ℤ) - 1) < 2147483648)
    (hb : -2147483648 ≤ b.s ∧ b.s < 2147483648 ∧ -2147483648 ≤ b.s * ((a.n : ℤ) - 1) ∧ b.s * ((a.n : ℤ) - 1) < 2147483648)
    (hf : cplx = true → toFloat (∑ l ∈ range a.n, A (a.addr l) * B (b.addr l)) = ∑ l ∈ range a.n, A (a.addr l) * B (b.addr l)) :
    evalDot cplx toFloat A a B b = some (∑ l ∈ range a.n, A (a.addr l) * B (b.addr l)) := by
  unfold evalDot
  rw [if_pos hn, int_eq (z := (a.n : ℤ)) (by omega) (by omega), int_eq ha.1 ha.2.1, int_eq hb.1 hb.2.1, dot_spec ha.2.2 hb.2.2]
  simp only [Bool.false_eq_true, if_false]
  cases cplx with
  | false => simp
  | true => rw [if_pos rfl, hf rfl]

/-- `dot(a, conj(b))`.  Partial as `C64_dot_partial`. -/
theorem C64_dotc_partial (toFloat : K → K) (A B : Mem K) (a b : VView) (hn : a.n = b.n) (hs : a.n < 2147483648)
    (ha : -2147483648 ≤ a.s ∧ a.s < 2147483648 ∧ -2147483648 ≤ a.s * ((a.n : ℤ) - 1) ∧ a.s * ((a.n : ℤ) - 1) < 2147483648)
    (hb : -2147483648 ≤ b.s ∧ b.s < 2147483648 ∧ -2147483648 ≤ b.s * ((a.n : ℤ) - 1) ∧ b.s * ((a.n : ℤ) - 1) < 2147483648)
    (hf : toFloat (∑ l ∈ range a.n, A (a.addr l) * star (B (b.addr l))) = ∑ l ∈ range a.n, A (a.addr l) * star (B (b.addr l))) :
    evalDotc toFloat A a B b = some (∑ l ∈ range a.n, A (a.addr l) * star (B (b.addr l))) := by
  unfold evalDotc
  rw [if_pos hn, int_eq (z := (a.n : ℤ)) (by omega) (by omega), int_eq ha.1 ha.2.1, int_eq hb.1 hb.2.1, dot_spec hb.2.2 ha.2.2]
  simp only [if_true]
  rw [← hf]
  congr 2
  exact sum_congr rfl fun l _ => mul_comm _ _

end

/-! ## Where the evaluators go wrong -/

/-- Matrix times matrix into a view whose elements are not adjacent: `rt_valid` looks at the operands only, so the product is accepted and written to the
wrong places (here `[1] * [1 2]` into every other column). -/
theorem C64_result_stride_false :
    ∃ (A B R : Mem ℤ) (a b r : MView), a.Usual ∧ b.Usual ∧ Inj r ∧ a.cols = b.rows ∧ r.rows = a.rows ∧ r.cols = b.cols ∧ mmValid a b = true ∧
      ∀ R', evalMm A a B b R r = some R' →
        R' (r.addr 0 1) ≠ ∑ l ∈ range a.cols, A (a.addr 0 l) * B (b.addr l 1) ∧ ¬ OnlyM r R R' := by
  refine ⟨fun _ => 1, fun z => z + 1, fun _ => 0, ⟨0, 1, 1, 1, 1, true⟩, ⟨0, 2, 1, 1, 2, true⟩, ⟨0, 4, 2, 1, 2, true⟩, ?_, ?_, ?_, rfl, rfl, rfl,
    by decide, ?_⟩
  · constructor <;> decide
  · constructor <;> decide
  · intro i hi j hj i' hi' j' hj' e
    simp only [MView.addr] at *
    omega
  intro R' h
  have e : R' = ((evalMm (fun _ => 1) ⟨0, 1, 1, 1, 1, true⟩ (fun z => z + 1) ⟨0, 2, 1, 1, 2, true⟩ (fun _ => 0)
    ⟨0, 4, 2, 1, 2, true⟩ : Option (Mem ℤ)).getD fun _ => 0) := by rw [h]; rfl
  subst e
  refine ⟨by decide +kernel, fun h => ?_⟩
  have h := h 1 (by
    intro i hi j hj e
    simp only [MView.addr] at *
    omega)
  revert h
  decide +kernel

/-- A row-major submatrix times a vector: the number of columns is passed for the leading dimension, so the rows after the first are read from the wrong
place (here the left 2 x 2 part of a 2 x 3 matrix). -/
theorem C64_submatrix_false :
    ∃ (A B R : Mem ℤ) (a : MView) (b r : VView), a.Usual ∧ b.s = 1 ∧ r.s = 1 ∧ a.cols = b.n ∧ r.n = a.rows ∧ mvValid a b = true ∧
      ∀ R', evalMv A a B b R r = some R' → R' (r.addr 1) ≠ ∑ l ∈ range a.cols, A (a.addr 1 l) * B (b.addr l) := by
  refine ⟨fun z => z, fun _ => 1, fun _ => 0, ⟨0, 3, 1, 2, 2, true⟩, ⟨0, 1, 2⟩, ⟨0, 1, 2⟩, ?_, rfl, rfl, rfl, rfl, by decide, ?_⟩
  · constructor <;> decide
  intro R' h
  have e : R' = ((evalMv (fun z => z) ⟨0, 3, 1, 2, 2, true⟩ (fun _ => 1) ⟨0, 1, 2⟩ (fun _ => 0) ⟨0, 1, 2⟩ : Option (Mem ℤ)).getD fun _ => 0) := by
    rw [h]; rfl
  subst e
  decide +kernel

/-- The same for a vector times a column-major submatrix. -/
theorem C64_submatrix_vecmat_false :
    ∃ (A B R : Mem ℤ) (a r : VView) (b : MView), b.Usual ∧ a.s = 1 ∧ r.s = 1 ∧ a.n = b.rows ∧ r.n = b.cols ∧ vmValid a b = true ∧
      ∀ R', evalVm A a B b R r = some R' → R' (r.addr 1) ≠ ∑ l ∈ range b.rows, A (a.addr l) * B (b.addr l 1) := by
  refine ⟨fun _ => 1, fun z => z, fun _ => 0, ⟨0, 1, 2⟩, ⟨0, 1, 2⟩, ⟨0, 1, 3, 2, 2, false⟩, ?_, rfl, rfl, rfl, rfl, by decide, ?_⟩
  · constructor <;> decide
  intro R' h
  have e : R' = ((evalVm (fun _ => 1) ⟨0, 1, 2⟩ (fun z => z) ⟨0, 1, 3, 2, 2, false⟩ (fun _ => 0) ⟨0, 1, 2⟩ : Option (Mem ℤ)).getD fun _ => 0) := by
    rw [h]; rfl
  subst e
  decide +kernel

/-- The outer product into a submatrix: the number of columns is passed for the leading dimension, so rows after the first are written to the wrong
place, also outside of the submatrix. -/
theorem C64_outer_gap_false :
    ∃ (A B R : Mem ℤ) (a b : VView) (r : MView), r.Usual ∧ outerValid a b = true ∧ r.rows = a.n ∧ r.cols = b.n ∧
      ∀ R', evalOuter 1 A a B b R r = some R' → R' (r.addr 1 1) ≠ A (a.addr 1) * B (b.addr 1) ∧ ¬ OnlyM r R R' := by
  refine ⟨fun _ => 1, fun _ => 1, fun _ => 5, ⟨0, 1, 2⟩, ⟨0, 1, 2⟩, ⟨0, 3, 1, 2, 2, true⟩, ?_, by decide, rfl, rfl, ?_⟩
  · constructor <;> decide
  intro R' h
  have e : R' = ((evalOuter 1 (fun _ => 1) ⟨0, 1, 2⟩ (fun _ => 1) ⟨0, 1, 2⟩ (fun _ => 5) ⟨0, 3, 1, 2, 2, true⟩ : Option (Mem ℤ)).getD fun _ => 0) := by
    rw [h]; rfl
  subst e
  refine ⟨by decide +kernel, fun h => ?_⟩
  have h := h 2 (by
    intro i hi j hj e
    simp only [MView.addr] at *
    omega)
  revert h
  decide +kernel

/-- A column-major matrix times a reversed vector: `gemv` is given the pointer to the first element together with a negative increment, which the BLAS takes
for a vector *starting at the far end* of where it lies (`dot` corrects for this, `gemv` does not).  Memory outside of the vector is read. -/
theorem C64_reversed_false :
    ∃ (A B R : Mem ℤ) (a : MView) (b r : VView), a.Usual ∧ r.s = 1 ∧ a.cols = b.n ∧ r.n = a.rows ∧ mvValid a b = true ∧
      ∀ R', evalMv A a B b R r = some R' → R' (r.addr 0) ≠ ∑ l ∈ range a.cols, A (a.addr 0 l) * B (b.addr l) := by
  refine ⟨fun _ => 1, fun z => if z < 2 then 1 else 0, fun _ => 0, ⟨0, 1, 1, 1, 2, false⟩, ⟨1, -1, 2⟩, ⟨0, 1, 1⟩, ?_, rfl, rfl, rfl, by decide, ?_⟩
  · constructor <;> decide
  intro R' h
  have e : R' = ((evalMv (fun _ => 1) ⟨0, 1, 1, 1, 2, false⟩ (fun z => if z < 2 then 1 else 0) ⟨1, -1, 2⟩ (fun _ => 0) ⟨0, 1, 1⟩
    : Option (Mem ℤ)).getD fun _ => 0) := by
    rw [h]; rfl
  subst e
  decide +kernel

/-- A matrix whose rows are in reverse order, times a matrix: accepted by `rt_valid`, but the BLAS refuses a negative leading dimension and computes
nothing, whatever the values are. -/
theorem C64_negative_false :
    ∃ (a b r : MView), Inj a ∧ b.Usual ∧ r.Usual ∧ a.cols = b.rows ∧ r.rows = a.rows ∧ r.cols = b.cols ∧ mmValid a b = true ∧
      ∀ A B R : Mem ℤ, evalMm A a B b R r = none := by
  refine ⟨⟨2, -2, 1, 2, 2, true⟩, ⟨0, 2, 1, 2, 2, true⟩, ⟨0, 2, 1, 2, 2, true⟩, ?_, ?_, ?_, rfl, rfl, rfl, by decide, ?_⟩
  · intro i hi j hj i' hi' j' hj' e
    simp only [MView.addr] at *
    omega
  · constructor <;> decide
  · constructor <;> decide
  · intro A B R
    rfl

/-- Empty inner dimension: the product of a 2 x 0 and a 0 x 2 matrix is zero, but dense row-major 2 x 0 matrices have a leading dimension of zero, which the
BLAS refuses; the product of a column-major 2 x 0 matrix and an empty vector leaves the result as it was. -/
theorem C64_empty_false :
    (∃ a b r : MView, a.cols = 0 ∧ b.rows = 0 ∧ a.s0 = a.cols ∧ a.s1 = 1 ∧ b.Usual ∧ r.Usual ∧ r.rows = a.rows ∧ r.cols = b.cols ∧ mmValid a b = true ∧
      ∀ A B R : Mem ℤ, evalMm A a B b R r = none) ∧
    (∃ (a : MView) (b r : VView), a.Usual ∧ b.s = 1 ∧ r.s = 1 ∧ a.cols = 0 ∧ b.n = 0 ∧ r.n = a.rows ∧ 0 < r.n ∧ mvValid a b = true ∧
      ∀ A B R : Mem ℤ, evalMv A a B b R r = some R) := by
  refine ⟨⟨⟨0, 0, 1, 2, 0, true⟩, ⟨0, 2, 1, 0, 2, true⟩, ⟨0, 2, 1, 2, 2, true⟩, rfl, rfl, rfl, rfl, ?_, ?_, rfl, rfl, by decide, fun A B R => rfl⟩,
    ⟨⟨0, 1, 2, 2, 0, false⟩, ⟨0, 1, 0⟩, ⟨0, 1, 2⟩, ?_, rfl, rfl, rfl, rfl, rfl, by decide, by decide, fun A B R => rfl⟩⟩ <;> constructor <;> decide

/-- The dot product of `complex<double>` vectors passes through a `float`: 2^24 + 1, a `double` but not a `float`, is not returned. -/
theorem C64_double_false :
    ∃ (A B : Mem ℤ) (a b : VView), a.n = b.n ∧ a.s = 1 ∧ b.s = 1 ∧ ∀ toFloat : ℤ → ℤ, toFloat 16777217 = 16777216 →
      evalDot true toFloat A a B b ≠ some (∑ l ∈ range a.n, A (a.addr l) * B (b.addr l)) := by
  refine ⟨fun z => if z = 0 then 16777216 else 1, fun _ => 1, ⟨0, 1, 2⟩, ⟨0, 1, 2⟩, rfl, rfl, rfl, ?_⟩
  intro f hf
  have e : evalDot true f (fun z => if z = 0 then 16777216 else 1) ⟨0, 1, 2⟩ (fun _ => 1) ⟨0, 1, 2⟩ = some (f 16777217) := rfl
  rw [e, hf]
  decide +kernel

/-- Vectors of 2^32 elements: the size becomes zero when converted to `int`, and so does the dot product, whatever the values are. -/
theorem C64_long_false :
    ∃ (a b : VView), a.n = b.n ∧ a.s = 1 ∧ b.s = 1 ∧ a.n = 4294967296 ∧ (∀ (toFloat : ℤ → ℤ) (A B : Mem ℤ), evalDot false toFloat A a B b = some 0) ∧
      ∑ l ∈ range a.n, (fun _ => 1 : Mem ℤ) (a.addr l) * (fun _ => 1 : Mem ℤ) (b.addr l) = 4294967296 := by
  refine ⟨⟨0, 1, 4294967296⟩, ⟨0, 1, 4294967296⟩, rfl, rfl, rfl, rfl, fun f A B => rfl, ?_⟩
  simp

/-! ## Examples -/

/-- A padded 2 x 2 row-major matrix times a padded 2 x 3 column-major matrix into a padded column-major one. -/
example : (⟨0, 5, 1, 2, 2, true⟩ : MView).Usual ∧ (⟨0, 1, 3, 2, 3, false⟩ : MView).Usual ∧ (⟨7, 1, 4, 2, 3, false⟩ : MView).Usual := by
  refine ⟨?_, ?_, ?_⟩ <;> constructor <;> decide

example : ((evalGemp 2 (fun z => z) ⟨0, 5, 1, 2, 2, true⟩ (fun z => z + 1) ⟨0, 1, 3, 2, 3, false⟩ 3 (fun z => z) ⟨7, 1, 4, 2, 3, false⟩
    : Option (Mem ℤ)).getD fun _ => 0) (7 + 1 + 4) = 2 * (5 * 4 + 6 * 5) + 3 * 12 := by decide +kernel

/-- A packed row-major matrix for `C64_matvec_partial` and `C64_outer_partial`, a padded column-major one for the other branch. -/
example : (⟨0, 3, 1, 2, 3, true⟩ : MView).Usual ∧ (⟨0, 1, 9, 2, 3, false⟩ : MView).Usual ∧ outerValid ⟨4, 1, 2⟩ ⟨0, 1, 3⟩ = true := by
  refine ⟨?_, ?_, by decide⟩ <;> constructor <;> decide

/-- A dot product with a reversed vector. -/
example : evalDot false (id : ℤ → ℤ) (fun z => z) ⟨2, -1, 3⟩ (fun z => z) ⟨0, 2, 3⟩ = some (2 * 0 + 1 * 2 + 0 * 4) := by decide +kernel

/-- **C64 (arguments of outer products).** The reference implementation refuses exactly negative sizes, strides of 0 and leading dimensions that are less than 1 or
less than a column. -/
theorem C64_outer_arguments {K : Type} [CommRing K] [StarRing K] (cj : Bool) (m n : ℤ) (alpha : K) (X : Mem K) (x incx : ℤ) (Y : Mem K) (y incy : ℤ) (A : Mem K) (a lda : ℤ) :
    ger cj m n alpha X x incx Y y incy A a lda = none ↔ m < 0 ∨ n < 0 ∨ incx = 0 ∨ incy = 0 ∨ lda < 1 ∨ lda < m := by
  have h : lda < max 1 m ↔ lda < 1 ∨ lda < m := lt_max_iff
  unfold ger
  rw [← h]
  split <;> simp_all
example : ger false 2 2 (1 : ℤ) id 0 1 id 0 1 id 0 1 = none ∧ ger false 2 2 (1 : ℤ) id 0 1 id 0 1 id 0 2 ≠ none := by
  refine ⟨(C64_outer_arguments ..).2 (by decide), fun h => ?_⟩
  have := (C64_outer_arguments ..).1 h
  revert this; decide

end Verif.Props
