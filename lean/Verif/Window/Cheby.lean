import Verif.Window.Lemmas
import Mathlib.Analysis.SpecialFunctions.Trigonometric.Chebyshev.Basic
import Mathlib.Analysis.SpecialFunctions.Arcosh
import Mathlib.Algebra.Polynomial.Taylor
import Mathlib.Algebra.Field.GeomSum

/-!
The spectrum computed by `cheby` is that of the Dolph-Chebyshev window, and the number everything is divided by is positive.

Positivity: `T_N(z x)` with `z ≥ 1` is a sum of Chebyshev polynomials with coefficients that are not negative (expand at `x`; such sums are closed under
derivatives and under multiplication by `x`), and the sum of `cos(k π i / n)` over `i < n` is never negative.
-/

namespace Verif.Win
open Polynomial Finset Real

/-- Sums of Chebyshev polynomials with coefficients that are not negative. -/
inductive Cone : ℝ[X] → Prop
  | zero : Cone 0
  | T (k : ℕ) : Cone (Chebyshev.T ℝ k)
  | add {p q} : Cone p → Cone q → Cone (p + q)
  | smul {p} (c : ℝ) : 0 ≤ c → Cone p → Cone (C c * p)

theorem Cone.U (k : ℕ) : Cone (Chebyshev.U ℝ k) := by
  induction k using Nat.strong_induction_on with
  | _ k ih =>
    match k with
    | 0 => simpa using Cone.T 0
    | 1 =>
      have := Cone.smul 2 (by norm_num) (Cone.T 1)
      rw [show (C 2 : ℝ[X]) = 2 from rfl] at this
      simpa using this
    | k + 2 =>
      have h := Chebyshev.U_eq_two_mul_T_add_U ℝ (k : ℤ)
      have h2 := Cone.smul 2 (by norm_num) (Cone.T (k + 2))
      have := Cone.add h2 (ih k (by omega))
      rw [show (C 2 : ℝ[X]) = 2 from rfl] at this
      push_cast at this ⊢
      rw [h]
      exact this

theorem Cone.derivative {p : ℝ[X]} (h : Cone p) : Cone (derivative p) := by
  induction h with
  | zero => simpa using Cone.zero
  | T k =>
    rw [Chebyshev.T_derivative_eq_U]
    cases k with
    | zero => simpa using Cone.zero
    | succ k =>
      have := Cone.smul ((k + 1 : ℕ) : ℝ) (by positivity) (Cone.U k)
      simpa using this
  | add _ _ h1 h2 => simpa using Cone.add h1 h2
  | smul c hc _ h1 => simpa using Cone.smul c hc h1

theorem Cone.X_mul {p : ℝ[X]} (h : Cone p) : Cone (X * p) := by
  induction h with
  | zero => simpa using Cone.zero
  | T k =>
    cases k with
    | zero => simpa using Cone.T 1
    | succ k =>
      have h := Chebyshev.T_add_two ℝ (k : ℤ)
      have e : X * Chebyshev.T ℝ ((k + 1 : ℕ) : ℤ) = C (1 / 2) * (Chebyshev.T ℝ ((k + 2 : ℕ) : ℤ) + Chebyshev.T ℝ (k : ℤ)) := by
        push_cast
        rw [h, sub_add_cancel, ← mul_assoc, ← mul_assoc]
        congr 1
        rw [show (2 : ℝ[X]) = C 2 from rfl, ← C_mul]
        norm_num
      rw [e]
      exact Cone.smul _ (by norm_num) (Cone.add (Cone.T _) (Cone.T _))
  | add _ _ h1 h2 => simpa [mul_add] using Cone.add h1 h2
  | smul c hc _ h1 =>
    rw [mul_left_comm]
    exact Cone.smul c hc h1

theorem Cone.hasse {p : ℝ[X]} (h : Cone p) (j : ℕ) : Cone (hasseDeriv j p) := by
  have h1 : Cone (Polynomial.derivative^[j] p) := by
    induction j with
    | zero => exact h
    | succ j ih =>
      rw [Function.iterate_succ_apply']
      exact ih.derivative
  have h2 := Cone.smul ((j.factorial : ℝ)⁻¹) (by positivity) h1
  rw [← factorial_smul_hasseDeriv] at h2
  rw [LinearMap.smul_apply, nsmul_eq_mul, ← mul_assoc, ← C_eq_natCast, ← C_mul, inv_mul_cancel₀ (by positivity)] at h2
  simpa using h2

theorem Cone.X_pow_mul {p : ℝ[X]} (h : Cone p) (j : ℕ) : Cone (X ^ j * p) := by
  induction j with
  | zero => simpa using h
  | succ j ih =>
    rw [pow_succ', mul_assoc]
    exact ih.X_mul

/-- The sum of cosines is not negative. -/
theorem cos_sum_nonneg (n k : ℕ) (hn : 0 < n) : 0 ≤ ∑ i ∈ range n, cos (k * (π * i / n)) := by
  have hn' : (n : ℝ) ≠ 0 := by positivity
  rcases Nat.even_or_odd k with ⟨l, hl⟩ | ⟨l, hl⟩
  · let w : ℂ := Complex.exp (((2 * π * l / n : ℝ) : ℂ) * Complex.I)
    have hw : ∑ i ∈ range n, cos (k * (π * i / n)) = (∑ i ∈ range n, w ^ i).re := by
      rw [Complex.re_sum]
      refine sum_congr rfl fun i _ => ?_
      show _ = (Complex.exp _ ^ i).re
      rw [← Complex.exp_nat_mul, show (i : ℂ) * (((2 * π * l / n : ℝ) : ℂ) * Complex.I) = ((i * (2 * π * l / n) : ℝ) : ℂ) * Complex.I by push_cast; ring,
        Complex.exp_ofReal_mul_I_re, hl]
      congr 1
      push_cast
      ring
    rw [hw]
    by_cases h1 : w = 1
    · rw [h1]
      simp
    · rw [geom_sum_eq h1]
      have : w ^ n = 1 := by
        show Complex.exp _ ^ n = 1
        rw [← Complex.exp_nat_mul, Complex.exp_eq_one_iff]
        refine ⟨l, ?_⟩
        push_cast
        have : (n : ℂ) ≠ 0 := by exact_mod_cast hn.ne'
        field_simp
      rw [this]
      simp
  · obtain ⟨m, rfl⟩ : ∃ m, n = m + 1 := ⟨n - 1, by omega⟩
    rw [sum_range_succ']
    have h0 : ∑ i ∈ range m, cos (k * (π * ((i + 1 : ℕ) : ℝ) / ((m + 1 : ℕ) : ℝ))) = 0 := by
      have h2 : ∑ i ∈ range m, cos (k * (π * ((i + 1 : ℕ) : ℝ) / ((m + 1 : ℕ) : ℝ))) = -∑ i ∈ range m, cos (k * (π * ((i + 1 : ℕ) : ℝ) / ((m + 1 : ℕ) : ℝ))) := by
        conv_lhs => rw [← sum_range_reflect]
        rw [← sum_neg_distrib]
        refine sum_congr rfl fun i hi => ?_
        have hi := mem_range.1 hi
        rw [show m - 1 - i + 1 = m + 1 - (i + 1) by omega, Nat.cast_sub (by omega),
          show (k : ℝ) * (π * (((m + 1 : ℕ) : ℝ) - ((i + 1 : ℕ) : ℝ)) / ((m + 1 : ℕ) : ℝ)) = (π - k * (π * ((i + 1 : ℕ) : ℝ) / ((m + 1 : ℕ) : ℝ))) + l * (2 * π) by
            rw [hl]
            field_simp
            push_cast
            ring, cos_add_nat_mul_two_pi, cos_pi_sub]
      linarith
    rw [h0]
    norm_num

/-- The sum of a polynomial over the points `cos(π i / n)`. -/
noncomputable def total (n : ℕ) (p : ℝ[X]) : ℝ := ∑ i ∈ range n, p.eval (cos (π * i / n))

theorem Cone.total_nonneg {p : ℝ[X]} (h : Cone p) (n : ℕ) (hn : 0 < n) : 0 ≤ total n p := by
  induction h with
  | zero => simp [total]
  | T k =>
    unfold total
    simp only [Chebyshev.T_real_cos]
    exact_mod_cast cos_sum_nonneg n k hn
  | add _ _ h1 h2 =>
    unfold total at *
    simp only [eval_add, sum_add_distrib]
    exact add_nonneg h1 h2
  | smul c hc _ h1 =>
    unfold total at *
    simp only [eval_mul, eval_C, ← mul_sum]
    exact mul_nonneg hc h1

/-- The weighted sum of `T_N(z cos)` is positive. -/
theorem dilate_pos (n N e : ℕ) (z : ℝ) (hn : 0 < n) (hz : 1 < z) (he : Even (e + N)) :
    0 < ∑ i ∈ range n, (Chebyshev.T ℝ N).eval (z * cos (π * i / n)) * cos (π * i / n) ^ e := by
  have hdeg : (Chebyshev.T ℝ (N : ℤ)).natDegree = N := by
    rw [Chebyshev.natDegree_T]
    simp
  have hexp : ∀ x : ℝ, (Chebyshev.T ℝ N).eval (z * x) * x ^ e =
      ∑ j ∈ range (N + 1), (z - 1) ^ j * (X ^ (e + j) * hasseDeriv j (Chebyshev.T ℝ N)).eval x := by
    intro x
    have h1 : (Chebyshev.T ℝ N).eval (z * x) = (taylor x (Chebyshev.T ℝ N)).eval ((z - 1) * x) := by
      rw [taylor_eval]
      congr 1
      ring
    rw [h1, eval_eq_sum_range, natDegree_taylor, hdeg, sum_mul]
    refine sum_congr rfl fun j _ => ?_
    rw [taylor_coeff, eval_mul, eval_pow, eval_X, mul_pow, pow_add]
    ring
  simp only [hexp]
  rw [sum_comm]
  have hsum : ∀ j, ∑ i ∈ range n, (z - 1) ^ j * (X ^ (e + j) * hasseDeriv j (Chebyshev.T ℝ N)).eval (cos (π * i / n)) =
      (z - 1) ^ j * total n (X ^ (e + j) * hasseDeriv j (Chebyshev.T ℝ N)) := by
    intro j
    rw [← mul_sum]
    rfl
  simp only [hsum]
  rw [sum_range_succ]
  refine add_pos_of_nonneg_of_pos (sum_nonneg fun j _ => mul_nonneg (pow_nonneg (by linarith) j) (((Cone.T N).hasse j).X_pow_mul (e + j) |>.total_nonneg n hn)) ?_
  refine mul_pos (pow_pos (by linarith) N) ?_
  unfold total
  have hlead : ∀ x : ℝ, (hasseDeriv N (Chebyshev.T ℝ N)).eval x = 2 ^ (N - 1) := by
    intro x
    rw [← taylor_coeff]
    have := coeff_taylor_natDegree (r := x) (f := Chebyshev.T ℝ (N : ℤ))
    rw [hdeg] at this
    rw [this, Chebyshev.leadingCoeff_T]
    simp
  simp only [eval_mul, eval_pow, eval_X, hlead]
  rw [← sum_mul]
  refine mul_pos (sum_pos' (fun i _ => he.pow_nonneg _) ⟨0, mem_range.2 hn, ?_⟩) (by positivity)
  simp

/-! ## The spectrum -/

/-- `z`, at which the polynomial of degree `len - 1` is `1 + 1/δ`. -/
noncomputable def zOf (len : ℕ) (δ : ℝ) : ℝ := cosh (arcosh (1 + 1 / δ) / ((len : ℝ) - 1))

/-- The Chebyshev polynomial of degree `len - 1` at `z cos(π i / len)`. -/
noncomputable def spec (len : ℕ) (δ : ℝ) (i : ℕ) : ℝ := (Chebyshev.T ℝ ((len : ℤ) - 1)).eval (zOf len δ * cos (π * i / len))

theorem acosh1_eq {f : ℝ} (h : 1 ≤ f) : acosh1 f = arcosh f := by
  unfold acosh1 arcosh
  rw [← sqrt_mul (by linarith), show (f + 1) * (f - 1) = f ^ 2 - 1 by ring]

theorem z_gt (len : ℕ) (δ : ℝ) (hl : 1 < len) (hd : 0 < δ) : 1 < zOf len δ := by
  have hL : (0 : ℝ) < (len : ℝ) - 1 := by
    have : (1 : ℝ) < len := by exact_mod_cast hl
    linarith
  unfold zOf
  rw [one_lt_cosh]
  have := arcosh_pos (x := 1 + 1 / δ) (by have : 0 < 1 / δ := by positivity
                                          linarith)
  positivity

theorem dp_pos (ripple : ℝ) : 0 < chebyDp ripple := by
  unfold chebyDp
  positivity

theorem x_eq (len : ℕ) (ripple : ℝ) (i : ℕ) (hl : 1 < len) :
    chebyX len ripple i = 2 * (zOf len (chebyDp ripple) * cos (π * i / len)) ^ 2 - 1 := by
  have hd := dp_pos ripple
  have hz := z_gt len _ hl hd
  have e1 : (1 + chebyDp ripple) / chebyDp ripple = 1 + 1 / chebyDp ripple := by field_simp; ring
  have hdf : cos (2 * π * chebyDf len ripple) = 2 * (1 / zOf len (chebyDp ripple)) ^ 2 - 1 := by
    unfold chebyDf
    rw [e1, acosh1_eq (by have : 0 < 1 / chebyDp ripple := by positivity
                          linarith)]
    change cos (2 * π * (arccos (1 / zOf len (chebyDp ripple)) / π)) = _
    rw [show 2 * π * (arccos (1 / zOf len (chebyDp ripple)) / π) = 2 * arccos (1 / zOf len (chebyDp ripple)) by field_simp, cos_two_mul, cos_arccos]
    · have : 0 < 1 / zOf len (chebyDp ripple) := by positivity
      linarith
    · rw [div_le_one (by linarith)]
      exact hz.le
  have hc : cos (2 * π * chebyF len i) = 2 * cos (π * i / len) ^ 2 - 1 := by
    rw [← cos_two_mul]
    unfold chebyF
    congr 1
    ring
  unfold chebyX chebyX0
  rw [hdf, hc]
  generalize zOf len (chebyDp ripple) = z at *
  generalize cos (π * i / len) = c
  have : z ≠ 0 := by linarith
  field_simp
  ring

theorem wf_eq (len : ℕ) (ripple : ℝ) (i : ℕ) (hl : 1 < len) :
    chebyWf len ripple i = ((chebyDp ripple * (Chebyshev.T ℝ ((len : ℤ) - 1)).eval (zOf len (chebyDp ripple) * |cos (π * i / len)|) : ℝ) : ℂ) := by
  have hz := z_gt len _ hl (dp_pos ripple)
  have hx := x_eq len ripple i hl
  rw [mul_pow, ← sq_abs (cos (π * i / len)), ← mul_pow] at hx
  have hy0 : 0 ≤ zOf len (chebyDp ripple) * |cos (π * i / len)| := mul_nonneg (by linarith) (abs_nonneg _)
  unfold chebyWf
  dsimp only
  rw [hx]
  generalize zOf len (chebyDp ripple) * |cos (π * i / len)| = y at *
  rw [Complex.ofReal_mul]
  congr 1
  by_cases h1 : y ≤ 1
  · have ha : -1 ≤ 2 * y ^ 2 - 1 := by nlinarith
    have hb : 2 * y ^ 2 - 1 ≤ 1 := by nlinarith
    have ht : chebyTmp (2 * y ^ 2 - 1) = 0 := by
      unfold chebyTmp
      rw [if_neg]
      split <;> linarith
    have hcl : (if 2 * y ^ 2 - 1 ≤ -1 then -1 else if 2 * y ^ 2 - 1 < 1 then 2 * y ^ 2 - 1 else 1) = 2 * y ^ 2 - 1 := by
      split
      · linarith
      · split <;> linarith
    have hac : arccos (2 * y ^ 2 - 1) = 2 * arccos y := by
      conv_lhs => rw [← cos_arccos (x := y) (by linarith) h1, ← cos_two_mul]
      rw [arccos_cos]
      · have := arccos_nonneg y
        linarith
      · have := arccos_le_pi_div_two.2 hy0
        linarith
    rw [ht, hcl, hac]
    have hT : (Chebyshev.T ℝ ((len : ℤ) - 1)).eval y = cos (((len : ℝ) - 1) * arccos y) := by
      conv_lhs => rw [← cos_arccos (x := y) (by linarith) h1]
      rw [Chebyshev.T_real_cos]
      push_cast
      rfl
    rw [hT, show ((len : ℝ) - 1) / 2 * (2 * arccos y) = ((len : ℝ) - 1) * arccos y by ring]
    push_cast
    ring
  · have h1 : 1 < y := not_le.1 h1
    have hx1 : 1 < 2 * y ^ 2 - 1 := by nlinarith
    have ht : chebyTmp (2 * y ^ 2 - 1) = 1 := by
      unfold chebyTmp
      rw [if_pos]
      rw [if_pos (by linarith)]
      exact hx1
    have hac : arcosh (2 * y ^ 2 - 1) = 2 * arcosh y := by
      have : 2 * y ^ 2 - 1 = cosh (2 * arcosh y) := by
        rw [cosh_two_mul, sinh_sq, cosh_arcosh h1.le]
        ring
      rw [this, arcosh_cosh]
      have := arcosh_nonneg h1.le
      linarith
    have hT : (Chebyshev.T ℝ ((len : ℤ) - 1)).eval y = cosh (((len : ℝ) - 1) * arcosh y) := by
      conv_lhs => rw [← cosh_arcosh h1.le]
      rw [Chebyshev.T_real_cosh]
      push_cast
      rfl
    rw [ht, acoshC_real hx1, show Real.log (2 * y ^ 2 - 1 + sqrt ((2 * y ^ 2 - 1) ^ 2 - 1)) = arcosh (2 * y ^ 2 - 1) from rfl, hac, hT, ← Complex.ofReal_mul,
      ← Complex.ofReal_cosh, show ((len : ℝ) - 1) / 2 * (2 * arcosh y) = ((len : ℝ) - 1) * arcosh y by ring]
    push_cast
    ring

/-- The inverse transform of the spectrum, at half steps `m`. -/
noncomputable def inv (len : ℕ) (δ : ℝ) (m : ℝ) : ℝ := ∑ i ∈ range len, spec len δ i * cos (π * i * m / len)

theorem T_abs (N : ℤ) (z c : ℝ) : (Chebyshev.T ℝ N).eval (z * |c|) = (if c < 0 then (N.negOnePow : ℝ) else 1) * (Chebyshev.T ℝ N).eval (z * c) := by
  by_cases h : c < 0
  · rw [if_pos h, abs_of_neg h, mul_neg, Chebyshev.T_eval_neg]
  · rw [if_neg h, abs_of_nonneg (not_lt.1 h), one_mul]

theorem wt_eq_inv (len : ℕ) (ripple : ℝ) (k : ℕ) (hl : 1 < len) :
    chebyWt len ripple k = ((chebyDp ripple / len * inv len (chebyDp ripple) (2 * k + if len % 2 = 0 then 1 else 0) : ℝ) : ℂ) := by
  have hl0 : (0 : ℝ) < len := by
    have : 0 < len := by omega
    exact_mod_cast this
  rw [wt_ofReal len ripple k hl, wt_eq]
  rw [show (1 / (len : ℂ)) = (((1 / len : ℝ)) : ℂ) by push_cast; rfl, Complex.re_ofReal_mul, Complex.re_sum]
  have hterm : ∀ i ∈ range len, (tm len ripple k i).re = chebyDp ripple * (spec len (chebyDp ripple) i * cos (π * i * (2 * k + if len % 2 = 0 then 1 else 0) / len)) := by
    intro i hi
    have hi := mem_range.1 hi
    have hc := T_abs ((len : ℤ) - 1) (zOf len (chebyDp ripple)) (cos (π * i / len))
    rcases Nat.mod_two_eq_zero_or_one len with he | ho
    · rw [tm_even _ _ _ _ he, wf_eq len ripple i hl, Complex.ofReal_re, hc, if_pos he]
      have hneg : ((((len : ℤ) - 1).negOnePow : ℤ) : ℝ) = -1 := by
        rw [Int.negOnePow_odd]
        · simp
        · exact ⟨(len : ℤ) / 2 - 1, by omega⟩
      rw [hneg]
      have hcos : (if len / 2 ≤ i then (-1 : ℂ) else 1) = ((if len / 2 ≤ i then -1 else 1 : ℝ) : ℂ) := by split <;> simp
      rw [hcos, Complex.re_ofReal_mul, Complex.re_ofReal_mul, Complex.exp_ofReal_mul_I_re, cos_neg]
      have hang : π * i * (1 + 2 * k) / len = π * i * (2 * k + 1) / (len : ℝ) := by ring
      rw [hang]
      unfold spec
      have hsgn : (if len / 2 ≤ i then -1 else 1 : ℝ) * ((if cos (π * i / len) < 0 then (-1 : ℝ) else 1) * (Chebyshev.T ℝ ((len : ℤ) - 1)).eval (zOf len (chebyDp ripple) * cos (π * i / len))) =
          (Chebyshev.T ℝ ((len : ℤ) - 1)).eval (zOf len (chebyDp ripple) * cos (π * i / len)) := by
        by_cases h1 : len / 2 ≤ i
        · rw [if_pos h1]
          by_cases h2 : cos (π * i / len) < 0
          · rw [if_pos h2]
            ring
          · have hle : cos (π * i / len) ≤ 0 := by
              apply cos_nonpos_of_pi_div_two_le_of_le
              · rw [le_div_iff₀ hl0]
                have : len ≤ 2 * i := by omega
                have : (len : ℝ) ≤ 2 * i := by exact_mod_cast this
                nlinarith [pi_pos]
              · have : π * i / len ≤ π := by
                  rw [div_le_iff₀ hl0]
                  have : (i : ℝ) ≤ len := by exact_mod_cast hi.le
                  nlinarith [pi_pos]
                linarith [pi_pos]
            have h0 : cos (π * i / len) = 0 := le_antisymm hle (not_lt.1 h2)
            rw [h0, mul_zero, Chebyshev.T_eval_zero_of_odd]
            · ring
            · exact ⟨(len : ℤ) / 2 - 1, by omega⟩
        · rw [if_neg h1, if_neg]
          · ring
          · apply not_lt.2
            apply cos_nonneg_of_neg_pi_div_two_le_of_le
            · have : 0 ≤ π * i / len := by positivity
              linarith [pi_pos]
            · rw [div_le_iff₀ hl0]
              have : 2 * i ≤ len := by omega
              have : 2 * (i : ℝ) ≤ len := by exact_mod_cast this
              nlinarith [pi_pos]
      linear_combination chebyDp ripple * cos (π * i * (2 * k + 1) / (len : ℝ)) * hsgn
    · rw [tm_odd _ _ _ _ ho, wf_eq len ripple i hl, Complex.ofReal_re, hc, if_neg (c := len % 2 = 0) (by omega)]
      have hneg : ((((len : ℤ) - 1).negOnePow : ℤ) : ℝ) = 1 := by
        rw [Int.negOnePow_even]
        · simp
        · exact ⟨(len : ℤ) / 2, by omega⟩
      rw [hneg, Complex.re_ofReal_mul, Complex.exp_ofReal_mul_I_re, cos_neg, ite_self, one_mul, mul_assoc]
      unfold spec
      congr 4
      ring
  rw [sum_congr rfl hterm, ← mul_sum, show 1 / (len : ℝ) * (chebyDp ripple * ∑ i ∈ range len, spec len (chebyDp ripple) i *
    cos (π * i * (2 * k + if len % 2 = 0 then 1 else 0) / len)) = chebyDp ripple / len * inv len (chebyDp ripple) (2 * k + if len % 2 = 0 then 1 else 0) by
      unfold inv
      ring]

theorem inv_mid_pos (len : ℕ) (δ : ℝ) (hl : 1 < len) (hd : 0 < δ) : 0 < inv len δ (if len % 2 = 0 then 1 else 0) := by
  have hz := z_gt len δ hl hd
  have h := dilate_pos len (len - 1) (if len % 2 = 0 then 1 else 0) (zOf len δ) (by omega) hz (by
    split
    · exact ⟨len / 2, by omega⟩
    · exact ⟨len / 2, by omega⟩)
  unfold inv spec
  have e : ((len - 1 : ℕ) : ℤ) = (len : ℤ) - 1 := by omega
  rw [e] at h
  convert h using 3 with i hi
  split
  · rw [pow_one, mul_one]
  · rw [pow_zero, mul_zero, zero_div, cos_zero]

/-- Two half steps differing by a whole turn, either way round. -/
theorem inv_turn (len : ℕ) (δ a b : ℝ) (q : ℕ) (hl : 0 < len) (h : a = b + q * (2 * len)) : inv len δ a = inv len δ b := by
  have hl' : (len : ℝ) ≠ 0 := by positivity
  unfold inv
  refine sum_congr rfl fun i _ => ?_
  congr 1
  rw [h, show π * i * (b + q * (2 * len)) / (len : ℝ) = π * i * b / len + ((i * q : ℕ) : ℝ) * (2 * π) by push_cast; field_simp, cos_add_nat_mul_two_pi]

theorem inv_neg (len : ℕ) (δ a : ℝ) : inv len δ (-a) = inv len δ a := by
  unfold inv
  refine sum_congr rfl fun i _ => ?_
  rw [show π * i * -a / (len : ℝ) = -(π * i * a / len) by ring, cos_neg]

end Verif.Win
