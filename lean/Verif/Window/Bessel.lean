import Verif.Window.Model
import Mathlib.Analysis.SpecialFunctions.Exponential
import Mathlib.Analysis.SpecificLimits.Basic
import Mathlib.Tactic.NormNum
import Mathlib.Tactic.Linarith
import Mathlib.Tactic.Positivity
import Mathlib.Tactic.FieldSimp

/-!
The series of the modified Bessel function `I_0` and the iteration that sums it.
-/

noncomputable section

namespace Verif.Win

open Finset

/-- Term `k` of the series, for `y = x² / 4`. -/
def term (y : ℝ) (k : ℕ) : ℝ := y ^ k / ((k.factorial : ℝ) * k.factorial)

/-- The modified Bessel function of the first kind, of order 0. -/
def I0 (x : ℝ) : ℝ := ∑' k, term (x ^ 2 / 4) k

theorem term_nonneg {y : ℝ} (h : 0 ≤ y) (k : ℕ) : 0 ≤ term y k := by unfold term; positivity

theorem term_succ (y : ℝ) (k : ℕ) : term y (k + 1) = term y k * (y / ((k + 1) * (k + 1))) := by
  unfold term
  rw [Nat.factorial_succ]
  push_cast
  have : (k.factorial : ℝ) ≠ 0 := by positivity
  have : (k : ℝ) + 1 ≠ 0 := by positivity
  field_simp
  ring

theorem term_summable {y : ℝ} (h : 0 ≤ y) : Summable (term y) := by
  refine Summable.of_nonneg_of_le (term_nonneg h) (fun k => ?_) (Real.summable_pow_div_factorial y)
  unfold term
  have h1 : (1 : ℝ) ≤ k.factorial := by exact_mod_cast Nat.one_le_iff_ne_zero.2 (Nat.factorial_ne_zero k)
  apply div_le_div_of_nonneg_left (by positivity) (by positivity)
  nlinarith

/-- After a term that is at least twice its successor, the rest of the series is at most that term. -/
theorem tail_le {y : ℝ} (h : 0 ≤ y) (N : ℕ) (hN : y / (((N : ℝ) + 1) * (N + 1)) ≤ 1 / 2) : ∑' k, term y (k + (N + 1)) ≤ term y N := by
  have hb : ∀ k, term y (k + (N + 1)) ≤ term y N / 2 * (1 / 2) ^ k := by
    intro k
    induction k with
    | zero =>
      rw [Nat.zero_add, term_succ, pow_zero, mul_one]
      have := term_nonneg h N
      nlinarith
    | succ k ih =>
      rw [show k + 1 + (N + 1) = k + (N + 1) + 1 by ring, term_succ, pow_succ]
      have h2 : y / ((((k + (N + 1) : ℕ) : ℝ) + 1) * (((k + (N + 1) : ℕ) : ℝ) + 1)) ≤ 1 / 2 := by
        refine le_trans ?_ hN
        apply div_le_div_of_nonneg_left h (by positivity)
        push_cast
        have : (0 : ℝ) ≤ k := by positivity
        have : (0 : ℝ) ≤ N := by positivity
        nlinarith
      have h3 : 0 ≤ y / ((((k + (N + 1) : ℕ) : ℝ) + 1) * (((k + (N + 1) : ℕ) : ℝ) + 1)) := by positivity
      calc term y (k + (N + 1)) * (y / ((((k + (N + 1) : ℕ) : ℝ) + 1) * (((k + (N + 1) : ℕ) : ℝ) + 1)))
          ≤ (term y N / 2 * (1 / 2) ^ k) * (1 / 2) := mul_le_mul ih h2 h3 (by have := term_nonneg h N; positivity)
        _ = _ := by ring
  have hs : Summable fun k => term y (k + (N + 1)) := (summable_nat_add_iff (N + 1)).2 (term_summable h)
  have hg : Summable fun k : ℕ => term y N / 2 * (1 / 2 : ℝ) ^ k := summable_geometric_two.mul_left _
  refine (hs.tsum_le_tsum hb hg).trans ?_
  rw [tsum_mul_left, tsum_geometric_two]
  linarith

theorem I0_split (x : ℝ) (N : ℕ) : I0 x = ∑ k ∈ range N, term (x ^ 2 / 4) k + ∑' k, term (x ^ 2 / 4) (k + N) :=
  ((term_summable (by positivity)).sum_add_tsum_nat_add N).symm

theorem partial_le (x : ℝ) (N : ℕ) : ∑ k ∈ range N, term (x ^ 2 / 4) k ≤ I0 x := by
  rw [I0_split x N]
  have : 0 ≤ ∑' k, term (x ^ 2 / 4) (k + N) := tsum_nonneg fun k => term_nonneg (by positivity) _
  linarith

theorem I0_mono {x x' : ℝ} (h : |x| ≤ |x'|) : I0 x ≤ I0 x' := by
  unfold I0
  have hx : x ^ 2 / 4 ≤ x' ^ 2 / 4 := by
    have := sq_le_sq.2 h
    linarith
  refine (term_summable (by positivity)).tsum_le_tsum (fun k => ?_) (term_summable (by positivity))
  unfold term
  apply div_le_div_of_nonneg_right _ (by positivity)
  exact pow_le_pow_left₀ (by positivity) hx k

theorem one_le_I0 (x : ℝ) : 1 ≤ I0 x := by
  have := partial_le x 1
  simpa [term] using this

theorem bernoulli (a m : ℕ) : a ^ m * (a + m) ≤ a * (a + 1) ^ m := by
  induction m with
  | zero => simp
  | succ m ih =>
    have h1 := Nat.mul_le_mul_right (a + 1) ih
    calc a ^ (m + 1) * (a + (m + 1)) ≤ a ^ m * (a + m) * (a + 1) := by
          rw [pow_succ]
          have : a * (a + (m + 1)) ≤ (a + m) * (a + 1) := by ring_nf; omega
          calc a ^ m * a * (a + (m + 1)) = a ^ m * (a * (a + (m + 1))) := by ring
            _ ≤ a ^ m * ((a + m) * (a + 1)) := Nat.mul_le_mul_left _ this
            _ = _ := by ring
      _ ≤ a * (a + 1) ^ m * (a + 1) := h1
      _ = _ := by ring

/-- `2^n n! ≤ (n+1)^n` -/
theorem two_pow_fact (n : ℕ) : 2 ^ n * n.factorial ≤ (n + 1) ^ n := by
  induction n with
  | zero => simp
  | succ n ih =>
    have hb := bernoulli (n + 1) (n + 1)
    have hb' : 2 * (n + 1) ^ (n + 1) ≤ (n + 1 + 1) ^ (n + 1) := by
      have : (n + 1) * (2 * (n + 1) ^ (n + 1)) ≤ (n + 1) * (n + 1 + 1) ^ (n + 1) := by
        refine le_trans (le_of_eq ?_) hb
        ring
      exact Nat.le_of_mul_le_mul_left this (by omega)
    calc 2 ^ (n + 1) * (n + 1).factorial = 2 * ((n + 1) * (2 ^ n * n.factorial)) := by rw [Nat.factorial_succ]; ring
      _ ≤ 2 * ((n + 1) * (n + 1) ^ n) := by gcongr
      _ = 2 * (n + 1) ^ (n + 1) := by ring
      _ ≤ _ := hb'

/-- Terms below one are past the place where the series begins to fall by more than half from term to term. -/
theorem ratio_le {y : ℝ} (h : 0 ≤ y) (N : ℕ) (hN : term y N < 1) : y / (((N : ℝ) + 1) * (N + 1)) ≤ 1 / 2 := by
  by_contra hc
  push Not at hc
  have hp : (0 : ℝ) < ((N : ℝ) + 1) * (N + 1) := by positivity
  rw [lt_div_iff₀ hp] at hc
  have hf := two_pow_fact N
  have hf' : (2 : ℝ) ^ N * N.factorial ≤ ((N : ℝ) + 1) ^ N := by exact_mod_cast hf
  have h1 : (1 / 2 * (((N : ℝ) + 1) * (N + 1))) ^ N ≤ y ^ N := pow_le_pow_left₀ (by positivity) hc.le N
  have h2 : (N.factorial : ℝ) * N.factorial ≤ y ^ N := by
    refine le_trans ?_ h1
    rw [mul_pow, mul_pow, div_pow, one_pow]
    have h4 : (1 : ℝ) ≤ 2 ^ N := one_le_pow₀ (by norm_num)
    have hfac : (0 : ℝ) < N.factorial := by positivity
    have h3 : (2 : ℝ) ^ N * N.factorial * ((2 : ℝ) ^ N * N.factorial) ≤ ((N : ℝ) + 1) ^ N * ((N : ℝ) + 1) ^ N :=
      mul_le_mul hf' hf' (by positivity) (by positivity)
    calc (N.factorial : ℝ) * N.factorial ≤ 2 ^ N * (N.factorial * N.factorial) := by nlinarith [mul_pos hfac hfac]
      _ = 1 / 2 ^ N * ((2 : ℝ) ^ N * N.factorial * ((2 : ℝ) ^ N * N.factorial)) := by field_simp
      _ ≤ 1 / 2 ^ N * (((N : ℝ) + 1) ^ N * ((N : ℝ) + 1) ^ N) := by gcongr
  have : 1 ≤ term y N := by
    unfold term
    rw [le_div_iff₀ (by positivity)]
    linarith
  linarith

/-! ## The iteration -/

/-- The variables after `j` steps. -/
def stAt (y : ℝ) (j : ℕ) : BesselSt := ⟨y ^ (j + 1), ((j + 1).factorial : ℝ), j + 1, if j = 0 then 1 else term y (j + 1), ∑ k ∈ range (j + 2), term y k⟩

theorem stAt_zero (y : ℝ) : stAt y 0 = ⟨y, 1, 1, 1, 1 + y⟩ := by
  simp [stAt, term, sum_range_succ]

theorem stAt_succ (y : ℝ) (j : ℕ) : besselStep y (stAt y j) = stAt y (j + 1) := by
  have h1 : ((j + 1).factorial : ℝ) * ((j + 1 + 1 : ℕ) : ℝ) = ((j + 2).factorial : ℝ) := by
    rw [show j + 2 = (j + 1) + 1 from rfl, Nat.factorial_succ (j + 1)]
    push_cast
    ring
  have h2 : y ^ (j + 1) * y = y ^ (j + 2) := by ring
  unfold besselStep
  simp only [stAt, h1, h2, Nat.succ_ne_zero, if_false, Nat.add_eq_zero_iff, one_ne_zero, and_false]
  congr 1
  rw [sum_range_succ _ (j + 2)]
  rfl

/-- The number of steps the iteration takes. -/
theorem loop_ends (y : ℝ) (h : 0 ≤ y) : ∃ N, 1 ≤ N ∧ term y (N + 1) ≤ 0.00000001 ∧ ∀ fuel, N ≤ fuel → besselLoop y fuel (stAt y 0) = some (stAt y N) := by
  have ht := (term_summable h).tendsto_atTop_zero
  have hev : ∃ N, 1 ≤ N ∧ term y (N + 1) ≤ 0.00000001 := by
    have := ht.eventually (gt_mem_nhds (show (0 : ℝ) < 0.00000001 by norm_num))
    obtain ⟨a, ha⟩ := Filter.eventually_atTop.1 this
    exact ⟨a + 1, by omega, (ha (a + 1 + 1) (by omega)).le⟩
  classical
  let N := Nat.find hev
  obtain ⟨h1, h2⟩ := Nat.find_spec hev
  have hmin : ∀ j, j < N → (stAt y j).diff > 0.00000001 := by
    intro j hj
    unfold stAt
    dsimp only
    by_cases h0 : j = 0
    · rw [if_pos h0]; norm_num
    · rw [if_neg h0]
      have := Nat.find_min hev hj
      push Not at this
      exact this (by omega)
  have key : ∀ d j fuel, j + d = N → d ≤ fuel → besselLoop y fuel (stAt y j) = some (stAt y N) := by
    intro d
    induction d with
    | zero =>
      intro j fuel hj _
      have : j = N := by omega
      subst this
      unfold besselLoop
      rw [if_neg]
      unfold stAt
      dsimp only
      rw [if_neg (by omega)]
      exact not_lt.2 h2
    | succ d ih =>
      intro j fuel hj hf
      unfold besselLoop
      rw [if_pos (hmin j (by omega))]
      obtain ⟨g, rfl⟩ : ∃ g, fuel = g + 1 := ⟨fuel - 1, by omega⟩
      dsimp only
      rw [stAt_succ]
      exact ih (j + 1) g (by omega) (by omega)
  exact ⟨N, h1, h2, fun fuel hf => key N 0 fuel (by omega) hf⟩

/-- `bessel_I_0` ends for every argument, and for arguments beyond 3 is right to 1e-8. -/
theorem bessel_series {x : ℝ} (hx : 3 < |x|) : ∃ F r, (∀ fuel, F ≤ fuel → bessel fuel x = some r) ∧ r ≤ I0 x ∧ I0 x - r ≤ 0.00000001 ∧ 1 ≤ r := by
  have hy : x * x * 0.25 = x ^ 2 / 4 := by norm_num; ring
  have hy0 : 0 ≤ x ^ 2 / 4 := by positivity
  obtain ⟨N, h1, h2, h3⟩ := loop_ends (x ^ 2 / 4) hy0
  refine ⟨N, ∑ k ∈ range (N + 2), term (x ^ 2 / 4) k, ?_, partial_le x _, ?_, ?_⟩
  · intro fuel hf
    unfold bessel
    rw [if_neg (not_le.2 hx)]
    dsimp only
    rw [hy, ← stAt_zero, h3 fuel hf]
    rfl
  · rw [I0_split x (N + 2), add_sub_cancel_left]
    have hr := ratio_le hy0 (N + 1) (lt_of_le_of_lt h2 (by norm_num))
    exact (tail_le hy0 (N + 1) hr).trans h2
  · have : ∑ k ∈ range 1, term (x ^ 2 / 4) k ≤ ∑ k ∈ range (N + 2), term (x ^ 2 / 4) k :=
      sum_le_sum_of_subset_of_nonneg (fun a ha => by simp only [mem_range] at *; omega) (fun k _ _ => term_nonneg hy0 k)
    simpa [term] using this

/-- The polynomial is too small, but by less than 2e-4. -/
theorem poly_bound {x : ℝ} (hx : |x| ≤ 3) : besselPoly x ≤ I0 x ∧ I0 x - besselPoly x ≤ 0.0002 ∧ 1 ≤ besselPoly x := by
  have hu1 : (x / 3) * (x / 3) ≤ 1 := by
    have := abs_le.1 hx
    nlinarith
  have hu0 : 0 ≤ (x / 3) * (x / 3) := mul_self_nonneg _
  have hy : x ^ 2 / 4 = 2.25 * ((x / 3) * (x / 3)) := by ring
  have hs : ∑ k ∈ range 8, term (x ^ 2 / 4) k ≤ I0 x := partial_le x 8
  have htail : I0 x ≤ ∑ k ∈ range 8, term (x ^ 2 / 4) k + term (x ^ 2 / 4) 7 := by
    rw [I0_split x 8]
    have := tail_le (y := x ^ 2 / 4) (by positivity) 7 (by
      rw [hy]
      norm_num
      linarith)
    linarith
  have hp : besselPoly x = (fun u : ℝ => 1 + u * (2.2499997 + u * (1.2656208 + u * (0.3163866 + u * (0.0444479 + u * (0.0039444 + u * 0.0002100)))))) ((x / 3) * (x / 3)) := rfl
  rw [hp]
  rw [hy] at hs htail
  generalize (x / 3) * (x / 3) = u at *
  simp only [sum_range_succ, sum_range_zero, term, Nat.factorial] at hs htail
  norm_num at hs htail
  have p2 : u ^ 2 ≤ 1 := pow_le_one₀ hu0 hu1
  have p3 : u ^ 3 ≤ 1 := pow_le_one₀ hu0 hu1
  have p4 : u ^ 4 ≤ 1 := pow_le_one₀ hu0 hu1
  have p5 : u ^ 5 ≤ 1 := pow_le_one₀ hu0 hu1
  have p6 : u ^ 6 ≤ 1 := pow_le_one₀ hu0 hu1
  have p7 : u ^ 7 ≤ 1 := pow_le_one₀ hu0 hu1
  have q2 : 0 ≤ u ^ 2 := by positivity
  have q3 : 0 ≤ u ^ 3 := by positivity
  have q4 : 0 ≤ u ^ 4 := by positivity
  have q5 : 0 ≤ u ^ 5 := by positivity
  have q6 : 0 ≤ u ^ 6 := by positivity
  have q7 : 0 ≤ u ^ 7 := by positivity
  simp only [mul_pow] at hs htail
  norm_num at hs htail
  refine ⟨?_, ?_, ?_⟩
  · norm_num; ring_nf; ring_nf at hs; linarith
  · norm_num; ring_nf; ring_nf at htail; linarith
  · norm_num; ring_nf; linarith

end Verif.Win
