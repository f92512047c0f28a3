import Verif.Ssar.Model
import Verif.Dft.Math
import Verif.Signal.Swap
import Mathlib.Algebra.BigOperators.Intervals
import Mathlib.Tactic.Ring
import Mathlib.Tactic.FieldSimp
import Mathlib.Tactic.Linarith
import Mathlib.Tactic.NormNum

/-!
Lemmas about swaps, centred transforms, and loops.
-/

namespace Verif.Ssar

open Finset Verif.Dft

theorem sw_even {N : ℕ} (he : N % 2 = 0) (i : ℕ) : sw N i = (i + N / 2) % N := by
  rw [sw, show (N + 1) / 2 = N / 2 by omega]

theorem sw_lt {N : ℕ} (h : 0 < N) (i : ℕ) : sw N i < N := Nat.mod_lt _ h

theorem sw_lo {N i : ℕ} (he : N % 2 = 0) (h : i < N / 2) : sw N i = i + N / 2 := by
  rw [sw_even he, Nat.mod_eq_of_lt (by omega)]

theorem sw_hi {N i : ℕ} (he : N % 2 = 0) (h : N / 2 ≤ i) (h' : i < N) : sw N i = i - N / 2 := by
  rw [sw_even he, Nat.mod_eq_sub_mod (by omega), Nat.mod_eq_of_lt (by omega)]; omega

theorem sw_sw {N i : ℕ} (he : N % 2 = 0) (h : i < N) : sw N (sw N i) = i := by
  rcases Nat.lt_or_ge i (N / 2) with h1 | h1
  · rw [sw_lo he h1, sw_hi he (by omega) (by omega)]; omega
  · rw [sw_hi he h1 h, sw_lo he (by omega)]; omega

theorem sum_sw {M : Type*} [AddCommMonoid M] {N : ℕ} (he : N % 2 = 0) (f : ℕ → M) : ∑ k ∈ range N, f (sw N k) = ∑ k ∈ range N, f k := by
  refine sum_bij' (fun k _ => sw N k) (fun k _ => sw N k) ?_ ?_ ?_ ?_ ?_
  · intro k hk; rw [mem_range] at *; exact sw_lt (by omega) k
  · intro k hk; rw [mem_range] at *; exact sw_lt (by omega) k
  · intro k hk; rw [mem_range] at *; exact sw_sw he hk
  · intro k hk; rw [mem_range] at *; exact sw_sw he hk
  · intro k hk; rfl

/-- The sign of `fd_fftshift`. -/
def sgn (j : ℕ) : ℂ := (-1) ^ j

theorem sgn_sq (j : ℕ) : sgn j * sgn j = 1 := by
  rw [sgn, ← pow_add, ← two_mul, pow_mul]; norm_num

theorem norm_sgn (j : ℕ) : ‖sgn j‖ = 1 := by simp [sgn]

theorem sgn_mod (j : ℕ) : sgn j = if j % 2 = 1 then -1 else 1 := by
  rw [sgn]
  by_cases h : j % 2 = 1
  · rw [if_pos h]; exact Odd.neg_one_pow (Nat.odd_iff.mpr h)
  · rw [if_neg h]; exact Even.neg_one_pow (Nat.even_iff.mpr (by omega))

theorem sgn_congr {i j : ℕ} (h : i % 2 = j % 2) : sgn i = sgn j := by rw [sgn_mod, sgn_mod, h]

theorem fdSign_eq {len j : ℕ} (h : j < len) : fdSign len j = sgn j := by
  rw [fdSign, sgn_mod]
  by_cases h1 : j % 2 = 1
  · rw [if_pos ⟨h1, by omega⟩, if_pos h1]
  · rw [if_neg (fun h => h1 h.1), if_neg h1]

theorem unit_add_mul (neg : Bool) {N : ℕ} (hN : 0 < N) (k w t : ℕ) : unit neg N (k + N * t) w = unit neg N k w := by
  rw [unit_pow, unit_pow neg N k w, show (k + N * t) * w = k * w + N * (t * w) by ring, pow_add, pow_mul _ N, (unit_prim neg N hN).pow_eq_one,
    one_pow, mul_one]

theorem unit_mod (neg : Bool) {N : ℕ} (hN : 0 < N) (k w : ℕ) : unit neg N (k % N) w = unit neg N k w := by
  conv_rhs => rw [← Nat.mod_add_div k N]
  rw [unit_add_mul neg hN]

theorem unit_half (neg : Bool) {N : ℕ} (hN : 0 < N) (he : N % 2 = 0) (w : ℕ) : unit neg N (N / 2) w = sgn w := by
  obtain ⟨h, rfl⟩ : ∃ h, N = 2 * h := ⟨N / 2, by omega⟩
  have hh : (h : ℂ) ≠ 0 := by exact_mod_cast (by omega : h ≠ 0)
  rw [unit, show 2 * h / 2 = h by omega, sgn]
  have e : (if neg = true then (-1 : ℂ) else 1) * (2 * Real.pi * Complex.I) * ((h : ℂ) * w) / ((2 * h : ℕ) : ℂ) =
      (w : ℂ) * ((if neg = true then (-1 : ℂ) else 1) * (Real.pi * Complex.I)) := by
    push_cast
    field_simp
  rw [e, Complex.exp_nat_mul]
  congr 1
  cases neg
  · simp [Complex.exp_pi_mul_I]
  · simp only [if_true, neg_mul, one_mul]
    rw [Complex.exp_neg, Complex.exp_pi_mul_I]; norm_num

theorem unit_sw (neg : Bool) {N : ℕ} (hN : 0 < N) (he : N % 2 = 0) (k w : ℕ) : unit neg N (sw N k) w = sgn w * unit neg N k w := by
  rw [sw_even he, unit_mod neg hN, ← unit_half neg hN he w, unit_pow, unit_pow neg N (N / 2) w, unit_pow neg N k w, ← pow_add]
  congr 1; ring

/-- The centred exponential is the exponential at the swapped places. -/
theorem cunit_eq (neg : Bool) {N : ℕ} (he : N % 2 = 0) {a b : ℕ} (ha : a < N) (hb : b < N) :
    cunit neg N a b = unit neg N (sw N a) (sw N b) := by
  have hN : (N : ℂ) ≠ 0 := by exact_mod_cast (by omega : N ≠ 0)
  have key : ∀ i < N, ∃ t : ℤ, ((sw N i : ℕ) : ℂ) = (i : ℂ) - (N / 2 : ℕ) + N * t := by
    intro i hi
    rcases Nat.lt_or_ge i (N / 2) with h1 | h1
    · refine ⟨1, ?_⟩
      rw [sw_lo he h1]
      have : ((N / 2 : ℕ) : ℂ) + (N / 2 : ℕ) = N := by exact_mod_cast (by omega : N / 2 + N / 2 = N)
      push_cast; rw [← this]; ring
    · refine ⟨0, ?_⟩
      rw [sw_hi he h1 hi, Nat.cast_sub h1]; push_cast; ring
  obtain ⟨s, hs⟩ := key a ha
  obtain ⟨t, ht⟩ := key b hb
  have ia : ∃ x : ℤ, (a : ℂ) - (N / 2 : ℕ) = x := ⟨(a : ℤ) - ((N / 2 : ℕ) : ℤ), by rw [Int.cast_sub, Int.cast_natCast, Int.cast_natCast]⟩
  have ib : ∃ x : ℤ, (b : ℂ) - (N / 2 : ℕ) = x := ⟨(b : ℤ) - ((N / 2 : ℕ) : ℤ), by rw [Int.cast_sub, Int.cast_natCast, Int.cast_natCast]⟩
  rw [cunit, unit, hs, ht]
  obtain ⟨x, hx⟩ := ia
  obtain ⟨y, hy⟩ := ib
  rw [hx, hy, Complex.exp_eq_exp_iff_exists_int]
  cases neg
  · refine ⟨-(x * t + s * y + N * s * t), ?_⟩
    simp only [Bool.false_eq_true, if_false]
    push_cast
    field_simp
    ring
  · refine ⟨x * t + s * y + N * s * t, ?_⟩
    simp only [if_true]
    push_cast
    field_simp
    ring

/-- The centred transform: swap, transform, swap. -/
theorem cdft_eq (neg : Bool) {N : ℕ} (he : N % 2 = 0) (x : ℕ → ℂ) {w : ℕ} (hw : w < N) :
    cdft neg N x w = dft1 neg N (fun k => x (sw N k)) (sw N w) := by
  rw [cdft, dft1, ← sum_sw he]
  refine sum_congr rfl fun k hk => ?_
  rw [mem_range] at hk
  rw [cunit_eq neg he (sw_lt (by omega) k) hw, sw_sw he hk]

/-- Swapping before the transform changes signs after it. -/
theorem dft1_sw (neg : Bool) {N : ℕ} (he : N % 2 = 0) (x : ℕ → ℂ) (w : ℕ) :
    dft1 neg N (fun k => x (sw N k)) w = sgn w * dft1 neg N x w := by
  rcases Nat.eq_zero_or_pos N with rfl | hN
  · simp [dft1]
  rw [dft1, dft1, mul_sum, ← sum_sw he (fun k => sgn w * (x k * unit neg N k w))]
  refine sum_congr rfl fun k hk => ?_
  rw [unit_sw neg hN he]
  have := sgn_sq w
  linear_combination (-(x (sw N k) * unit neg N k w)) * this

/-- Changing signs before the transform swaps after it. -/
theorem dft1_sgn (neg : Bool) {N : ℕ} (he : N % 2 = 0) (x : ℕ → ℂ) (w : ℕ) :
    dft1 neg N (fun k => sgn k * x k) w = dft1 neg N x (sw N w) := by
  rcases Nat.eq_zero_or_pos N with rfl | hN
  · simp [dft1]
  rw [dft1, dft1]
  refine sum_congr rfl fun k hk => ?_
  rw [unit_comm neg N k (sw N w), unit_sw neg hN he, unit_comm neg N w k]; ring

theorem dft1_smul (neg : Bool) (N : ℕ) (c : ℂ) (x : ℕ → ℂ) (w : ℕ) : dft1 neg N (fun k => c * x k) w = c * dft1 neg N x w := by
  rw [dft1, dft1, mul_sum]; exact sum_congr rfl fun k _ => by ring

end Verif.Ssar
