import Verif.Window.Bessel
import Verif.Signal.Lemmas
import Verif.Signal.Swap
import Mathlib.Algebra.BigOperators.Intervals
import Mathlib.Algebra.Star.BigOperators
import Mathlib.Analysis.SpecialFunctions.Trigonometric.Complex
import Mathlib.Analysis.SpecialFunctions.Trigonometric.DerivHyp
import Mathlib.Tactic.Linarith
import Mathlib.Tactic.Ring
import Mathlib.Tactic.FieldSimp
import Mathlib.Tactic.NormNum
import Mathlib.Tactic.Push

/-!
Lemmas about the windows: loops which store one element after the other, the Hanning loop with its 32 bit counter, and the symmetry of the Chebyshev spectrum.
-/

namespace Verif.Win
open Verif.Sig Real Finset

/-! ## Storing loops -/

theorem fill (len : ℕ) (g : ℕ → Option ℝ) (w : ℕ → ℝ) (hg : ∀ k, k < len → g k = some (w k)) :
    loop len (fresh len) (fun v n => (g n).bind fun b => v.put n b) = some ⟨len, fun k => if k < len then w k else 0⟩ := by
  obtain ⟨v, e, h1⟩ := loop_inv (fun k (v : Vec ℝ) => v = ⟨len, fun j => if j < k then w j else 0⟩) len (fresh len) (fun v n => (g n).bind fun b => v.put n b)
    rfl (by
      intro k s hk h
      subst h
      refine ⟨_, ?_, rfl⟩
      rw [hg k hk]
      show Vec.put _ k (w k) = _
      unfold Vec.put
      rw [if_pos (by exact hk)]
      congr 2
      funext j
      dsimp only
      by_cases e : j = k
      · rw [if_pos e, if_pos (by omega), e]
      · rw [if_neg e]
        by_cases e' : j < k
        · rw [if_pos e', if_pos (by omega)]
        · rw [if_neg e', if_neg (by omega)])
  rw [e, h1]

/-! ## Hanning -/

theorem hanning_run (len : ℕ) (t : ℝ) (hlen : len < 4294967296) : ∀ d n fuel (v : Vec ℝ), n + d = len → d ≤ fuel → v.n = len →
    ∃ v', hanningLoop len t fuel n v = some v' ∧ v'.n = len ∧ (∀ j, j < n → v'.f j = v.f j) ∧
      ∀ j, n ≤ j → j < len → v'.f j = 0.5 * (1 - cos (t * ((j : ℝ) + 1))) := by
  intro d
  induction d with
  | zero =>
    intro n fuel v hn _ hv
    refine ⟨v, ?_, hv, fun _ _ => rfl, fun j h1 h2 => absurd h2 (by omega)⟩
    unfold hanningLoop
    rw [if_neg (by omega)]
  | succ d ih =>
    intro n fuel v hn hf hv
    obtain ⟨fuel, rfl⟩ : ∃ g, fuel = g + 1 := ⟨fuel - 1, by omega⟩
    have hm : (n + 1) % 4294967296 = n + 1 := Nat.mod_eq_of_lt (by omega)
    obtain ⟨v', e, h1, h2, h3⟩ := ih (n + 1) fuel ⟨v.n, fun j => if j = n then 0.5 * (1 - cos (t * ((n : ℝ) + 1))) else v.f j⟩ (by omega) (by omega) hv
    refine ⟨v', ?_, h1, ?_, ?_⟩
    · unfold hanningLoop
      rw [if_pos (by omega)]
      dsimp only
      unfold Vec.put
      rw [if_pos (by omega), hm, Option.bind_some]
      push_cast
      exact e
    · intro j hj
      rw [h2 j (by omega)]
      exact if_neg (by omega)
    · intro j hj hl
      by_cases e1 : j = n
      · rw [h2 j (by omega)]
        dsimp only
        rw [if_pos e1, e1]
      · exact h3 j (by omega) hl

theorem hanning_never (len : ℕ) (t : ℝ) (hlen : 4294967296 ≤ len) : ∀ fuel n (v : Vec ℝ), n < 4294967296 → hanningLoop len t fuel n v = none := by
  intro fuel
  induction fuel with
  | zero =>
    intro n v hn
    unfold hanningLoop
    rw [if_pos (by omega)]
  | succ fuel ih =>
    intro n v hn
    unfold hanningLoop
    rw [if_pos (by omega)]
    dsimp only
    cases v.put n (0.5 * (1 - cos (t * (((n + 1) % 4294967296 : ℕ) : ℝ)))) with
    | none => rfl
    | some v' => exact ih _ v' (Nat.mod_lt _ (by norm_num))

/-! ## Bessel and Kaiser -/

theorem bessel_spec (x : ℝ) : ∃ F r, (∀ fuel, F ≤ fuel → bessel fuel x = some r) ∧ r ≤ I0 x ∧ I0 x - r ≤ 0.0002 ∧ 1 ≤ r := by
  by_cases hx : |x| ≤ 3
  · obtain ⟨h1, h2, h3⟩ := poly_bound hx
    exact ⟨0, besselPoly x, fun fuel _ => by unfold bessel; rw [if_pos hx], h1, h2, h3⟩
  · obtain ⟨F, r, h1, h2, h3, h4⟩ := bessel_series (not_le.1 hx)
    exact ⟨F, r, h1, h2, h3.trans (by norm_num), h4⟩

/-! ## Chebyshev -/

theorem x0_nonneg (len : ℕ) (ripple : ℝ) : 0 ≤ chebyX0 len ripple := by
  unfold chebyX0
  have h1 := cos_le_one (2 * π * chebyDf len ripple)
  have h2 := neg_one_le_cos (2 * π * chebyDf len ripple)
  exact div_nonneg (by linarith) (by linarith)

theorem x_ge (len : ℕ) (ripple : ℝ) (i : ℕ) : -1 ≤ chebyX len ripple i := by
  unfold chebyX
  have h0 := x0_nonneg len ripple
  have h2 := neg_one_le_cos (2 * π * chebyF len i)
  nlinarith

theorem x_reflect (len : ℕ) (ripple : ℝ) (i : ℕ) (hi : i ≤ len) (hl : 0 < len) : chebyX len ripple (len - i) = chebyX len ripple i := by
  have hl' : (len : ℝ) ≠ 0 := by positivity
  have : cos (2 * π * chebyF len (len - i)) = cos (2 * π * chebyF len i) := by
    unfold chebyF
    rw [Nat.cast_sub hi, show 2 * π * (((len : ℝ) - i) * (1 / len)) = 2 * π - 2 * π * (i * (1 / len)) by field_simp]
    exact cos_two_pi_sub _
  unfold chebyX
  rw [this]

theorem wf_reflect (len : ℕ) (ripple : ℝ) (i : ℕ) (hi : i ≤ len) (hl : 0 < len) : chebyWf len ripple (len - i) = chebyWf len ripple i := by
  unfold chebyWf
  rw [x_reflect len ripple i hi hl]

theorem acoshC_real {x : ℝ} (hx : 1 < x) : acoshC x = ((Real.log (x + sqrt (x ^ 2 - 1)) : ℝ) : ℂ) := by
  unfold acoshC
  have h1 : 0 ≤ x ^ 2 - 1 := by nlinarith
  have : (((x ^ 2 - 1 : ℝ) : ℂ)) ^ (1 / 2 : ℂ) = ((sqrt (x ^ 2 - 1) : ℝ) : ℂ) := by
    rw [sqrt_eq_rpow, Complex.ofReal_cpow h1]
    norm_num
  rw [this, ← Complex.ofReal_add, ← Complex.ofReal_log]
  positivity

theorem wf_im (len : ℕ) (ripple : ℝ) (i : ℕ) : (chebyWf len ripple i).im = 0 := by
  unfold chebyWf
  dsimp only
  rw [Complex.im_ofReal_mul, Complex.add_im, Complex.ofReal_im, add_zero, Complex.im_ofReal_mul]
  by_cases hx : 1 < chebyX len ripple i
  · rw [acoshC_real hx, ← Complex.ofReal_mul, ← Complex.ofReal_cosh, Complex.ofReal_im]
    ring
  · have : chebyTmp (chebyX len ripple i) = 0 := by
      have := x_ge len ripple i
      unfold chebyTmp
      rw [if_neg]
      split <;> linarith
    rw [this]
    ring

theorem wf_real (len : ℕ) (ripple : ℝ) (i : ℕ) : (((chebyWf len ripple i).re : ℝ) : ℂ) = chebyWf len ripple i :=
  Complex.ext rfl (by rw [Complex.ofReal_im, wf_im])

/-- At half the sampling frequency the even spectrum is zero. -/
theorem wf_half (len : ℕ) (ripple : ℝ) (he : len % 2 = 0) (hl : 0 < len) : chebyWf len ripple (len / 2) = 0 := by
  have hl' : (len : ℝ) ≠ 0 := by positivity
  have hx : chebyX len ripple (len / 2) = -1 := by
    have : cos (2 * π * chebyF len (len / 2)) = -1 := by
      unfold chebyF
      rw [Nat.cast_div (Nat.dvd_of_mod_eq_zero he) (by norm_num), show 2 * π * ((len : ℝ) / ((2 : ℕ) : ℝ) * (1 / len)) = π by push_cast; field_simp]
      exact cos_pi
    unfold chebyX
    rw [this]
    ring
  unfold chebyWf
  dsimp only
  rw [hx]
  have ht : chebyTmp (-1) = 0 := by unfold chebyTmp; norm_num
  rw [ht, if_pos le_rfl, arccos_neg_one]
  have hc : cos (((len : ℝ) - 1) / 2 * π) = 0 := by
    rw [Real.cos_eq_zero_iff]
    obtain ⟨m, rfl⟩ : ∃ m, len = 2 * m := ⟨len / 2, by omega⟩
    refine ⟨(m : ℤ) - 1, ?_⟩
    push_cast
    ring
  rw [hc]
  simp

/-- The terms of the transform. -/
noncomputable def tm (len : ℕ) (ripple : ℝ) (k i : ℕ) : ℂ := chebyWf2 len ripple i * Complex.exp (-(2 * π * Complex.I * i * k / len))

/-- One term, odd lengths: a real number times a root of unity. -/
theorem tm_odd (len : ℕ) (ripple : ℝ) (k i : ℕ) (ho : len % 2 = 1) :
    tm len ripple k i = ((chebyWf len ripple i).re : ℂ) * Complex.exp (((-(2 * π * i * k / len) : ℝ) : ℂ) * Complex.I) := by
  unfold tm chebyWf2
  rw [if_neg (by omega), wf_real]
  congr 2
  push_cast
  ring

theorem tm_even (len : ℕ) (ripple : ℝ) (k i : ℕ) (ho : len % 2 = 0) :
    tm len ripple k i = (if len / 2 ≤ i then -1 else 1) * (((chebyWf len ripple i).re : ℂ) * Complex.exp (((-(π * i * (1 + 2 * k) / len) : ℝ) : ℂ) * Complex.I)) := by
  unfold tm chebyWf2
  rw [if_pos ho]
  have e : Complex.exp (((-1 * π * chebyF len i : ℝ) : ℂ) * Complex.I) * Complex.exp (-(2 * π * Complex.I * i * k / len)) =
      Complex.exp (((-(π * i * (1 + 2 * k) / len) : ℝ) : ℂ) * Complex.I) := by
    rw [← Complex.exp_add]
    congr 1
    unfold chebyF
    push_cast
    ring
  dsimp only
  rw [← e]
  split <;> ring

theorem conj_exp (a : ℝ) : (starRingEnd ℂ) (Complex.exp ((a : ℂ) * Complex.I)) = Complex.exp (((-a : ℝ) : ℂ) * Complex.I) := by
  rw [← Complex.exp_conj, map_mul, Complex.conj_ofReal, Complex.conj_I]
  congr 1
  push_cast
  ring

theorem exp_turn (a : ℝ) (m : ℕ) : Complex.exp (((a + m * (2 * π) : ℝ) : ℂ) * Complex.I) = Complex.exp ((a : ℂ) * Complex.I) := by
  rw [Complex.exp_eq_exp_iff_exists_int]
  refine ⟨m, ?_⟩
  push_cast
  ring

theorem exp_turn' (a : ℝ) (m : ℕ) : Complex.exp (((a - m * (2 * π) : ℝ) : ℂ) * Complex.I) = Complex.exp ((a : ℂ) * Complex.I) := by
  rw [← exp_turn (a - m * (2 * π)) m]
  congr 3
  ring

theorem exp_half (a : ℝ) : Complex.exp (((a - π : ℝ) : ℂ) * Complex.I) = -Complex.exp ((a : ℂ) * Complex.I) := by
  rw [show ((a - π : ℝ) : ℂ) * Complex.I = (a : ℂ) * Complex.I - π * Complex.I by push_cast; ring, Complex.exp_sub_pi_mul_I]

/-- The term reflected: its conjugate. -/
theorem tm_reflect (len : ℕ) (ripple : ℝ) (k i : ℕ) (hi0 : 0 < i) (hi : i < len) : tm len ripple k (len - i) = (starRingEnd ℂ) (tm len ripple k i) := by
  have hl' : (len : ℝ) ≠ 0 := by
    have : 0 < len := by omega
    positivity
  rcases Nat.mod_two_eq_zero_or_one len with he | ho
  · rw [tm_even _ _ _ _ he, tm_even _ _ _ _ he, wf_reflect len ripple i (by omega) (by omega)]
    by_cases hh : i = len / 2
    · rw [hh, wf_half len ripple he (by omega)]
      simp
    · rw [map_mul, map_mul, conj_exp, Complex.conj_ofReal]
      have ea : (-(π * ((len - i : ℕ) : ℝ) * (1 + 2 * k) / len) : ℝ) = - -(π * i * (1 + 2 * k) / len) - k * (2 * π) - π := by
        rw [Nat.cast_sub hi.le]
        field_simp
        ring
      rw [ea, exp_half, exp_turn']
      by_cases h2 : len / 2 ≤ i
      · rw [if_neg (by omega), if_pos h2]
        simp
      · rw [if_pos (by omega), if_neg h2]
        simp
  · rw [tm_odd _ _ _ _ ho, tm_odd _ _ _ _ ho, wf_reflect len ripple i (by omega) (by omega), map_mul, conj_exp, Complex.conj_ofReal]
    have ea : (-(2 * π * ((len - i : ℕ) : ℝ) * k / len) : ℝ) = - -(2 * π * i * k / len) - k * (2 * π) := by
      rw [Nat.cast_sub hi.le]
      field_simp
      ring
    rw [ea, exp_turn']

theorem tm_zero (len : ℕ) (ripple : ℝ) (k : ℕ) (hl : 1 < len) : tm len ripple k 0 = (starRingEnd ℂ) (tm len ripple k 0) := by
  rcases Nat.mod_two_eq_zero_or_one len with he | ho
  · rw [tm_even _ _ _ _ he, if_neg (by omega)]
    simp
  · rw [tm_odd _ _ _ _ ho]
    simp

/-- The mirror of an index: `len - k` for odd, `len - 1 - k` for even lengths. -/
theorem tm_mirror (len : ℕ) (ripple : ℝ) (k k' i : ℕ) (hl : 1 < len) (hk : if len % 2 = 1 then k + k' = len else k + k' + 1 = len) :
    tm len ripple k' i = (starRingEnd ℂ) (tm len ripple k i) := by
  have hl' : (len : ℝ) ≠ 0 := by
    have : 0 < len := by omega
    positivity
  rcases Nat.mod_two_eq_zero_or_one len with he | ho
  · rw [if_neg (by omega)] at hk
    rw [tm_even _ _ _ _ he, tm_even _ _ _ _ he, map_mul, map_mul, conj_exp, Complex.conj_ofReal]
    have ek : (k' : ℝ) = len - 1 - k := by
      rw [← hk]; push_cast; ring
    have ea : (-(π * i * (1 + 2 * k') / len) : ℝ) = - -(π * i * (1 + 2 * k) / len) - i * (2 * π) := by
      rw [ek]
      field_simp
      ring
    rw [ea, exp_turn']
    split <;> simp
  · rw [if_pos ho] at hk
    rw [tm_odd _ _ _ _ ho, tm_odd _ _ _ _ ho, map_mul, conj_exp, Complex.conj_ofReal]
    have ek : (k' : ℝ) = len - k := by
      rw [← hk]; push_cast; ring
    have ea : (-(2 * π * i * k' / len) : ℝ) = - -(2 * π * i * k / len) - i * (2 * π) := by
      rw [ek]
      field_simp
      ring
    rw [ea, exp_turn']

theorem wt_eq (len : ℕ) (ripple : ℝ) (k : ℕ) : chebyWt len ripple k = (1 / len : ℂ) * ∑ i ∈ range len, tm len ripple k i := rfl

theorem wt_real (len : ℕ) (ripple : ℝ) (k : ℕ) (hl : 1 < len) : (starRingEnd ℂ) (chebyWt len ripple k) = chebyWt len ripple k := by
  rw [wt_eq, map_mul, map_div₀, map_one, map_natCast, map_sum]
  congr 1
  obtain ⟨m, rfl⟩ : ∃ m, len = m + 1 := ⟨len - 1, by omega⟩
  rw [sum_range_succ', sum_range_succ' (fun i => tm (m + 1) ripple k i), ← tm_zero _ _ _ hl]
  congr 1
  rw [← sum_range_reflect]
  refine sum_congr rfl fun i hi => ?_
  have hi := mem_range.1 hi
  have := tm_reflect (m + 1) ripple k (i + 1) (by omega) (by omega)
  rw [show m - 1 - i + 1 = m + 1 - (i + 1) by omega, this]
  simp

theorem wt_mirror (len : ℕ) (ripple : ℝ) (k k' : ℕ) (hl : 1 < len) (hk : if len % 2 = 1 then k + k' = len else k + k' + 1 = len) :
    chebyWt len ripple k' = chebyWt len ripple k := by
  rw [← wt_real len ripple k hl, wt_eq, wt_eq, map_mul, map_div₀, map_one, map_natCast, map_sum]
  congr 1
  exact sum_congr rfl fun i _ => tm_mirror len ripple k k' i hl hk

theorem wt_ofReal (len : ℕ) (ripple : ℝ) (k : ℕ) (hl : 1 < len) : chebyWt len ripple k = ((chebyWt len ripple k).re : ℂ) :=
  (Complex.conj_eq_iff_re.1 (wt_real len ripple k hl)).symm

end Verif.Win
