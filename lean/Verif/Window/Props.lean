import Verif.Window.Cheby

/-!
# C66: windows

Every window has the length asked for, is symmetric, and has the values of its definition; nothing is read or written out of range and every loop ends.
-/

namespace Verif.Props
open Verif.Win Verif.Sig Real Finset

/-- The same forwards and backwards. -/
def Symmetric (v : Vec ℝ) : Prop := ∀ i, i < v.n → v.f (v.n - 1 - i) = v.f i

/-- `blackman`: for every length from 2 on, the window of the definition, symmetric, from 0 at both ends and never outside of [0, 1]. -/
theorem C66_blackman (len : ℕ) (hl : 1 < len) :
    ∃ v, blackman len = some v ∧ v.n = len ∧
      (∀ i, i < len → v.f i = 0.42 - 0.5 * cos (2 * π * i / (len - 1)) + 0.08 * cos (4 * π * i / (len - 1))) ∧
      Symmetric v ∧ v.f 0 = 0 ∧ v.f (len - 1) = 0 ∧ ∀ i, i < len → 0 ≤ v.f i ∧ v.f i ≤ 1 := by
  have hl' : (len : ℝ) - 1 ≠ 0 := by
    have : (1 : ℝ) < len := by exact_mod_cast hl
    linarith
  have e := fill len (fun n => some (0.42 - 0.5 * cos (2 * π / ((len : ℝ) - 1) * n) + 0.08 * cos (2 * (2 * π / ((len : ℝ) - 1)) * n)))
    (fun i => 0.42 - 0.5 * cos (2 * π * i / (len - 1)) + 0.08 * cos (4 * π * i / (len - 1))) (by
      intro k _
      rw [show 2 * π / ((len : ℝ) - 1) * k = 2 * π * k / (len - 1) by ring, show 2 * (2 * π / ((len : ℝ) - 1)) * k = 4 * π * k / (len - 1) by ring])
  generalize hv : (⟨len, fun k => if k < len then 0.42 - 0.5 * cos (2 * π * k / (len - 1)) + 0.08 * cos (4 * π * k / (len - 1)) else 0⟩ : Vec ℝ) = v at e
  have h1 : v.n = len := by rw [← hv]
  have h2 : ∀ i, i < len → v.f i = 0.42 - 0.5 * cos (2 * π * i / (len - 1)) + 0.08 * cos (4 * π * i / (len - 1)) := by
    intro i hi
    rw [← hv]
    exact if_pos hi
  have hsym : Symmetric v := by
    intro i hi
    rw [h1] at hi ⊢
    rw [h2 i hi, h2 (len - 1 - i) (by omega), Nat.cast_sub (by omega), Nat.cast_sub (by omega), Nat.cast_one]
    rw [show 2 * π * ((len : ℝ) - 1 - i) / (len - 1) = 2 * π - 2 * π * i / (len - 1) by field_simp,
      show 4 * π * ((len : ℝ) - 1 - i) / (len - 1) = (2 * π - 4 * π * i / (len - 1)) + 2 * π by field_simp; ring, cos_two_pi_sub, cos_add_two_pi, cos_two_pi_sub]
  have h0 : v.f 0 = 0 := by
    rw [h2 0 (by omega)]
    norm_num
  refine ⟨v, ?_, h1, h2, hsym, h0, ?_, ?_⟩
  · unfold blackman
    rw [if_neg (by omega)]
    exact e
  · have := hsym 0 (by omega)
    rw [h1] at this
    rw [← h0, ← this]
    rfl
  · intro i hi
    rw [h2 i hi, show 4 * π * i / ((len : ℝ) - 1) = 2 * (2 * π * i / (len - 1)) by ring, cos_two_mul]
    have a := cos_le_one (2 * π * i / ((len : ℝ) - 1))
    have b := neg_one_le_cos (2 * π * i / ((len : ℝ) - 1))
    generalize cos (2 * π * i / ((len : ℝ) - 1)) = c at a b
    norm_num
    constructor <;> nlinarith

/-- `hanning`, lengths below 2^32: ends after `len` steps with the window of the definition, symmetric, above 0 and at most 1.  Partial: see
`C66_hanning_false` for the other lengths. -/
theorem C66_hanning_partial (len : ℕ) (hl : 1 < len) (h32 : len < 4294967296) :
    ∃ v, (∀ fuel, len ≤ fuel → hanning fuel len = some v) ∧ v.n = len ∧
      (∀ i, i < len → v.f i = 0.5 * (1 - cos (2 * π * (i + 1) / (len + 1)))) ∧
      Symmetric v ∧ ∀ i, i < len → 0 < v.f i ∧ v.f i ≤ 1 := by
  have hpos : (0 : ℝ) < (len : ℝ) + 1 := by positivity
  have hex : ∀ fuel, len ≤ fuel → ∃ v', hanningLoop len (2 * π / ((len : ℝ) + 1)) fuel 0 (fresh len) = some v' ∧ v'.n = len ∧
      (∀ j, j < 0 → v'.f j = (fresh len).f j) ∧
      ∀ j, 0 ≤ j → j < len → v'.f j = 0.5 * (1 - cos (2 * π / ((len : ℝ) + 1) * ((j : ℝ) + 1))) :=
    fun fuel hf => hanning_run len _ h32 len 0 fuel (fresh len) (by omega) hf rfl
  have hmono : ∀ fuel n (v v' : Vec ℝ), hanningLoop len (2 * π / ((len : ℝ) + 1)) fuel n v = some v' → hanningLoop len (2 * π / ((len : ℝ) + 1)) (fuel + 1) n v = some v' := by
    intro fuel
    induction fuel with
    | zero =>
      intro n v v' h
      unfold hanningLoop at h ⊢
      split at h
      · cases h
      · rename_i hn
        rw [if_neg hn]
        exact h
    | succ fuel ih =>
      intro n v v' h
      unfold hanningLoop at h ⊢
      split at h
      · rename_i hn
        rw [if_pos hn]
        dsimp only at h ⊢
        obtain ⟨w, hw, hw'⟩ := Option.bind_eq_some_iff.1 h
        rw [hw]
        exact ih _ w v' hw'
      · rename_i hn
        rw [if_neg hn]
        exact h
  obtain ⟨v, e, h1, -, h3⟩ := hex len le_rfl
  have hf : ∀ i, i < len → v.f i = 0.5 * (1 - cos (2 * π * (i + 1) / (len + 1))) := by
    intro i hi
    rw [h3 i (by omega) hi, show 2 * π / ((len : ℝ) + 1) * ((i : ℝ) + 1) = 2 * π * (i + 1) / (len + 1) by ring]
  refine ⟨v, ?_, h1, hf, ?_, ?_⟩
  · intro fuel hfu
    unfold hanning
    rw [if_neg (by omega)]
    obtain ⟨d, rfl⟩ : ∃ d, fuel = len + d := ⟨fuel - len, by omega⟩
    clear hfu
    induction d with
    | zero => exact e
    | succ d ih => exact hmono _ _ _ _ ih
  · intro i hi
    rw [h1] at hi ⊢
    rw [hf i hi, hf (len - 1 - i) (by omega), Nat.cast_sub (by omega), Nat.cast_sub (by omega), Nat.cast_one]
    rw [show 2 * π * ((len : ℝ) - 1 - i + 1) / (len + 1) = 2 * π - 2 * π * (i + 1) / (len + 1) by field_simp; ring, cos_two_pi_sub]
  · intro i hi
    rw [hf i hi, show 2 * π * ((i : ℝ) + 1) / (len + 1) = 2 * (π * (i + 1) / (len + 1)) by ring, cos_two_mul]
    have hs : 0 < sin (π * (i + 1) / (len + 1)) := by
      refine sin_pos_of_pos_of_lt_pi (by positivity) ?_
      rw [div_lt_iff₀ hpos]
      have : (i : ℝ) < len := by exact_mod_cast hi
      nlinarith [pi_pos]
    have h4 := sin_sq_add_cos_sq (π * (i + 1) / ((len : ℝ) + 1))
    constructor
    · nlinarith
    · nlinarith [sq_nonneg (cos (π * (i + 1) / ((len : ℝ) + 1)))]

/-- `hanning` with 2^32 elements or more never ends: its counter is an `unsigned int`, which returns to 0 before it has reached the length. -/
theorem C66_hanning_false (len : ℕ) (h32 : 4294967296 ≤ len) : ∀ fuel, hanning fuel len = none := by
  intro fuel
  unfold hanning
  rw [if_neg (by omega)]
  exact hanning_never len _ h32 fuel 0 _ (by norm_num)

/-- The modified Bessel function of order zero: `I0 x = Σ ((x²/4)^k / (k!)²)`; the definition here and in `Window/Bessel.lean` are the same. -/
theorem C66_I0 (x : ℝ) : HasSum (fun k : ℕ => (x ^ 2 / 4) ^ k / ((k.factorial : ℝ) * k.factorial)) (I0 x) :=
  (term_summable (by positivity)).hasSum

/-- `bessel_I_0` beyond 3: the iteration ends and is right to 1e-8.  (Partial: for the other arguments see `C66_bessel_poly_partial`.) -/
theorem C66_bessel_partial (x : ℝ) (hx : 3 < |x|) : ∃ F r, (∀ fuel, F ≤ fuel → bessel fuel x = some r) ∧ |r - I0 x| ≤ 0.00000001 := by
  obtain ⟨F, r, h1, h2, h3, -⟩ := bessel_series hx
  refine ⟨F, r, h1, ?_⟩
  rw [abs_le]
  constructor <;> linarith

/-- `bessel_I_0` up to 3: the polynomial is right to 2e-4 only. -/
theorem C66_bessel_poly_partial (x : ℝ) (hx : |x| ≤ 3) : ∃ r, (∀ fuel, bessel fuel x = some r) ∧ |r - I0 x| ≤ 0.0002 := by
  obtain ⟨h2, h3, -⟩ := poly_bound hx
  refine ⟨besselPoly x, fun fuel => by unfold bessel; rw [if_pos hx], ?_⟩
  rw [abs_le]
  constructor <;> linarith

/-- `bessel_I_0` is not accurate to 1.6e-7 as its comment claims: the coefficients are (but for the signs) those of Abramowitz and Stegun 9.4.1, for
`J_0`, and not those of 9.8.1, for `I_0`.  At 3 it is off by more than 1.8e-4, more than a thousand times as much. -/
theorem C66_bessel_false : ∃ x r, |x| ≤ 3 ∧ (∀ fuel, bessel fuel x = some r) ∧ 0.00018 < |r - I0 x| := by
  refine ⟨3, besselPoly 3, by norm_num, fun fuel => by unfold bessel; rw [if_pos (by norm_num)], ?_⟩
  have h := partial_le 3 8
  simp only [sum_range_succ, sum_range_zero, term, Nat.factorial] at h
  have hp : besselPoly 3 = 4.8806094 := by
    unfold besselPoly
    norm_num
  rw [hp, lt_abs]
  right
  norm_num at h ⊢
  linarith

/-- `kaiser`: ends for every length from 2 on and every `beta`; symmetric, positive, 1 in the middle of odd lengths, and within 2e-4 of the definition
`I0(beta sqrt(1 - c²)) / I0(beta)` with `c` from -1 to 1.  (Partial: with the accuracy claimed for `bessel_I_0` it would be 4e-7.) -/
theorem C66_kaiser_partial (len : ℕ) (beta : ℝ) (hl : 1 < len) :
    ∃ F v, (∀ fuel, F ≤ fuel → kaiser fuel len beta = some v) ∧ v.n = len ∧ Symmetric v ∧
      (∀ i, i < len → 0 < v.f i ∧ |v.f i - I0 (beta * sqrt (1 - (2 * i / (len - 1) - 1) ^ 2)) / I0 beta| ≤ 0.0002) ∧
      (∀ m, len = 2 * m + 1 → v.f m = 1) := by
  have hL : (0 : ℝ) < (len : ℝ) - 1 := by
    have : (1 : ℝ) < len := by exact_mod_cast hl
    linarith
  choose F r hF hle hge hone using bessel_spec
  let a : ℕ → ℝ := fun i => beta * sqrt (1 - (2 * i / (len - 1) - 1) ^ 2)
  have hc : ∀ i : ℕ, i < len → (2 * i / ((len : ℝ) - 1) - 1) ≤ 1 := by
    intro i hi
    have : (i : ℝ) ≤ len - 1 := by
      have : i + 1 ≤ len := hi
      have : ((i + 1 : ℕ) : ℝ) ≤ len := by exact_mod_cast this
      push_cast at this
      linarith
    have : 2 * (i : ℝ) / (len - 1) ≤ 2 := by
      rw [div_le_iff₀ hL]
      linarith
    linarith
  obtain ⟨M, hM⟩ : ∃ M, ∀ i, i < len → F (a i) ≤ M := ⟨∑ i ∈ range len, F (a i), fun i hi => single_le_sum (f := fun i => F (a i)) (fun _ _ => Nat.zero_le _) (mem_range.2 hi)⟩
  refine ⟨F beta + M, ⟨len, fun k => if k < len then r (a k) / r beta else 0⟩, ?_, rfl, ?_, ?_, ?_⟩
  · intro fuel hf
    have e := fill len (fun n => (bessel fuel (beta * sqrt (1 - (if 2 / ((len : ℝ) - 1) * n - 1 > 1 then 1 else 2 / ((len : ℝ) - 1) * n - 1) * (if 2 / ((len : ℝ) - 1) * n - 1 > 1 then 1 else 2 / ((len : ℝ) - 1) * n - 1)))).bind fun b => some (b / r beta))
      (fun k => r (a k) / r beta) (by
        intro k hk
        have e1 : 2 / ((len : ℝ) - 1) * k - 1 = 2 * k / (len - 1) - 1 := by ring
        have := hc k hk
        rw [if_neg (by rw [e1]; exact not_lt.2 this), e1, ← sq, hF (a k) fuel (by have := hM k hk; omega)]
        rfl)
    unfold kaiser
    rw [if_neg (by omega), hF beta fuel (by omega)]
    rw [← e]
    show loop len _ _ = _
    congr 1
    funext v n
    show Option.bind _ _ = Option.bind (Option.bind _ _) _
    rw [Option.bind_assoc]
    rfl
  · intro i hi
    dsimp only at hi ⊢
    have : a (len - 1 - i) = a i := by
      show beta * _ = beta * _
      rw [Nat.cast_sub (by omega), Nat.cast_sub (by omega), Nat.cast_one]
      congr 3
      field_simp
      ring
    rw [if_pos (by omega), if_pos hi, this]
  · intro i hi
    dsimp only
    rw [if_pos hi]
    have hb := hone beta
    have hx := hone (a i)
    refine ⟨by positivity, ?_⟩
    show |r (a i) / r beta - I0 (a i) / I0 beta| ≤ 0.0002
    have hmon : I0 (a i) ≤ I0 beta := by
      refine I0_mono ?_
      show |beta * sqrt _| ≤ |beta|
      rw [abs_mul, abs_of_nonneg (sqrt_nonneg _)]
      have : sqrt (1 - (2 * i / ((len : ℝ) - 1) - 1) ^ 2) ≤ 1 := by
        rw [sqrt_le_left (by norm_num)]
        nlinarith [sq_nonneg (2 * i / ((len : ℝ) - 1) - 1)]
      nlinarith [abs_nonneg beta]
    have l1 := hle beta
    have l2 := hle (a i)
    have g1 := hge beta
    have g2 := hge (a i)
    have rb : 0 < r beta := by linarith
    have ib : 0 < I0 beta := by linarith
    rw [div_sub_div _ _ rb.ne' ib.ne', abs_le, le_div_iff₀ (by positivity), div_le_iff₀ (by positivity)]
    constructor <;> nlinarith
  · intro m hm
    dsimp only
    rw [if_pos (by omega)]
    have : a m = beta := by
      show beta * _ = beta
      rw [hm]
      push_cast
      have hm0 : (m : ℝ) ≠ 0 := by
        have : m ≠ 0 := by omega
        exact_mod_cast this
      rw [show 2 * (m : ℝ) / (2 * m + 1 - 1) - 1 = 0 by field_simp; ring]
      simp
    rw [this]
    have hb := hone beta
    exact div_self (by linarith)

/-- The Dolph-Chebyshev window before scaling, from the definition: the inverse transform of the Chebyshev polynomial of degree `n - 1` taken at
`z cos(π i / n)`, with its middle at `(n - 1) / 2`, where `z = cosh(arcosh(1 + 1/δ) / (n - 1))`. -/
noncomputable def dolph (n : ℕ) (δ : ℝ) (k : ℕ) : ℝ :=
  ∑ i ∈ range n, (Polynomial.Chebyshev.T ℝ ((n : ℤ) - 1)).eval (cosh (arcosh (1 + 1 / δ) / ((n : ℝ) - 1)) * cos (π * i / n)) *
    cos (π * i * (2 * k - (n - 1)) / n)

/-- `cheby`: for every length from 2 on and every ripple the result is the Dolph-Chebyshev window, scaled so that it is 1 in the middle: at the one
middle element of odd lengths, at both middle elements of even ones.  It is symmetric, and the division is never by zero. -/
theorem C66_cheby (len : ℕ) (ripple : ℝ) (hl : 1 < len) :
    ∃ v, cheby len ripple = some v ∧ v.n = len ∧ Symmetric v ∧ v.f (len / 2) = 1 ∧ v.f ((len - 1) / 2) = 1 ∧
      0 < dolph len (10 ^ (-ripple / 20)) (len / 2) ∧
      ∀ k, k < len → v.f k = dolph len (10 ^ (-ripple / 20)) k / dolph len (10 ^ (-ripple / 20)) (len / 2) := by
  have hd := dp_pos ripple
  have hl0 : (0 : ℝ) < len := by
    have : 0 < len := by omega
    exact_mod_cast this
  set e : ℝ := if len % 2 = 0 then 1 else 0 with he
  have hinv : ∀ k : ℕ, dolph len (10 ^ (-ripple / 20)) k = inv len (chebyDp ripple) (2 * k - (len - 1)) := fun k => rfl
  have hmid : dolph len (10 ^ (-ripple / 20)) (len / 2) = inv len (chebyDp ripple) e := by
    rw [hinv, he]
    rcases Nat.mod_two_eq_zero_or_one len with h | h
    · rw [if_pos h]
      congr 1
      obtain ⟨m, rfl⟩ : ∃ m, len = 2 * m := ⟨len / 2, by omega⟩
      rw [Nat.mul_div_cancel_left m (by norm_num)]
      push_cast
      ring
    · rw [if_neg (by omega)]
      congr 1
      obtain ⟨m, rfl⟩ : ∃ m, len = 2 * m + 1 := ⟨len / 2, by omega⟩
      rw [show (2 * m + 1) / 2 = m by omega]
      push_cast
      ring
  have hpos : 0 < inv len (chebyDp ripple) e := inv_mid_pos len _ hl hd
  have hW : ∀ k : ℕ, chebyWt len ripple k = ((chebyDp ripple / len * inv len (chebyDp ripple) (2 * k + e) : ℝ) : ℂ) := fun k => wt_eq_inv len ripple k hl
  have hW0 : chebyWt len ripple 0 = ((chebyDp ripple / len * inv len (chebyDp ripple) e : ℝ) : ℂ) := by
    rw [hW 0]
    congr 3
    push_cast
    ring
  obtain ⟨v, e1, h1, h2⟩ := C40_vector (fresh len) ⟨len, fun k => ((chebyWt len ripple 0 / (Complex.normSq (chebyWt len ripple 0) : ℂ)) * chebyWt len ripple k).re⟩
    (by dsimp only; omega) rfl
  dsimp only at h1 h2
  have hval : ∀ k, k < len → v.f k = dolph len (10 ^ (-ripple / 20)) k / dolph len (10 ^ (-ripple / 20)) (len / 2) := by
    intro k hk
    rw [h2 k hk, hW0, hW, Complex.normSq_ofReal, ← Complex.ofReal_div, ← Complex.ofReal_mul, Complex.ofReal_re, hmid, hinv]
    have hturn : inv len (chebyDp ripple) (2 * ((k + (len + 1) / 2) % len : ℕ) + e) = inv len (chebyDp ripple) (2 * k - (len - 1)) := by
      have h3 : inv len (chebyDp ripple) (2 * k - (len - 1) + 1 * (2 * len)) = inv len (chebyDp ripple) (2 * k - (len - 1)) := by
        refine inv_turn len _ _ _ 1 (by omega) ?_
        push_cast
        ring
      rw [← h3]
      have hdiv := Nat.div_add_mod (k + (len + 1) / 2) len
      refine (inv_turn len _ _ _ ((k + (len + 1) / 2) / len) (by omega) ?_).symm
      have hdiv' : (len : ℝ) * ((k + (len + 1) / 2) / len : ℕ) + ((k + (len + 1) / 2) % len : ℕ) = k + ((len + 1) / 2 : ℕ) := by exact_mod_cast hdiv
      have hhalf : 2 * (((len + 1) / 2 : ℕ) : ℝ) + e = len + 1 := by
        rw [he]
        rcases Nat.mod_two_eq_zero_or_one len with h | h
        · rw [if_pos h]
          obtain ⟨m, rfl⟩ : ∃ m, len = 2 * m := ⟨len / 2, by omega⟩
          rw [show (2 * m + 1) / 2 = m by omega]
          push_cast
          ring
        · rw [if_neg (by omega)]
          obtain ⟨m, rfl⟩ : ∃ m, len = 2 * m + 1 := ⟨len / 2, by omega⟩
          rw [show (2 * m + 1 + 1) / 2 = m + 1 by omega]
          push_cast
          ring
      linear_combination -2 * hdiv' - hhalf
    rw [hturn]
    generalize inv len (chebyDp ripple) (2 * k - (len - 1)) = p
    generalize inv len (chebyDp ripple) e = q at hpos
    field_simp
  have hmidval : ∀ k : ℕ, k < len → (k = len / 2 ∨ k = (len - 1) / 2) → v.f k = 1 := by
    intro k hk hh
    rw [hval k hk]
    rcases hh with rfl | rfl
    · exact div_self (by rw [hmid]; exact hpos.ne')
    · have : dolph len (10 ^ (-ripple / 20)) ((len - 1) / 2) = dolph len (10 ^ (-ripple / 20)) (len / 2) := by
        rw [hinv, hinv, ← inv_neg]
        congr 1
        have : (len - 1) / 2 + len / 2 = len - 1 := by omega
        have : (((len - 1) / 2 : ℕ) : ℝ) + (len / 2 : ℕ) = len - 1 := by
          rw [← Nat.cast_add, this, Nat.cast_sub (by omega)]
          simp
        linarith
      rw [this]
      exact div_self (by rw [hmid]; exact hpos.ne')
  refine ⟨v, ?_, h1, ?_, hmidval _ (by omega) (Or.inl rfl), hmidval _ (by omega) (Or.inr rfl), by rw [hmid]; exact hpos, hval⟩
  · unfold cheby
    rw [if_neg (by omega)]
    dsimp only
    rw [if_neg]
    · exact e1
    · rw [hW0, Complex.normSq_ofReal]
      positivity
  · intro i hi
    rw [h1] at hi ⊢
    rw [hval i hi, hval _ (by omega), hinv, hinv, ← inv_neg]
    congr 2
    rw [Nat.cast_sub (by omega), Nat.cast_sub (by omega)]
    push_cast
    ring

/-- The spectrum of the Dolph-Chebyshev window has the ripple asked for: the main lobe is `1 + 1/δ`, and outside of it, where `|z cos| ≤ 1`, nothing is
larger than 1.  With `δ = 10^(-ripple/20)` the side lobes are thus more than `ripple` decibels below the main lobe. -/
theorem C66_ripple (len : ℕ) (δ φ : ℝ) (hl : 1 < len) (hd : 0 < δ) :
    (Polynomial.Chebyshev.T ℝ ((len : ℤ) - 1)).eval (cosh (arcosh (1 + 1 / δ) / ((len : ℝ) - 1)) * cos 0) = 1 + 1 / δ ∧
      (|cosh (arcosh (1 + 1 / δ) / ((len : ℝ) - 1)) * cos φ| ≤ 1 →
        |(Polynomial.Chebyshev.T ℝ ((len : ℤ) - 1)).eval (cosh (arcosh (1 + 1 / δ) / ((len : ℝ) - 1)) * cos φ)| ≤ 1) ∧ 1 < δ * (1 + 1 / δ) := by
  have hL : (len : ℝ) - 1 ≠ 0 := by
    have : (1 : ℝ) < len := by exact_mod_cast hl
    linarith
  have hp : 0 < 1 / δ := by positivity
  refine ⟨?_, ?_, ?_⟩
  · rw [cos_zero, mul_one, Polynomial.Chebyshev.T_real_cosh]
    push_cast
    rw [mul_div_cancel₀ _ hL, cosh_arcosh (by linarith)]
  · intro h
    obtain ⟨ha, hb⟩ := abs_le.1 h
    rw [← cos_arccos ha hb, Polynomial.Chebyshev.T_real_cos]
    exact abs_cos_le_one _
  · rw [mul_add, mul_one_div_cancel hd.ne']
    linarith

/-! ## Instances -/

example : (1 : ℕ) < 2 ∧ (2 : ℕ) < 4294967296 ∧ (4294967296 : ℕ) ≤ 4294967296 ∧ (3 : ℝ) < |(-4)| ∧ |(2 : ℝ)| ≤ 3 := by norm_num

/-- Three elements of the Blackman window: 0, 1, 0. -/
example : ∃ v, blackman 3 = some v ∧ v.f 0 = 0 ∧ v.f 1 = 1 ∧ v.f 2 = 0 := by
  obtain ⟨v, h, -, hf, -, h0, h2, -⟩ := C66_blackman 3 (by norm_num)
  refine ⟨v, h, h0, ?_, h2⟩
  rw [hf 1 (by norm_num), show 2 * π * ((1 : ℕ) : ℝ) / (((3 : ℕ) : ℝ) - 1) = π by norm_num, show 4 * π * ((1 : ℕ) : ℝ) / (((3 : ℕ) : ℝ) - 1) = 2 * π by norm_num; ring, cos_pi, cos_two_pi]
  norm_num

/-- The Hanning window of three elements: 1/2, 1, 1/2. -/
example : ∃ v, hanning 3 3 = some v ∧ v.f 0 = 1 / 2 ∧ v.f 1 = 1 := by
  obtain ⟨v, h, -, hf, -, -⟩ := C66_hanning_partial 3 (by norm_num) (by norm_num)
  refine ⟨v, h 3 le_rfl, ?_, ?_⟩
  · rw [hf 0 (by norm_num), show 2 * π * (((0 : ℕ) : ℝ) + 1) / (((3 : ℕ) : ℝ) + 1) = π / 2 by norm_num; ring, cos_pi_div_two]
    norm_num
  · rw [hf 1 (by norm_num), show 2 * π * (((1 : ℕ) : ℝ) + 1) / (((3 : ℕ) : ℝ) + 1) = π by norm_num; ring, cos_pi]
    norm_num

end Verif.Props
