import Verif.Dsp.Corr
import Verif.Window.Props
import Mathlib.Analysis.SpecialFunctions.Trigonometric.Basic
/-!
# Properties of the example programs for signal processing
-/
namespace Verif.Props
open Verif Verif.Dsp Finset

/-! ### Resampling -/

/-- What is needed of rounding to single precision. -/
structure Single (fl : ℚ → ℚ) : Prop where
  mono : ∀ a b, a ≤ b → fl a ≤ fl b
  exact : ∀ n : ℕ, n ≤ 2 ^ 24 → fl n = n
  near : ∀ a, 0 ≤ a → a - a / 2 ^ 24 ≤ fl a

/-- **C84, partial (output length).** Up to 2^24 values before the last step, the output length is that number divided by `Q`, rounded up.  Missing: more values, for which it is refuted. -/
theorem C84_length_partial (fl : ℚ → ℚ) (hf : Single fl) (NN Q : ℕ) (hQ : 0 < Q) (hN : NN < 2 ^ 24) : outLen fl NN Q = (NN + Q - 1) / Q := by
  unfold outLen
  rw [hf.exact NN (by omega)]
  have hq : (0 : ℚ) < Q := by exact_mod_cast hQ
  set K := (NN + Q - 1) / Q with hK
  have hK2 : Q * K ≤ NN + Q - 1 := Nat.mul_div_le _ _
  have hK1 : NN + Q - 1 < Q * (K + 1) := Nat.lt_mul_div_succ _ hQ
  rw [Nat.mul_add] at hK1
  have hKn : NN ≤ Q * K := by omega
  rcases Nat.eq_zero_or_pos NN with h0 | h0
  · subst h0
    have : K = 0 := by rw [hK]; exact Nat.div_eq_of_lt (by omega)
    rw [this]
    have h1 := hf.exact 0 (by omega)
    simp at h1
    simp [h1]
  have hKle : K ≤ 2 ^ 24 := by
    have : K ≤ NN := by
      rw [hK, Nat.div_le_iff_le_mul_add_pred hQ]
      have : 1 * NN ≤ Q * NN := Nat.mul_le_mul_right _ hQ
      omega
    omega
  have hup : fl ((NN : ℚ) / Q) ≤ K := by
    rw [← hf.exact K hKle]
    apply hf.mono
    rw [div_le_iff₀ hq]
    exact_mod_cast (by rw [Nat.mul_comm]; exact hKn)
  have hlo : (K : ℚ) - 1 < fl ((NN : ℚ) / Q) := by
    refine lt_of_lt_of_le ?_ (hf.near _ (by positivity))
    have h1 : (Q : ℚ) * K ≤ NN + Q - 1 := by
      have : Q * K + 1 ≤ NN + Q := by omega
      have : ((Q * K + 1 : ℕ) : ℚ) ≤ ((NN + Q : ℕ) : ℚ) := by exact_mod_cast this
      push_cast at this
      linarith
    have h2 : (NN : ℚ) < 2 ^ 24 := by exact_mod_cast hN
    have h3 : ((K : ℚ) - 1) * Q < (NN : ℚ) / Q * Q - (NN : ℚ) / Q / 2 ^ 24 * Q := by
      have e1 : (NN : ℚ) / Q * Q = NN := by field_simp
      have e2 : (NN : ℚ) / Q / 2 ^ 24 * Q = NN / 2 ^ 24 := by field_simp
      rw [e1, e2]
      have : (NN : ℚ) / 2 ^ 24 < 1 := by rw [div_lt_one (by positivity)]; exact h2
      nlinarith
    rw [← sub_mul] at h3
    exact lt_of_mul_lt_mul_right h3 hq.le
  have : ⌈fl ((NN : ℚ) / Q)⌉ = (K : ℤ) := by
    rw [Int.ceil_eq_iff]
    push_cast
    exact ⟨hlo, hup⟩
  rw [this]
  rfl

example : Single id := ⟨fun _ _ h => h, fun _ _ => rfl, fun a h => by
  have : (0 : ℚ) ≤ a / 2 ^ 24 := by positivity
  simp only [id]
  linarith⟩

/-- **C84 is false (output length).** 2^24 + 1 is not a single: rounded to even it is 2^24, and with every 16th value kept the output has room for one value too few, into which the second method does not fit. -/
theorem C84_length_false (fl : ℚ → ℚ) (h1 : fl (2 ^ 24 + 1) = 2 ^ 24) (h2 : fl (2 ^ 20) = 2 ^ 20) :
    outLen fl (2 ^ 24 + 1) 16 = 2 ^ 20 ∧ (2 ^ 24 + 1 + 16 - 1) / 16 = 2 ^ 20 + 1 := by
  refine ⟨?_, by norm_num⟩
  unfold outLen
  have : fl ((2 ^ 24 + 1 : ℕ) : ℚ) = 2 ^ 24 := by
    rw [← h1]; congr 1; norm_num
  rw [this, show (2 ^ 24 : ℚ) / (16 : ℕ) = 2 ^ 20 by norm_num, h2]
  have : ⌈(2 ^ 20 : ℚ)⌉ = 2 ^ 20 := by
    rw [Int.ceil_eq_iff]; norm_num
  rw [this]
  rfl

section
variable {T : Type} [Semiring T]

/-- **C84, resampling.** For any rates `P` and `Q`, signal of `M` values and `P * S` coefficients that the filters accept, all three methods give the values of the definition; the third whatever `yy` was before. -/
theorem C84_resample (P Q M S : ℕ) (hP : 0 < P) (hQ : 0 < Q) (hS : 1 < S) (hL : P * S ≤ M * P + 1) (hQL : Q < P * S) (h x yy : ℕ → T) :
    method1 P Q M (P * S) ((M * P + Q - 1) / Q) h x = some ((List.range ((M * P + Q - 1) / Q)).map (resampled P Q M (P * S) h x)) ∧
      method2 P Q M (P * S) ((M * P + Q - 1) / Q) h x = some ((List.range ((M * P + Q - 1) / Q)).map (resampled P Q M (P * S) h x)) ∧
        method3 P Q M S ((M * P + Q - 1) / Q) h x yy = some ((List.range ((M * P + Q - 1) / Q)).map (resampled P Q M (P * S) h x)) := by
  have hPS : 2 ≤ P * S := by
    have : 1 * 2 ≤ P * S := Nat.mul_le_mul hP hS
    omega
  have hSM : S ≤ M + 1 := by
    by_contra hc
    have : P * (M + 2) ≤ P * S := Nat.mul_le_mul_left _ (by omega)
    rw [Nat.mul_add, Nat.mul_comm P M] at this
    omega
  set N := (M * P + Q - 1) / Q with hN
  have hn : ∀ q, q < N ↔ q * Q < M * P := by
    intro q
    rw [hN, Nat.lt_iff_add_one_le, Nat.le_div_iff_mul_le hQ, Nat.add_mul]
    omega
  have hn' : ∀ j, j < N → 0 + Q * j < M * P := fun j hj => by rw [Nat.zero_add, Nat.mul_comm]; exact (hn j).1 hj
  refine ⟨?_, ?_, ?_⟩
  · obtain ⟨F, hF⟩ := make_ok h (P * S) (M * P) 1 (by omega) (by omega) (by omega) hL
    unfold method1
    simp only [hF, Option.bind_eq_bind, Option.bind_some]
    rw [fir_initial h _ _ 1 F hF _ (M * P) (fun q => by rw [Nat.mul_one]), filled_eq, Option.bind_some, pick_eq _ _ _ _ _ hn']
    congr 1
    refine List.map_congr_left fun j hj => ?_
    have hj := hn' j (List.mem_range.1 hj)
    rw [getD_map _ _ _ hj, put_stuffed P M hP]
    simp only [decimated, resampled, Nat.zero_add, Nat.mul_one, Nat.mul_comm Q j]
  · obtain ⟨F, hF⟩ := make_ok h (P * S) (M * P) Q hQ hQL (by omega) hL
    unfold method2
    simp only [hF, Option.bind_eq_bind, Option.bind_some]
    rw [fir_initial h _ _ Q F hF _ N hn, filled_eq, put_stuffed P M hP]
    rfl
  · unfold method3
    rw [Nat.mul_div_cancel _ hP]
    rw [foldlM_pure _ (fun yy r => put r P M (fun j => ((List.range M).map (decimated (fun j => h (r + P * j)) S 1 x)).getD j 0) yy)]
    · simp only [Option.bind_eq_bind, Option.bind_some]
      rw [pick_eq _ _ _ _ _ hn']
      congr 1
      refine List.map_congr_left fun j hj => ?_
      have hj := hn' j (List.mem_range.1 hj)
      rw [phases P M hP _ P le_rfl _ _ hj, if_pos (Nat.mod_lt _ hP)]
      have hd : (0 + Q * j) / P < M := by rw [Nat.div_lt_iff_lt_mul hP]; exact hj
      rw [getD_map _ _ _ hd]
      simp only [decimated, Nat.mul_one]
      rw [← polyphase P M S hP h x (0 + Q * j) hj]
      simp only [resampled, Nat.zero_add, Nat.mul_comm Q j]
    · intro r _ yy
      obtain ⟨F, hF⟩ := make_ok (fun j => h (r + P * j)) S M 1 (by omega) (by omega) hS hSM
      simp only [hF, Option.bind_eq_bind, Option.bind_some]
      rw [fir_initial _ _ _ 1 F hF _ M (fun q => by rw [Nat.mul_one]), filled_eq]
      rfl

/-- **C84, room.** With room for `e` values more, the second method leaves the zeros the vector was made with behind the values; with less room than values it fails. -/
theorem C84_room (P Q M L e : ℕ) (hP : 0 < P) (hQ : 0 < Q) (hL : 1 < L) (hLM : L ≤ M * P + 1) (hQL : Q < L) (h x : ℕ → T) :
    method2 P Q M L ((M * P + Q - 1) / Q + e) h x = some ((List.range ((M * P + Q - 1) / Q)).map (resampled P Q M L h x) ++ List.replicate e 0) ∧
      ∀ n, n < (M * P + Q - 1) / Q → method2 P Q M L n h x = none := by
  obtain ⟨F, hF⟩ := make_ok h L (M * P) Q hQ hQL hL hLM
  set N := (M * P + Q - 1) / Q with hN
  have hn : ∀ q, q < N ↔ q * Q < M * P := by
    intro q
    rw [hN, Nat.lt_iff_add_one_le, Nat.le_div_iff_mul_le hQ, Nat.add_mul]
    omega
  unfold method2
  simp only [hF, Option.bind_eq_bind, Option.bind_some]
  rw [fir_initial h _ _ Q F hF _ N hn, put_stuffed P M hP]
  refine ⟨?_, fun n hlt => ?_⟩
  · simp only [filled, List.length_map, List.length_range, Nat.le_add_right, if_true, Nat.add_sub_cancel_left]
    rfl
  · rw [filled, List.length_map, List.length_range, if_neg (by omega)]

example (h x : ℕ → T) : method2 5 3 65536 40 109230 h x = some ((List.range 109227).map (resampled 5 3 65536 40 h x) ++ [0, 0, 0]) :=
  (C84_room 5 3 65536 40 3 (by omega) (by omega) (by omega) (by omega) (by omega) h x).1

/-- The numbers of the program (l.53-56) are accepted. -/
example (h x yy : ℕ → T) : method2 5 3 65536 40 109227 h x = method3 5 3 65536 8 109227 h x yy := by
  obtain ⟨-, h2, h3⟩ := C84_resample 5 3 65536 8 (by omega) (by omega) (by omega) (by omega) (by omega) h x yy
  exact h2.trans h3.symm

example : resampled 2 3 3 4 (fun j => (j : ℤ) + 1) (fun n => [5, 7, 11].getD n 0) 1 = 4 * 5 + 2 * 7 := by decide

end

/-! ### Coefficients and responses -/

theorem dsp_sinc (N : ℕ) (x : ℕ → ℝ) (i : ℕ) (hi : i < N) : sinc N x i = if x i = 0 then 1 else Real.sin (x i) / x i := by
  unfold sinc
  split
  · rfl
  · rename_i h
    rw [if_neg fun e => h ⟨i, hi, e⟩]

/-- **C84, windowed filters.** The coefficients are those of the definition for every cutoff frequency and window, and symmetric if the window is. -/
theorem C84_window (wc : ℝ) (w : Sig.Vec ℝ) (hb : w.n < 2 ^ 64) :
    (firWindow wc w).n = w.n ∧ (∀ n, n < w.n → (firWindow wc w).f n = lowpass wc ((n : ℝ) - ((w.n : ℝ) - 1) / 2) * w.f n) ∧ (Symmetric w → Symmetric (firWindow wc w)) := by
  have key : ∀ n, n < w.n → (firWindow wc w).f n = lowpass wc ((n : ℝ) - ((w.n : ℝ) - 1) / 2) * w.f n := by
    intro n hn
    have e : ((toIdx ((w.n : ℤ) - 1) : ℕ) : ℝ) = (w.n : ℝ) - 1 := by
      have : toIdx ((w.n : ℤ) - 1) = w.n - 1 := by
        rw [← toIdx_nat (w.n - 1) (by omega)]
        congr 1
        omega
      rw [this, Nat.cast_sub (by omega)]
      simp
    unfold firWindow
    simp only
    rw [dsp_sinc _ _ _ hn, e]
    set t : ℝ := (n : ℝ) - ((w.n : ℝ) - 1) / 2
    unfold lowpass
    have hpi := Real.pi_ne_zero
    by_cases ht : t = 0
    · simp [ht]; ring
    · by_cases hw : wc = 0
      · simp [hw]
      · rw [if_neg (mul_ne_zero hw ht), if_neg ht]
        field_simp
  refine ⟨rfl, key, fun hs n hn => ?_⟩
  have hn : n < w.n := hn
  show (firWindow wc w).f (w.n - 1 - n) = _
  rw [key _ (by omega), key n hn, hs n hn]
  congr 1
  have : ((w.n - 1 - n : ℕ) : ℝ) - ((w.n : ℝ) - 1) / 2 = -((n : ℝ) - ((w.n : ℝ) - 1) / 2) := by
    rw [Nat.cast_sub (by omega), Nat.cast_sub (by omega)]
    push_cast
    ring
  rw [this]
  unfold lowpass
  rw [mul_neg, Real.sin_neg, mul_neg, neg_div_neg_eq]
  simp only [neg_eq_zero]

/-- With `blackman` the coefficients are symmetric, and zero at both ends. -/
theorem C84_blackman (wc : ℝ) (L : ℕ) (hL : 1 < L) (hb : L < 2 ^ 64) :
    ∃ w, Win.blackman L = some w ∧ Symmetric (firWindow wc w) ∧ (firWindow wc w).n = L ∧ (firWindow wc w).f 0 = 0 ∧ (firWindow wc w).f (L - 1) = 0 := by
  obtain ⟨w, h1, h2, -, h3, h4, h5, -⟩ := C66_blackman L hL
  subst h2
  obtain ⟨e, k, s⟩ := C84_window wc w hb
  refine ⟨w, h1, s h3, e, ?_, ?_⟩
  · rw [k 0 (by omega), h4, mul_zero]
  · rw [k _ (by omega), h5, mul_zero]

/-- **C84, linear phase.** A filter with symmetric coefficients delays every frequency by half its length: its response is a real number times that delay. -/
theorem C84_linear_phase (h : Sig.Vec ℝ) (hs : Symmetric h) (w : ℝ) :
    ∃ A : ℝ, response h.n h.f w = A * Complex.exp (-(Complex.I * w * (((h.n : ℝ) - 1) / 2 : ℝ))) := by
  set c : ℝ := ((h.n : ℝ) - 1) / 2 with hc
  set Z : ℂ := ∑ n ∈ range h.n, (h.f n : ℂ) * Complex.exp (Complex.I * ((-(w * ((n : ℝ) - c)) : ℝ) : ℂ)) with hZ
  have hr : (starRingEnd ℂ) Z = Z := by
    conv_rhs => rw [hZ, ← Finset.sum_range_reflect]
    rw [hZ, map_sum]
    refine Finset.sum_congr rfl fun n hn => ?_
    have hn := mem_range.1 hn
    rw [map_mul, Complex.conj_ofReal, ← Complex.exp_conj, map_mul, Complex.conj_I, Complex.conj_ofReal, hs n hn]
    congr 2
    rw [neg_mul, ← mul_neg]
    congr 1
    have : ((h.n - 1 - n : ℕ) : ℝ) = (h.n : ℝ) - 1 - n := by
      rw [Nat.cast_sub (by omega), Nat.cast_sub (by omega)]
      simp
    rw [this, hc]
    push_cast
    ring
  obtain ⟨A, hA⟩ := Complex.conj_eq_iff_real.1 hr
  refine ⟨A, ?_⟩
  rw [← hA, hZ, Finset.sum_mul]
  unfold response
  refine Finset.sum_congr rfl fun n _ => ?_
  rw [mul_assoc (h.f n : ℂ), ← Complex.exp_add]
  congr 2
  push_cast
  ring

/-- **C84, modulation.** The response of the modulated filter is the mean of the responses shifted by `w0` to both sides; modulated by `π`, the response at `w` is that at `w - π`: a low-pass becomes a high-pass. -/
theorem C84_modulate (h : Sig.Vec ℝ) (w0 w : ℝ) :
    response (modulate h w0).n (modulate h w0).f w = (response h.n h.f (w - w0) + response h.n h.f (w + w0)) / 2 ∧
      response (modulate h Real.pi).n (modulate h Real.pi).f w = response h.n h.f (w - Real.pi) := by
  have key : ∀ w0 : ℝ, response (modulate h w0).n (modulate h w0).f w = (response h.n h.f (w - w0) + response h.n h.f (w + w0)) / 2 := by
    intro w0
    unfold response modulate
    simp only
    rw [← Finset.sum_add_distrib, Finset.sum_div]
    refine Finset.sum_congr rfl fun n _ => ?_
    have e1 : Complex.exp (-(Complex.I * ((w - w0 : ℝ) : ℂ) * n)) = Complex.exp (-(Complex.I * w * n)) * Complex.exp (w0 * n * Complex.I) := by
      rw [← Complex.exp_add]; congr 1; push_cast; ring
    have e2 : Complex.exp (-(Complex.I * ((w + w0 : ℝ) : ℂ) * n)) = Complex.exp (-(Complex.I * w * n)) * Complex.exp (-(w0 * n) * Complex.I) := by
      rw [← Complex.exp_add]; congr 1; push_cast; ring
    rw [e1, e2]
    push_cast
    rw [Complex.cos]
    ring
  refine ⟨key w0, ?_⟩
  rw [key]
  have : response h.n h.f (w + Real.pi) = response h.n h.f (w - Real.pi) := by
    unfold response
    refine Finset.sum_congr rfl fun n _ => ?_
    congr 1
    rw [Complex.exp_eq_exp_iff_exists_int]
    exact ⟨-n, by push_cast; ring⟩
  rw [this]
  ring

theorem dsp_padded (b : Sig.Vec ℝ) (N : ℕ) (hb : b.n ≤ N) (k : ℕ) : Dft.dft1 true N (padded b) k = response b.n b.f (2 * Real.pi * k / N) := by
  unfold Dft.dft1 response
  have e : ∀ n, padded b n = if n < b.n then (b.f n : ℂ) else 0 := by
    intro n
    unfold padded
    rw [put_apply 0 1 (by omega)]
    simp [Nat.mod_one]
  obtain ⟨c, rfl⟩ := Nat.exists_eq_add_of_le hb
  rw [Finset.sum_range_add]
  rw [Finset.sum_eq_zero (s := range c), add_zero]
  · refine Finset.sum_congr rfl fun n hn => ?_
    rw [e, if_pos (mem_range.1 hn)]
    congr 1
    unfold Dft.unit
    congr 1
    push_cast
    simp
    ring
  · intro n _
    rw [e, if_neg (by omega), zero_mul]

/-- **C84, partial (frequency response).** Value `k` is the response at the frequency `2 π k / N`: the quotient of those of both sets of coefficients, or that of `b` divided by the constant.
Missing: that the `N` points go from 0 to π (refuted). -/
theorem C84_freqz_partial (b a : Sig.Vec ℝ) (sa : ℝ) (N : ℕ) (hN : 0 < N) (hb : b.n ≤ N) (ha : a.n ≤ N) :
    (∃ H, freqz b a N = some H ∧ ∀ k : ℕ, H k = response b.n b.f (2 * Real.pi * k / N) / response a.n a.f (2 * Real.pi * k / N)) ∧
      ∃ H, freqz1 b sa N = some H ∧ ∀ k : ℕ, H k = response b.n b.f (2 * Real.pi * k / N) / sa := by
  have key : ∀ a : Sig.Vec ℝ, a.n ≤ N → ∃ H, freqz b a N = some H ∧ ∀ k : ℕ, H k = response b.n b.f (2 * Real.pi * k / N) / response a.n a.f (2 * Real.pi * k / N) := by
    intro a ha
    unfold freqz
    rw [if_pos ⟨hb, ha⟩]
    exact ⟨_, rfl, fun k => by rw [dsp_padded b N hb, dsp_padded a N ha]⟩
  refine ⟨key a ha, ?_⟩
  obtain ⟨H, h1, h2⟩ := key ⟨1, fun _ => sa⟩ hN
  refine ⟨H, h1, fun k => ?_⟩
  rw [h2]
  congr 1
  simp [response]

/-- **C84 is false (points of `freqz`).** For the unit delay and two points, the second value is -1, the response at π; by the description (freqz.hpp l.46) it would be that at π/2. -/
theorem C84_freqz_false : ∃ H, freqz1 ⟨2, fun n => if n = 1 then 1 else 0⟩ 1 2 = some H ∧ H 1 = -1 ∧
    response 2 (fun n => if n = 1 then 1 else 0) (Real.pi / 2) ≠ -1 := by
  obtain ⟨-, H, h1, h2⟩ := C84_freqz_partial ⟨2, fun n => if n = 1 then 1 else 0⟩ ⟨1, fun _ => 1⟩ 1 2 (by omega) le_rfl (by show 1 ≤ 2; omega)
  refine ⟨H, h1, ?_, ?_⟩
  · rw [h2]
    simp [response, Finset.sum_range_succ]
    rw [mul_comm Complex.I]
    rw [Complex.exp_neg, Complex.exp_pi_mul_I]
    norm_num
  · simp [response, Finset.sum_range_succ]
    rw [show -(Complex.I * (Real.pi / 2)) = -(Real.pi / 2 * Complex.I) by ring, Complex.exp_neg, Complex.exp_pi_div_two_mul_I]
    intro h
    have := congrArg Complex.re h
    simp at this

/-- **C84, tones.** Filtered by `Fir`, the tone of frequency `w` comes out times the response at `w`, from the value on at which the filter is filled. -/
theorem C84_tone (b : ℕ → ℝ) (L N : ℕ) (hL : 1 < L) (hN : L ≤ N + 1) (w : ℝ) :
    ∃ F, Filt.Fir.make .nonsym true (fun n => (b n : ℂ)) L N 1 = some F ∧ (F.apply .initial fun n => Complex.exp (Complex.I * w * n)).1.length = N ∧
      ∀ n, L ≤ n + 1 → n < N → (F.apply .initial fun n => Complex.exp (Complex.I * w * n)).1.getD n 0 = response L b w * Complex.exp (Complex.I * w * n) := by
  obtain ⟨F, hF⟩ := make_ok (fun n => (b n : ℂ)) L N 1 (by omega) hL hL hN
  have e := fir_initial _ _ _ 1 F hF (fun n => Complex.exp (Complex.I * w * n)) N (fun q => by rw [Nat.mul_one])
  refine ⟨F, hF, by rw [e]; simp, fun n h1 h2 => ?_⟩
  rw [e, getD_map _ _ _ h2]
  unfold decimated response
  rw [Finset.sum_mul]
  refine Finset.sum_congr rfl fun j hj => ?_
  have hj := mem_range.1 hj
  rw [if_pos (by omega), mul_assoc, ← Complex.exp_add, Nat.mul_one]
  show (b j : ℂ) * Complex.exp (Complex.I * w * (n - j : ℕ)) = _
  rw [Nat.cast_sub (by omega)]
  congr 2
  ring

/-! ### The filter class -/

/-- **C84, filtering by transforms.** With the transform of `h` as coefficients the output is the circular convolution with `h`; with all coefficients 1, the input.  If any size differs, the output is left as it was. -/
theorem C84_filter (N : ℕ) (x h : ℕ → ℂ) (out : Sig.Vec ℂ) :
    (out.n = N → ∀ n, n < N → (filterCall N ⟨N, x⟩ ⟨N, Dft.dft1 true N h⟩ out).f n = Hpec.circ N h x n ∧ (filterCall N ⟨N, x⟩ ⟨N, fun _ => 1⟩ out).f n = x n) ∧
      ∀ inn coeff, inn.n ≠ N ∨ coeff.n ≠ N ∨ out.n ≠ N → filterCall N inn coeff out = out := by
  refine ⟨fun ho n hn => ⟨?_, ?_⟩, fun inn coeff hc => ?_⟩
  · unfold filterCall
    rw [if_neg (by simp [ho])]
    exact Hpec.inv_fwd N h x n hn
  · unfold filterCall
    rw [if_neg (by simp [ho])]
    simp only [one_mul]
    have : (N : ℂ) ≠ 0 := Nat.cast_ne_zero.2 (by omega)
    rw [Dft.dft1_inv N x n hn]
    field_simp
  · unfold filterCall
    rw [if_pos]
    rcases hc with h | h | h
    · exact Or.inl (Ne.symm h)
    · exact Or.inr (Or.inl (Ne.symm h))
    · exact Or.inr (Or.inr (Ne.symm h))

/-- the size that the last `reconfigure` of a sequence set -/
def dspSize : Option ℕ → List DynOp → Option ℕ
  | s, [] => s
  | _, .reconfigure n :: l => dspSize (some n) l
  | s, .call .. :: l => dspSize s l

/-- **C84, dynamic filters.** After any operations a call filters with the size last configured; before any configuration it leaves the output as it was. -/
theorem C84_dynamic (s : Option ℕ) (l : List DynOp) (inn coeff out : Sig.Vec ℂ) :
    (dynRun s (l ++ [.call inn coeff out])).2.getLast? = some (some (match dspSize s l with
      | none => out
      | some n => filterCall n inn coeff out)) := by
  have hf : ∀ n, (if n ≠ inn.n ∨ n ≠ coeff.n ∨ n ≠ out.n then out else filterCall n inn coeff out) = filterCall n inn coeff out := by
    intro n
    split
    · rename_i h
      unfold filterCall
      rw [if_pos h]
    · rfl
  induction l generalizing s with
  | nil =>
    cases s with
    | none => rfl
    | some n =>
      simp only [List.nil_append, dynRun, dynStep, dspSize, List.getLast?_singleton]
      rw [hf n]
  | cons op l ih =>
    rw [List.cons_append]
    simp only [dynRun]
    have ne : ∀ s, (dynRun s (l ++ [.call inn coeff out])).2 ≠ [] := by
      intro s
      cases l <;> simp [dynRun]
    rw [List.getLast?_cons_of_ne_nil (ne _)]
    rw [ih]
    cases op <;> rfl

/-! ### The matched filter -/

theorem dsp_refRow_norm (t f : ℕ → ℝ) (ref : ℕ → ℂ) (i n : ℕ) : ‖refRow t f ref i n‖ = ‖ref n‖ := by
  unfold refRow
  rw [norm_mul, mul_comm Complex.I, Complex.norm_exp_ofReal_mul_I, mul_one]

/-- **C84, matched filter.** Row `i` of the output is the circular correlation of the input with the reference shifted by frequency `i`. -/
theorem C84_matched (N : ℕ) (t f : ℕ → ℝ) (ref x : ℕ → ℂ) (i n : ℕ) (hn : n < N) :
    matchedC N t f ref x i n = ∑ m ∈ range N, (starRingEnd ℂ) (x m) * (ref ((m + n) % N) * Complex.exp (Complex.I * ((2 * Real.pi * f i * t ((m + n) % N) : ℝ) : ℂ))) :=
  product_eq N t f ref x _ (fun _ _ => rfl) i n hn

/-- **C84, partial (matched filter for real input).** With an even number of samples the real version gives the same.  Missing: odd numbers, for which it is refuted. -/
theorem C84_real_partial (N : ℕ) (h2 : N % 2 = 0) (h0 : 0 < N) (hb : N < 2 ^ 64) (t f : ℕ → ℝ) (ref : ℕ → ℂ) (x : ℕ → ℝ) :
    ∃ o, matchedR N t f ref x = some o ∧ ∀ i n, n < N → o i n = matchedC N t f ref (fun k => (x k : ℂ)) i n := by
  unfold matchedR
  rw [temp_eq N (by omega) hb]
  have e2 : 2 * (N / 2) = N := by omega
  simp only [Option.bind_eq_bind, Option.bind_some, e2]
  rw [if_pos]
  · refine ⟨_, rfl, fun i n hn => ?_⟩
    have hx := product_eq N t f ref (fun k => (x k : ℂ)) (fun w => ((if w < N / 2 + 1 then some ((starRingEnd ℂ) (Dft.dft1 true N (fun k => (x k : ℂ)) w)) else
      if w < N then some (Dft.dft1 true N (fun k => (x k : ℂ)) (N - w)) else none)).getD 0) (fun w hw => by
        by_cases c : w < N / 2 + 1
        · rw [if_pos c]; rfl
        · rw [if_neg c, if_pos hw]
          have := Dft.dft1_real_herm N x w hw
          rw [← this]
          show _ = Dft.dft1 _ _ _ ((N - w) % N)
          rw [Nat.mod_eq_of_lt (by omega)]
          rfl) i n hn
    have hy := product_eq N t f ref (fun k => (x k : ℂ)) _ (fun _ _ => rfl) i n hn
    exact hx.trans hy.symm
  · intro w hw
    split <;> rfl

/-- **C84 is false (odd numbers of samples, real input).** The last value of the spectrum is never set (with one sample, the bound of the loop wraps and it runs out of the vector). -/
theorem C84_real_false (N : ℕ) (h2 : N % 2 = 1) (hb : N < 2 ^ 64) (t f : ℕ → ℝ) (ref : ℕ → ℂ) (x : ℕ → ℝ) : matchedR N t f ref x = none := by
  rcases Nat.lt_or_ge N 2 with h | h
  · have : N = 1 := by omega
    subst this
    unfold matchedR temp
    rw [if_pos (by omega)]
    have e : toIdx (((1 / 2 : ℕ) : ℤ) - 1) = 2 ^ 64 - 2 + 1 := by decide +kernel
    rw [e, List.range_succ_eq_map]
    simp
  · unfold matchedR
    rw [temp_eq N h hb]
    simp only [Option.bind_eq_bind, Option.bind_some]
    rw [if_neg]
    intro hc
    have := hc (N - 1) (by omega)
    rw [if_neg (by omega), if_neg (by omega)] at this
    cases this

/-- **C84, no greater output.** No output is greater than the energies of input and reference allow; the output for an input that is the reference delayed by `d` (circularly) reaches that bound in the row of
frequency 0 at the place `-d`. -/
theorem C84_bound (N : ℕ) (t f : ℕ → ℝ) (ref x : ℕ → ℂ) (i n : ℕ) (hn : n < N) :
    ‖matchedC N t f ref x i n‖ ^ 2 ≤ energy N x * energy N ref ∧
      ∀ d, d < N → (∀ m, m < N → x m = ref ((m + (N - d)) % N)) → f i = 0 → matchedC N t f ref x i ((N - d) % N) = energy N ref := by
  constructor
  · rw [C84_matched N t f ref x i n hn]
    have h1 := corr_norm_le N x (refRow t f ref i) n
    simp only [dsp_refRow_norm] at h1
    have h2 : ‖corr N x (refRow t f ref i) n‖ ^ 2 ≤ (∑ m ∈ range N, ‖x m‖ * ‖ref ((m + n) % N)‖) ^ 2 := pow_le_pow_left₀ (norm_nonneg _) h1 2
    refine h2.trans ((Finset.sum_mul_sq_le_sq_mul_sq _ _ _).trans (le_of_eq ?_))
    unfold energy
    congr 1
    exact sum_rot N n fun m => ‖ref m‖ ^ 2
  · intro d hd hx hf
    rw [C84_matched N t f ref x i _ (Nat.mod_lt _ (by omega))]
    have e : ∀ m ∈ range N, (starRingEnd ℂ) (x m) * (ref ((m + (N - d) % N) % N) * Complex.exp (Complex.I * ((2 * Real.pi * f i * t ((m + (N - d) % N) % N) : ℝ) : ℂ))) =
        ((‖ref ((m + (N - d)) % N)‖ ^ 2 : ℝ) : ℂ) := by
      intro m hm
      rw [hx m (mem_range.1 hm), hf, Nat.add_mod_mod]
      simp only [mul_zero, zero_mul, Complex.ofReal_zero, Complex.exp_zero, mul_one]
      rw [mul_comm, Complex.mul_conj, Complex.normSq_eq_norm_sq]
    rw [Finset.sum_congr rfl e, ← Complex.ofReal_sum, sum_rot N (N - d) fun m => ‖ref m‖ ^ 2]
    rfl

/-- Input and reference of equal magnitude on `w` samples: the output is greatest in one column only. -/
theorem dsp_strict (N w d : ℕ) (a : ℝ) (ha : 0 < a) (hw : 0 < w) (hwN : w < N) (hdw : d + w ≤ N) (x : ℕ → ℂ) (ref : ℕ → ℂ) (t f : ℕ → ℝ)
    (hr : ∀ m, m < N → ‖ref m‖ = if m < w then a else 0) (hx : ∀ m, m < N → x m = if d ≤ m then ref (m - d) else 0) (i0 : ℕ) (hf : f i0 = 0) (i n : ℕ) (hn : n < N)
    (hne : n ≠ (N - d) % N) : ‖matchedC N t f ref x i n‖ < ‖matchedC N t f ref x i0 ((N - d) % N)‖ := by
  have hxn : ∀ m, m < N → ‖x m‖ = if d ≤ m ∧ m < d + w then a else 0 := by
    intro m hm
    rw [hx m hm]
    by_cases c : d ≤ m
    · rw [if_pos c, hr _ (by omega)]
      by_cases c2 : m - d < w
      · rw [if_pos c2, if_pos ⟨c, by omega⟩]
      · rw [if_neg c2, if_neg (by omega)]
    · rw [if_neg c, if_neg (by omega), norm_zero]
  -- the value in the column of the delay
  have hpeak : ‖matchedC N t f ref x i0 ((N - d) % N)‖ = ∑ m ∈ range N, if d ≤ m ∧ m < d + w then a * a else 0 := by
    have hcirc : ∀ m, m < N → x m = ref ((m + (N - d)) % N) := by
      intro m hm
      rw [hx m hm]
      by_cases c : d ≤ m
      · rw [if_pos c, show m + (N - d) = m - d + N by omega, Nat.add_mod_right, Nat.mod_eq_of_lt (by omega)]
      · rw [if_neg c, Nat.mod_eq_of_lt (by omega)]
        have := hr (m + (N - d)) (by omega)
        rw [if_neg (by omega)] at this
        exact (norm_eq_zero.1 this).symm
    rw [(C84_bound N t f ref x i0 n hn).2 d (by omega) hcirc hf, Complex.norm_real, Real.norm_eq_abs]
    have : energy N ref = ∑ m ∈ range N, if d ≤ m ∧ m < d + w then a * a else 0 := by
      unfold energy
      rw [← sum_rot N (N - d) fun m => ‖ref m‖ ^ 2]
      refine Finset.sum_congr rfl fun m hm => ?_
      rw [← hcirc m (mem_range.1 hm), hxn m (mem_range.1 hm)]
      split <;> ring
    rw [this]
    exact abs_of_nonneg (Finset.sum_nonneg fun m _ => by split <;> positivity)
  rw [hpeak]
  have h1 := corr_norm_le N x (refRow t f ref i) n
  simp only [dsp_refRow_norm] at h1
  rw [C84_matched N t f ref x i n hn]
  refine lt_of_le_of_lt h1 ?_
  have hN : 0 < N := by omega
  -- one sample of the reference outside of the shifted one
  have hp : ∃ p, p < w ∧ w ≤ (d + p + n) % N := by
    have hs : (d + n) % N ≠ 0 := by
      intro h0
      rcases Nat.eq_zero_or_pos d with hd | hd
      · subst hd
        rw [Nat.zero_add, Nat.mod_eq_of_lt hn] at h0
        rw [Nat.sub_zero, Nat.mod_self] at hne
        exact hne h0
      · rw [Nat.mod_eq_of_lt (show N - d < N by omega)] at hne
        rcases Nat.lt_or_ge (d + n) N with h | h
        · rw [Nat.mod_eq_of_lt h] at h0; omega
        · rw [Nat.mod_eq_sub_mod h, Nat.mod_eq_of_lt (by omega)] at h0; omega
    have hsl := Nat.mod_lt (d + n) hN
    by_cases c : w ≤ (d + n) % N
    · exact ⟨0, hw, by rw [Nat.add_zero]; exact c⟩
    · refine ⟨w - (d + n) % N, by omega, ?_⟩
      have : (d + (w - (d + n) % N) + n) % N = w := by
        rw [show d + (w - (d + n) % N) + n = (w - (d + n) % N) + (d + n) by omega, ← Nat.add_mod_mod, show w - (d + n) % N + (d + n) % N = w by omega, Nat.mod_eq_of_lt hwN]
      omega
  obtain ⟨p, hp1, hp2⟩ := hp
  refine Finset.sum_lt_sum (fun m hm => ?_) ⟨d + p, mem_range.2 (by omega), ?_⟩
  · rw [hxn m (mem_range.1 hm), hr _ (Nat.mod_lt _ hN)]
    split
    · split
      · exact le_rfl
      · rw [mul_zero]; positivity
    · rw [zero_mul]
  · rw [hxn (d + p) (by omega), hr _ (Nat.mod_lt _ hN), if_pos (by omega), if_neg (by omega), if_pos (by omega), mul_zero]
    positivity

theorem dsp_gate (Tmax duration : ℝ) (N d : ℕ) (hN : 0 < N) (hT : 0 < Tmax) (i : ℕ) :
    (times Tmax N i < duration + d * (Tmax / N) ∧ times Tmax N i ≥ d * (Tmax / N)) ↔ d ≤ i ∧ i - d < ⌈duration / (Tmax / N)⌉₊ := by
  have hN' : (0 : ℝ) < N := by exact_mod_cast hN
  have hdt : 0 < Tmax / N := by positivity
  unfold times
  rw [zero_add]
  constructor
  · rintro ⟨h1, h2⟩
    have hle : d ≤ i := by
      have := le_of_mul_le_mul_right h2 hdt
      exact_mod_cast this
    refine ⟨hle, ?_⟩
    rw [Nat.lt_ceil, lt_div_iff₀ hdt, Nat.cast_sub hle]
    linarith
  · rintro ⟨h1, h2⟩
    rw [Nat.lt_ceil, lt_div_iff₀ hdt, Nat.cast_sub h1] at h2
    refine ⟨by linarith, ?_⟩
    exact mul_le_mul_of_nonneg_right (by exact_mod_cast h1) hdt.le

/-- what the estimate is for a delay of `d` samples -/
theorem dsp_estimate (N Nf d w : ℕ) (hN : N % 2 = 0) (hb : N < 2 ^ 64) (hw : 0 < w) (hwN : w < N) (hdw : d + w ≤ N) (Fmax : ℝ) (hf2 : Nf % 2 = 0) (hf0 : 0 < Nf)
    (a : ℝ) (ha : 0 < a) (t : ℕ → ℝ) (ref x : ℕ → ℂ) (hr : ∀ m, m < N → ‖ref m‖ = if m < w then a else 0) (hx : ∀ m, m < N → x m = if d ≤ m then ref (m - d) else 0)
    (out : ℕ → ℕ → ℂ) (ho : ∀ i n, n < N → out i n = matchedC N t (freqs Fmax Nf) ref x i n) :
    estimate Nf N out = some (if d ≤ N / 2 then d else 2 ^ 64 - (N - d)) := by
  have hfz : freqs Fmax Nf (Nf / 2) = 0 := by
    unfold freqs
    have : ((Nf / 2 : ℕ) : ℝ) = (Nf : ℝ) / 2 := by
      rw [Nat.cast_div (by omega) (by norm_num)]
      norm_num
    rw [this]
    have : (Nf : ℝ) ≠ 0 := by exact_mod_cast (by omega : Nf ≠ 0)
    field_simp
    ring
  obtain ⟨H, rfl⟩ : ∃ H, N = 2 * H := ⟨N / 2, by omega⟩
  have hn0 : (2 * H - d) % (2 * H) < 2 * H := Nat.mod_lt _ (by omega)
  rw [estimate_peak Nf H (by omega) out (Nf / 2) ((2 * H - d) % (2 * H)) (by omega) hn0 (fun r _ n hn hne => by
    rw [ho r n hn, ho _ _ hn0]
    exact dsp_strict (2 * H) w d a ha hw hwN hdw x ref t _ hr hx (Nf / 2) hfz r n hn hne)]
  congr 1
  have h2 : 2 * H / 2 = H := by omega
  rw [h2]
  rcases Nat.eq_zero_or_pos d with hd | hd
  · subst hd
    rw [Nat.sub_zero, Nat.mod_self, if_pos (by omega), if_pos (by omega)]
    unfold toIdx
    omega
  · rw [Nat.mod_eq_of_lt (by omega)]
    unfold toIdx
    by_cases c : d ≤ H
    · rw [if_neg (by omega), if_pos c]
      omega
    · rw [if_pos (by omega), if_neg c]
      omega

theorem dsp_chirp (N d : ℕ) (Tmax rate duration : ℝ) (hN : 0 < N) (hT : 0 < Tmax) :
    (∀ m, m < N → ‖chirp rate duration (times Tmax N) 0 m‖ = if m < ⌈duration / (Tmax / N)⌉₊ then 1 else 0) ∧
      ∀ m, m < N → chirp rate duration (times Tmax N) (d * (Tmax / N)) m = if d ≤ m then chirp rate duration (times Tmax N) 0 (m - d) else 0 := by
  have g0 : ∀ m, (times Tmax N m < duration + 0 ∧ times Tmax N m ≥ 0) ↔ m < ⌈duration / (Tmax / N)⌉₊ := by
    intro m
    have := dsp_gate Tmax duration N 0 hN hT m
    simpa using this
  constructor
  · intro m _
    unfold chirp
    rw [norm_mul, mul_comm Complex.I, Complex.norm_exp_ofReal_mul_I, mul_one]
    by_cases c : m < ⌈duration / (Tmax / N)⌉₊
    · rw [if_pos ((g0 m).2 c), if_pos c, norm_one]
    · rw [if_neg fun h => c ((g0 m).1 h), if_neg c, norm_zero]
  · intro m _
    unfold chirp
    have g := dsp_gate Tmax duration N d hN hT m
    by_cases c : d ≤ m
    · rw [if_pos c]
      have e : times Tmax N m - d * (Tmax / N) = times Tmax N (m - d) - 0 := by
        unfold times
        rw [Nat.cast_sub c]
        ring
      rw [e]
      congr 1
      by_cases c2 : m - d < ⌈duration / (Tmax / N)⌉₊
      · rw [if_pos (g.2 ⟨c, c2⟩), if_pos ((g0 _).2 c2)]
      · rw [if_neg fun h => c2 (g.1 h).2, if_neg fun h => c2 ((g0 _).1 h)]
    · rw [if_neg c, if_neg fun h => c (g.1 h).1, zero_mul]

theorem dsp_pulse (N d : ℕ) (Tmax amplitude duration : ℝ) (hN : 0 < N) (hT : 0 < Tmax) :
    (∀ m, m < N → ‖(pulse amplitude duration (times Tmax N) 0 m : ℂ)‖ = if m < ⌈duration / (Tmax / N)⌉₊ then |amplitude| else 0) ∧
      ∀ m, m < N → (pulse amplitude duration (times Tmax N) (d * (Tmax / N)) m : ℂ) = if d ≤ m then (pulse amplitude duration (times Tmax N) 0 (m - d) : ℂ) else 0 := by
  have g0 : ∀ m, (times Tmax N m < duration + 0 ∧ times Tmax N m ≥ 0) ↔ m < ⌈duration / (Tmax / N)⌉₊ := by
    intro m
    have := dsp_gate Tmax duration N 0 hN hT m
    simpa using this
  constructor
  · intro m _
    unfold pulse
    rw [Complex.norm_real, Real.norm_eq_abs]
    by_cases c : m < ⌈duration / (Tmax / N)⌉₊
    · rw [if_pos ((g0 m).2 c), if_pos c]
    · rw [if_neg fun h => c ((g0 m).1 h), if_neg c, abs_zero]
  · intro m _
    unfold pulse
    have g := dsp_gate Tmax duration N d hN hT m
    by_cases c : d ≤ m
    · rw [if_pos c]
      by_cases c2 : m - d < ⌈duration / (Tmax / N)⌉₊
      · rw [if_pos (g.2 ⟨c, c2⟩), if_pos ((g0 _).2 c2)]
      · rw [if_neg fun h => c2 (g.1 h).2, if_neg fun h => c2 ((g0 _).1 h)]
    · rw [if_neg c, if_neg fun h => c (g.1 h).1, Complex.ofReal_zero]

/-- the hypotheses of the simulation: even numbers of samples and frequencies, a signal of more than no and fewer than all samples, that fits after a delay of `d` samples -/
structure Scene (N Nf d : ℕ) (Tmax duration : ℝ) : Prop where
  even : N % 2 = 0
  small : N < 2 ^ 64
  evenF : Nf % 2 = 0
  posF : 0 < Nf
  posT : 0 < Tmax
  pos : 0 < duration
  part : ⌈duration / (Tmax / N)⌉₊ < N
  fits : d + ⌈duration / (Tmax / N)⌉₊ ≤ N

theorem dsp_simulate (N Nf d : ℕ) (Tmax Fmax rate amplitude duration : ℝ) (s : Scene N Nf d Tmax duration) (ha : amplitude ≠ 0) :
    simulateChirp N Nf Tmax Fmax (d * (Tmax / N)) rate duration = some (if d ≤ N / 2 then d else 2 ^ 64 - (N - d)) ∧
      simulatePulse N Nf Tmax Fmax (d * (Tmax / N)) amplitude duration = some (if d ≤ N / 2 then d else 2 ^ 64 - (N - d)) := by
  have hN : 0 < N := by have := s.part; omega
  have hN' : (0 : ℝ) < N := by exact_mod_cast hN
  have hw : 0 < ⌈duration / (Tmax / N)⌉₊ := by
    rw [Nat.ceil_pos]
    have := s.pos
    have := s.posT
    positivity
  constructor
  · obtain ⟨h1, h2⟩ := dsp_chirp N d Tmax rate duration hN s.posT
    exact dsp_estimate N Nf d _ s.even s.small hw s.part s.fits Fmax s.evenF s.posF 1 one_pos _ _ _ h1 h2 _ (fun _ _ _ => rfl)
  · obtain ⟨h1, h2⟩ := dsp_pulse N d Tmax amplitude duration hN s.posT
    obtain ⟨o, e, ho⟩ := C84_real_partial N s.even hN s.small (times Tmax N) (freqs Fmax Nf) (fun n => (pulse amplitude duration (times Tmax N) 0 n : ℂ))
      (pulse amplitude duration (times Tmax N) (d * (Tmax / N)))
    unfold simulatePulse
    simp only [e, Option.bind_eq_bind, Option.bind_some]
    exact dsp_estimate N Nf d _ s.even s.small hw s.part s.fits Fmax s.evenF s.posF |amplitude| (abs_pos.2 ha) _ _ _ h1 h2 _ ho

/-- **C84, partial (estimated delay).** Whatever the rate of the chirp and the amplitude of the pulse, a delay of `d` samples is found exactly if it is at most half of the time.
Missing: greater delays and odd numbers of samples, for which it is refuted; delays that are no whole number of samples; odd numbers of frequencies, which do not contain frequency 0. -/
theorem C84_delay_partial (N Nf d : ℕ) (Tmax Fmax rate amplitude duration : ℝ) (s : Scene N Nf d Tmax duration) (ha : amplitude ≠ 0) (hd : d ≤ N / 2) :
    simulateChirp N Nf Tmax Fmax (d * (Tmax / N)) rate duration = some d ∧ simulatePulse N Nf Tmax Fmax (d * (Tmax / N)) amplitude duration = some d := by
  have := dsp_simulate N Nf d Tmax Fmax rate amplitude duration s ha
  rwa [if_pos hd] at this

/-- **C84 is false (delays of more than half of the time).** The difference is unsigned: a delay of `d` samples is estimated as 2^64 - (N - d) samples. -/
theorem C84_delay_false (N Nf d : ℕ) (Tmax Fmax rate amplitude duration : ℝ) (s : Scene N Nf d Tmax duration) (ha : amplitude ≠ 0) (hd : N / 2 < d) :
    simulateChirp N Nf Tmax Fmax (d * (Tmax / N)) rate duration = some (2 ^ 64 - (N - d)) ∧
      simulatePulse N Nf Tmax Fmax (d * (Tmax / N)) amplitude duration = some (2 ^ 64 - (N - d)) := by
  have := dsp_simulate N Nf d Tmax Fmax rate amplitude duration s ha
  rwa [if_neg (by omega)] at this

/-- The numbers of the program (l.333-337 and 246-248): 2.19 seconds are 219 samples; 7 seconds would be refuted. -/
theorem dsp_scene (d : ℕ) (h : d ≤ 900) : Scene 1000 100 d 10 1 := by
  have e : ⌈(1 : ℝ) / (10 / (1000 : ℕ))⌉₊ = 100 := by
    rw [show (1 : ℝ) / (10 / (1000 : ℕ)) = (100 : ℕ) by norm_num, Nat.ceil_natCast]
  exact ⟨by norm_num, by norm_num, by norm_num, by norm_num, by norm_num, by norm_num, by rw [e]; norm_num, by rw [e]; omega⟩

example : simulateChirp 1000 100 10 50 ((219 : ℕ) * (10 / (1000 : ℕ))) (-10) 1 = some 219 :=
  (C84_delay_partial 1000 100 219 10 50 (-10) 1 1 (dsp_scene 219 (by omega)) one_ne_zero (by omega)).1

example : simulatePulse 1000 100 10 50 ((700 : ℕ) * (10 / (1000 : ℕ))) 1 1 = some 18446744073709551316 :=
  (C84_delay_false 1000 100 700 10 50 (-10) 1 1 (dsp_scene 700 (by omega)) one_ne_zero (by omega)).2

/-- **C84 is false (odd numbers of samples).** The last column of the magnitudes is never set. -/
theorem C84_columns_false (Nf N : ℕ) (h2 : N % 2 = 1) (out : ℕ → ℕ → ℂ) : estimate Nf N out = none := by
  unfold estimate
  simp only
  rw [if_neg]
  intro hc
  have := hc (N - 1) (by omega)
  rw [swapped_eq, if_neg (by omega), if_neg (by omega)] at this
  cases this

end Verif.Props
