import Verif.TestRef.Model
import Verif.Signal.Props
import Verif.Dft.Spec
import Mathlib.Tactic.Linarith
import Mathlib.Tactic.Ring
import Mathlib.Tactic.FieldSimp
import Mathlib.Tactic.Positivity
import Mathlib.Tactic.NormNum

/-! # C96: the reference functions the tests compare with -/

namespace Verif.Props
open Verif Sig TRef Finset

/-! ## Products -/

theorem tr_foldl {T : Type} [AddCommMonoid T] (n : ℕ) (t : ℕ → T) (s : T) :
    (List.range n).foldl (fun sum i => sum + t i) s = s + ∑ i ∈ range n, t i := by
  induction n with
  | zero => simp
  | succ n ih => rw [List.range_succ, List.foldl_append, ih, sum_range_succ]; simp [add_assoc]

theorem tr_dot {T : Type} [Semiring T] (n : ℕ) (u v : ℕ → T) : TRef.dot n u v = ∑ i ∈ range n, u i * v i := by
  unfold TRef.dot
  rw [tr_foldl, zero_add]

theorem tr_dot_congr {T : Type} [Semiring T] {n : ℕ} {u v v' : ℕ → T} (h : ∀ k < n, v k = v' k) :
    TRef.dot n u v = TRef.dot n u v' := by
  rw [tr_dot, tr_dot]
  exact sum_congr rfl fun k hk => by rw [h k (mem_range.1 hk)]

/-- **C96 (products).** The reference products are the sums of products of rows and columns, whenever the sizes agree; otherwise an
assertion fails. -/
theorem C96_products {T : Type} [Semiring T] (a b : Mat T) (u : Vec T) :
    (a.cols = b.rows → ∃ r, prodMM a b = some r ∧ r.rows = a.rows ∧ r.cols = b.cols ∧
      ∀ i j, r.f i j = ∑ k ∈ range a.cols, a.f i k * b.f k j) ∧
    (a.cols = u.n → ∃ r, prodMV a u = some r ∧ r.n = a.rows ∧ ∀ i, r.f i = ∑ k ∈ range a.cols, a.f i k * u.f k) ∧
    (u.n = b.rows → ∃ r, prodVM u b = some r ∧ r.n = b.cols ∧ ∀ j, r.f j = ∑ k ∈ range u.n, u.f k * b.f k j) ∧
    (a.cols ≠ b.rows → prodMM a b = none) ∧ (a.cols ≠ u.n → prodMV a u = none) ∧ (u.n ≠ b.rows → prodVM u b = none) := by
  have key : ∀ n : ℕ, ∃ r, (List.range n).foldl (fun (r : Mat T) k =>
      (⟨r.rows, r.cols, fun i j => r.f i j + (vvProd ⟨a.rows, fun i => a.f i k⟩ ⟨b.cols, fun j => b.f k j⟩).f i j⟩ : Mat T))
      ⟨a.rows, b.cols, fun _ _ => 0⟩ = r ∧ r.rows = a.rows ∧ r.cols = b.cols ∧
      ∀ i j, r.f i j = ∑ k ∈ range n, a.f i k * b.f k j := by
    intro n
    induction n with
    | zero => exact ⟨_, rfl, rfl, rfl, by simp⟩
    | succ n ih =>
      obtain ⟨r, h1, h2, h3, h4⟩ := ih
      refine ⟨_, rfl, ?_, ?_, ?_⟩ <;> rw [List.range_succ, List.foldl_append, h1]
      · exact h2
      · exact h3
      · intro i j
        simp only [List.foldl_cons, List.foldl_nil, vvProd]
        rw [h4, sum_range_succ]
  refine ⟨fun h => ?_, fun h => ?_, fun h => ?_, fun h => ?_, fun h => ?_, fun h => ?_⟩
  · obtain ⟨r, h1, h2⟩ := key a.cols
    exact ⟨r, by rw [prodMM, if_pos h, h1], h2⟩
  · exact ⟨_, by rw [prodMV, if_pos h], rfl, fun i => tr_dot _ _ _⟩
  · exact ⟨_, by rw [prodVM, if_pos h], rfl, fun j => tr_dot _ _ _⟩
  · rw [prodMM, if_neg h]
  · rw [prodMV, if_neg h]
  · rw [prodVM, if_neg h]
example : ((prodMM (⟨2, 2, fun i j => i + 2 * j + 1⟩ : Mat ℕ) ⟨2, 1, fun i _ => i + 5⟩).map fun r => [r.f 0 0, r.f 1 0]) =
    some [23, 34] := by decide

/-- **C96, partial (outer products).** The reference outer product conjugates the second vector if both are complex. Missing: a real and
a complex vector, see `C96_outer_false`. -/
theorem C96_outer_partial {T : Type} [Mul T] (conj : T → T) (uc vc : Bool) (u v : Vec T)
    (h : uc = true ∧ vc = true ∨ ∀ j < v.n, conj (v.f j) = v.f j) (i j : ℕ) (hj : j < v.n) :
    (TRef.outer conj uc vc u v).f i j = u.f i * conj (v.f j) := by
  unfold TRef.outer
  rcases h with ⟨rfl, rfl⟩ | h
  · rfl
  · simp only [h j hj]
    split <;> rfl
example : (TRef.outer (fun z : ℤ => -z) true true ⟨1, fun _ => 2⟩ ⟨1, fun _ => 3⟩).f 0 0 = -6 := by decide

/-- **C96 is false (outer products of a real and a complex vector).** The reference conjugates nothing then; the library makes the same
mistake (`C50_outer_false`), so that a comparison of the two finds no difference. -/
theorem C96_outer_false : (∀ {T : Type} [Mul T] (conj : T → T) (vc : Bool) (u v : Vec T) (i j : ℕ),
      (TRef.outer conj false vc u v).f i j = u.f i * v.f j) ∧
    ¬ ∀ (conj : ℤ → ℤ) (u v : Vec ℤ) (i j : ℕ), (TRef.outer conj false true u v).f i j = u.f i * conj (v.f j) := by
  refine ⟨fun _ _ _ _ _ _ => rfl, fun h => ?_⟩
  exact absurd (h (fun z => -z) ⟨1, fun _ => 2⟩ ⟨1, fun _ => 3⟩ 0 0) (by decide)

/-! ## Convolution -/

/-- **C96 (kernels of convolutions).** The kernel of the reference is the expansion of the coefficients. -/
theorem C96_kernel {T : Type} [Zero T] (s : Symm) (c : Vec T) (h : 1 ≤ c.n) : IsKernel s c (kernelFromCoeff s c) := by
  have e : kernelFromCoeff s c = convKernel1 s c := by cases s <;> rfl
  rw [e]
  exact (C41_kernel s c h).1
example : (List.range 4).map (kernelFromCoeff .evenLenEven (⟨2, fun i => i + 1⟩ : Vec ℕ)).f = [1, 2, 2, 1] := by decide

/-- **C96 (sizes of convolutions).** The size the reference asserts is the number of outputs. -/
theorem C96_conv_size (supp : Supp) {M N D : ℕ} (hM : 1 ≤ M) (hN : 1 ≤ N) (hD : 1 ≤ D) (hmin : supp = .min → M ≤ N)
    (hs : N + M < 9223372036854775808) (n : ℕ) : n < convOutputSize supp M N D ↔ n * D < extent supp M N := by
  rw [← C41_size supp hM hN hD hmin hs n]
  have : convOutputSize supp M N D = outputSize supp M N D := by
    cases supp <;> simp only [convOutputSize, outputSize] <;> norm_num
  rw [this]
example : convOutputSize .min 3 10 3 = 3 ∧ convOutputSize .full 3 10 3 = 4 ∧ convOutputSize .same 3 10 3 = 4 := by decide

theorem tr_convSub {T : Type} [Zero T] (inp : Vec T) (M pos : ℕ) (hMN : M ≤ inp.n + 1) (hp : pos < inp.n + M - 1) (hN : 1 ≤ inp.n) :
    ∃ sub, convSub inp M pos = some sub ∧ ∀ k < M, sub k = zext inp ((pos : ℤ) - k) := by
  unfold convSub zext
  by_cases h1 : pos + 1 < M
  · rw [if_pos h1, if_pos (by omega)]
    refine ⟨_, rfl, fun k hk => ?_⟩
    by_cases h2 : k < pos + 1
    · rw [if_pos h2, if_pos (by omega)]
      congr 1; omega
    · rw [if_neg h2, if_neg (by omega)]
  · rw [if_neg h1]
    by_cases h2 : pos ≥ inp.n
    · rw [if_pos h2, if_pos (by omega)]
      refine ⟨_, rfl, fun k hk => ?_⟩
      by_cases h3 : pos - inp.n + 1 ≤ k
      · rw [if_pos h3, if_pos (by omega)]
        congr 1; omega
      · rw [if_neg h3, if_neg (by omega)]
    · rw [if_neg h2]
      refine ⟨_, rfl, fun k hk => ?_⟩
      rw [if_pos (by omega)]
      congr 1; omega

/-- **C96, partial (convolution).** For kernels of at most one element more than the input, the reference is the decimated convolution
sum. Missing: longer kernels, see `C96_conv_false`. -/
theorem C96_conv_partial {T : Type} [Semiring T] (s : Symm) (supp : Supp) (coeff inp K : Vec T) (D i : ℕ) (hc : 1 ≤ coeff.n)
    (hK : IsKernel s coeff K) (hN : 1 ≤ inp.n) (hMN : K.n ≤ inp.n + 1) (hi : i * D < extent supp K.n inp.n) :
    TRef.conv s supp coeff inp D i = some (∑ k ∈ range K.n, K.f k * zext inp ((i : ℤ) * D + offset supp K.n - k)) := by
  obtain ⟨eK, fK⟩ := isKernel_unique hc hK (C96_kernel s coeff hc)
  have hM : 1 ≤ K.n := by rw [hK.size]; cases s <;> simp only <;> omega
  have ho : ((i * D + convShift supp K.n : ℕ) : ℤ) = (i : ℤ) * D + offset supp K.n := by
    push_cast
    congr 1
    cases supp <;> simp only [convShift, offset] <;> omega
  have hp : i * D + convShift supp K.n < inp.n + K.n - 1 := by
    generalize i * D = q at *
    cases supp <;> simp only [convShift, extent] at * <;> omega
  obtain ⟨sub, h1, h2⟩ := tr_convSub inp K.n (i * D + convShift supp K.n) hMN hp hN
  unfold TRef.conv
  rw [← eK, h1, Option.bind_some, tr_dot]
  congr 1
  refine sum_congr rfl fun k hk => ?_
  rw [← fK k (mem_range.1 hk), h2 k (mem_range.1 hk), ho]
example : TRef.conv .nonsym .full (⟨2, fun i => i + 1⟩ : Vec ℕ) ⟨3, fun i => i + 5⟩ 2 1 = some (7 + 12) ∧
    IsKernel .nonsym (⟨2, fun i => i + 1⟩ : Vec ℕ) ⟨2, fun i => i + 1⟩ ∧ 1 * 2 < extent .full 2 3 :=
  ⟨by decide, C41_kernel .nonsym _ (by decide) |>.1, by decide⟩

/-- **C96 (convolutions agree).** Where the reference is defined for the sizes, the library computes the same outputs. -/
theorem C96_conv_library {T : Type} [Semiring T] (s : Symm) (supp : Supp) (coeff inp : Vec T) (D i : ℕ) (hc : 1 ≤ coeff.n)
    (hN : 1 ≤ inp.n) (hMN : (kernelFromCoeff s coeff).n ≤ inp.n + 1)
    (hi : i * D < extent supp (kernelFromCoeff s coeff).n inp.n) :
    (convolve1 s supp coeff inp D).2 i = TRef.conv s supp coeff inp D i := by
  have hK := C96_kernel s coeff hc
  rw [C96_conv_partial s supp coeff inp _ D i hc hK hN hMN hi, C41_values s supp coeff inp _ D i hc hK hi]
example : (1 : ℕ) * 1 < extent .full (kernelFromCoeff .evenLenOdd (⟨2, fun i => i + 1⟩ : Vec ℕ)).n 2 := by decide

/-- **C96 is false (convolutions with long kernels).** With full support, if the kernel has at least two elements more than the input,
the output after the length of the input makes the reference read outside the input. The library accepts such kernels and computes
a value. -/
theorem C96_conv_false : (∀ {T : Type} [Semiring T] (s : Symm) (coeff inp : Vec T), inp.n + 2 ≤ (kernelFromCoeff s coeff).n →
      TRef.conv s .full coeff inp 1 inp.n = none) ∧
    convOk .evenLenOdd 2 1 1 ∧ (convolve1 .evenLenOdd .full (⟨2, fun i => i + 1⟩ : Vec ℕ) ⟨1, fun _ => 3⟩ 1).2 1 = some 6 ∧
    TRef.conv .evenLenOdd .full (⟨2, fun i => i + 1⟩ : Vec ℕ) ⟨1, fun _ => 3⟩ 1 1 = none := by
  refine ⟨?_, ⟨by decide, by decide⟩, by decide, by decide⟩
  intro T _ s coeff inp h
  unfold TRef.conv convSub convShift
  simp only [Nat.mul_one, Nat.add_zero]
  rw [if_pos (by omega), if_neg (by omega)]
  rfl

/-! ## Correlation -/

/-- **C96 (sizes of correlations).** The size the reference asserts is the number of outputs. -/
theorem C96_corr_size (supp : Supp) {M N : ℕ} (hMN : M ≤ N) : corrOutputSize supp M N = extent supp M N := by
  cases supp <;> simp only [corrOutputSize, extent] <;> omega
example : corrOutputSize .min 3 10 = 8 := by decide

theorem tr_shift (supp : Supp) (M : ℕ) : corrShift supp M = -lag supp M := by
  cases supp <;> simp [corrShift, lag]

theorem tr_corrDom (supp : Supp) {M N i : ℕ} (hM : 1 ≤ M) (hMN : M ≤ N) (hi : i < extent supp M N) :
    ∃ d, corrDom M N (i + corrShift supp M) = some d ∧ d.2.2 = (overlap supp M N i).card ∧
      (∀ k, k < M → (d.1 ≤ k ∧ k < d.1 + d.2.2 ↔ k ∈ overlap supp M N i)) ∧
      ∀ k, d.1 ≤ k → d.2.1 + (k - d.1) = ((i : ℤ) + k - lag supp M).toNat := by
  have hl : ∃ sh : ℕ, lag supp M = sh ∧ sh ≤ M - 1 ∧ i + 1 ≤ N + sh := by
    cases supp <;> simp only [extent] at hi
    · exact ⟨M - 1, by simp only [lag]; omega, by omega, by omega⟩
    · exact ⟨M / 2, rfl, by omega, by omega⟩
    · exact ⟨0, rfl, by omega, by omega⟩
  obtain ⟨sh, h1, h2, h3⟩ := hl
  rw [tr_shift, h1, overlap_card supp M N i sh h1]
  unfold corrDom
  by_cases c1 : (i : ℤ) + -(sh : ℤ) < 0
  · rw [if_pos c1, if_pos (by omega)]
    refine ⟨_, rfl, by simp only; omega, fun k hk => ?_, fun k hk => by simp only at hk ⊢; omega⟩
    simp only [overlap, mem_filter, mem_range, h1]
    omega
  · rw [if_neg c1]
    by_cases c2 : (i : ℤ) + -(sh : ℤ) + M > N
    · rw [if_pos c2, if_pos (by omega)]
      refine ⟨_, rfl, by simp only; omega, fun k hk => ?_, fun k hk => by simp only at hk ⊢; omega⟩
      simp only [overlap, mem_filter, mem_range, h1]
      omega
    · rw [if_neg c2]
      refine ⟨_, rfl, by simp only; omega, fun k hk => ?_, fun k hk => by simp only at hk ⊢; omega⟩
      simp only [overlap, mem_filter, mem_range, h1]
      omega

theorem tr_sum {T : Type} [Field T] (conj : T → T) (h0 : conj 0 = 0) (supp : Supp) (ref inp : Vec T) (i : ℕ) (d : ℕ × ℕ × ℕ)
    (h1 : ∀ k, k < ref.n → (d.1 ≤ k ∧ k < d.1 + d.2.2 ↔ k ∈ overlap supp ref.n inp.n i))
    (h2 : ∀ k, d.1 ≤ k → d.2.1 + (k - d.1) = ((i : ℤ) + k - lag supp ref.n).toNat) :
    TRef.dot ref.n ref.f (fun k => conj (window d inp.f k)) =
      ∑ k ∈ overlap supp ref.n inp.n i, ref.f k * conj (inp.f ((i : ℤ) + k - lag supp ref.n).toNat) := by
  rw [tr_dot]
  have hsub : overlap supp ref.n inp.n i ⊆ range ref.n := filter_subset _ _
  rw [← sum_subset hsub (f := fun k => ref.f k * conj (window d inp.f k))]
  · refine sum_congr rfl fun k hk => ?_
    have hk' := (h1 k (mem_range.1 (hsub hk))).2 hk
    rw [window, if_pos hk', h2 k hk'.1]
  · intro k hk hn
    have : ¬ (d.1 ≤ k ∧ k < d.1 + d.2.2) := fun h => hn ((h1 k (mem_range.1 hk)).1 h)
    rw [window, if_neg this, h0, mul_zero]

/-- **C96 (correlation).** For references not longer than the input, the reference function gives the sums over the overlap and, without
bias, divides them by the number of products, except with same support and a reference of even size near the end. -/
theorem C96_corr {T : Type} [Field T] (conj : T → T) (h0 : conj 0 = 0) (supp : Supp) (ref inp : Vec T) (i : ℕ) (hM : 1 ≤ ref.n)
    (hMN : ref.n ≤ inp.n) (hi : i < extent supp ref.n inp.n) :
    TRef.corr conj supp false ref inp i =
      some (∑ k ∈ overlap supp ref.n inp.n i, ref.f k * conj (inp.f ((i : ℤ) + k - lag supp ref.n).toNat)) ∧
    ((supp = .same → ref.n % 2 = 1 ∨ i < inp.n - ref.n / 2) → TRef.corr conj supp true ref inp i =
      some ((∑ k ∈ overlap supp ref.n inp.n i, ref.f k * conj (inp.f ((i : ℤ) + k - lag supp ref.n).toNat)) /
        ((overlap supp ref.n inp.n i).card : T))) := by
  obtain ⟨d, h1, h2, h3, h4⟩ := tr_corrDom supp hM hMN hi
  unfold TRef.corr
  rw [h1]
  simp only [Option.bind_some, tr_sum conj h0 supp ref inp i d h3 h4]
  refine ⟨rfl, fun hs => ?_⟩
  simp only [if_true]
  congr 3
  unfold corrScale
  by_cases hsm : supp = .same
  · rw [if_pos hsm]
    have hs' := hs hsm
    subst hsm
    rw [overlap_card .same ref.n inp.n i (ref.n / 2) rfl]
    simp only [extent] at hi
    split
    · omega
    · split <;> omega
  · rw [if_neg hsm, h2]
example : (2 : ℕ) ≤ 3 ∧ 3 < extent .full 2 3 ∧
    TRef.corr (T := ℚ) id .full true ⟨2, fun i => i + 2⟩ ⟨3, fun i => i + 5⟩ 3 = some 14 := by
  refine ⟨by decide, by decide, ?_⟩
  have h : (Supp.full = Supp.same) = False := by simp
  have h2 : Int.toNat 2 = 2 := rfl
  norm_num [TRef.corr, corrDom, corrShift, corrScale, TRef.dot, window, List.range_succ, h, h2]

/-- **C96 (correlations agree).** For every support, with and without bias, the library gives exactly the outputs of the reference. -/
theorem C96_corr_library {T : Type} [Field T] (conj : T → T) (h0 : conj 0 = 0) (supp : Supp) (unbiased : Bool) (ref inp : Vec T)
    (i : ℕ) (hM : 1 ≤ ref.n) (hMN : ref.n ≤ inp.n) (hi : i < extent supp ref.n inp.n) :
    (correlate1 conj supp unbiased ref inp).2 i = TRef.corr conj supp unbiased ref inp i := by
  cases unbiased
  · rw [C42_values conj supp ref inp i hM hMN hi, (C96_corr conj h0 supp ref inp i hM hMN hi).1]
  · by_cases hsm : supp = .same
    · subst hsm
      obtain ⟨d, h1, h2, h3, h4⟩ := tr_corrDom .same hM hMN hi
      unfold TRef.corr
      rw [h1]
      simp only [Option.bind_some, tr_sum conj h0 .same ref inp i d h3 h4, if_true]
      simp only [correlate1, corrSame]
      rw [corr_loop conj .same ref inp i (ref.n / 2) rfl]
      simp only [Option.bind_eq_bind, Option.bind_some, if_true]
      unfold corrScale
      rw [if_pos rfl]
      by_cases c1 : i < ref.n / 2
      · rw [if_pos c1, if_pos c1]
      · rw [if_neg c1, if_neg c1]
        by_cases c2 : i < inp.n - ref.n / 2
        · rw [if_pos c2, if_neg (by omega)]
        · rw [if_neg c2, if_pos (by omega)]
    · rw [C43_unbiased_partial conj supp ref inp i hM hMN hi (fun h => absurd h hsm),
        (C96_corr conj h0 supp ref inp i hM hMN hi).2 (fun h => absurd h hsm)]
example : (1 : ℕ) ≤ 2 ∧ 2 ≤ 2 ∧ 1 < extent .same 2 2 := by decide

/-- **C96 is false (the scale of unbiased correlations).** With same support and a reference of even size the reference function divides
by a number which is not the number of products, as the library does (`C43_same_false`): the comparison cannot find the mistake. -/
theorem C96_scale_false :
    TRef.corr (T := ℚ) id .same true ⟨2, fun _ => 1⟩ ⟨2, fun _ => 1⟩ 1 = some 2 ∧ (overlap .same 2 2 1).card = 2 ∧
    (∑ _k ∈ overlap .same 2 2 1, (1 : ℚ) * id 1) / ((overlap .same 2 2 1).card : ℚ) ≠ 2 := by
  have h := C96_corr_library (T := ℚ) id rfl .same true ⟨2, fun _ => 1⟩ ⟨2, fun _ => 1⟩ 1 (by decide) (by decide) (by decide)
  exact ⟨h ▸ C43_same_false.1, C43_same_false.2.1, C43_same_false.2.2⟩

theorem tr_sum2 {T : Type} [Field T] (conj : T → T) (h0 : conj 0 = 0) (supp : Supp) (ref inp : Mat T) (r c : ℕ) (d e : ℕ × ℕ × ℕ)
    (h1 : ∀ k, k < ref.rows → (d.1 ≤ k ∧ k < d.1 + d.2.2 ↔ k ∈ overlap supp ref.rows inp.rows r))
    (h2 : ∀ k, d.1 ≤ k → d.2.1 + (k - d.1) = ((r : ℤ) + k - lag supp ref.rows).toNat)
    (g1 : ∀ k, k < ref.cols → (e.1 ≤ k ∧ k < e.1 + e.2.2 ↔ k ∈ overlap supp ref.cols inp.cols c))
    (g2 : ∀ k, e.1 ≤ k → e.2.1 + (k - e.1) = ((c : ℤ) + k - lag supp ref.cols).toNat) :
    (List.range ref.rows).foldl (fun sum i => sum + (List.range ref.cols).foldl (fun sum j =>
      sum + ref.f i j * conj (window d (fun x => window e (fun y => inp.f x y) j) i)) 0) 0 =
      ∑ i ∈ overlap supp ref.rows inp.rows r, ∑ j ∈ overlap supp ref.cols inp.cols c,
        ref.f i j * conj (inp.f ((r : ℤ) + i - lag supp ref.rows).toNat ((c : ℤ) + j - lag supp ref.cols).toNat) := by
  rw [tr_foldl, zero_add]
  have hsub : overlap supp ref.rows inp.rows r ⊆ range ref.rows := filter_subset _ _
  have gsub : overlap supp ref.cols inp.cols c ⊆ range ref.cols := filter_subset _ _
  rw [← sum_subset hsub]
  · refine sum_congr rfl fun i hi => ?_
    rw [tr_foldl, zero_add]
    have hi' := (h1 i (mem_range.1 (hsub hi))).2 hi
    rw [← sum_subset gsub]
    · refine sum_congr rfl fun j hj => ?_
      have hj' := (g1 j (mem_range.1 (gsub hj))).2 hj
      rw [window, if_pos hi', window, if_pos hj', h2 i hi'.1, g2 j hj'.1]
    · intro j hj hn
      have : ¬ (e.1 ≤ j ∧ j < e.1 + e.2.2) := fun h => hn ((g1 j (mem_range.1 hj)).1 h)
      rw [window, if_pos hi', window, if_neg this, h0, mul_zero]
  · intro i hi hn
    have : ¬ (d.1 ≤ i ∧ i < d.1 + d.2.2) := fun h => hn ((h1 i (mem_range.1 hi)).1 h)
    rw [tr_foldl, zero_add]
    refine sum_eq_zero fun j _ => ?_
    rw [window, if_neg this, h0, mul_zero]

/-- **C96 (correlation of matrices).** Sums over the overlap, divided by the number of products without bias, for every support; the
library gives the same. -/
theorem C96_corr_matrix {T : Type} [Field T] (conj : T → T) (h0 : conj 0 = 0) (supp : Supp) (ref inp : Mat T) (r c : ℕ)
    (hM : 1 ≤ ref.rows) (hM' : 1 ≤ ref.cols) (hMN : ref.rows ≤ inp.rows) (hMN' : ref.cols ≤ inp.cols)
    (hr : r < extent supp ref.rows inp.rows) (hc : c < extent supp ref.cols inp.cols) :
    corr2 conj supp false ref inp r c =
      some (∑ i ∈ overlap supp ref.rows inp.rows r, ∑ j ∈ overlap supp ref.cols inp.cols c,
        ref.f i j * conj (inp.f ((r : ℤ) + i - lag supp ref.rows).toNat ((c : ℤ) + j - lag supp ref.cols).toNat)) ∧
    corr2 conj supp true ref inp r c =
      some ((∑ i ∈ overlap supp ref.rows inp.rows r, ∑ j ∈ overlap supp ref.cols inp.cols c,
        ref.f i j * conj (inp.f ((r : ℤ) + i - lag supp ref.rows).toNat ((c : ℤ) + j - lag supp ref.cols).toNat)) /
        (((overlap supp ref.rows inp.rows r ×ˢ overlap supp ref.cols inp.cols c).card : ℕ) : T)) ∧
    ∀ unbiased, (correlate2 conj supp unbiased ref inp).2 r c = corr2 conj supp unbiased ref inp r c := by
  obtain ⟨d, d1, d2, d3, d4⟩ := tr_corrDom supp hM hMN hr
  obtain ⟨e, e1, e2, e3, e4⟩ := tr_corrDom supp hM' hMN' hc
  have key : ∀ unbiased, corr2 conj supp unbiased ref inp r c = some (if unbiased then
      (∑ i ∈ overlap supp ref.rows inp.rows r, ∑ j ∈ overlap supp ref.cols inp.cols c,
        ref.f i j * conj (inp.f ((r : ℤ) + i - lag supp ref.rows).toNat ((c : ℤ) + j - lag supp ref.cols).toNat)) /
        (((overlap supp ref.rows inp.rows r ×ˢ overlap supp ref.cols inp.cols c).card : ℕ) : T)
      else ∑ i ∈ overlap supp ref.rows inp.rows r, ∑ j ∈ overlap supp ref.cols inp.cols c,
        ref.f i j * conj (inp.f ((r : ℤ) + i - lag supp ref.rows).toNat ((c : ℤ) + j - lag supp ref.cols).toNat)) := by
    intro unbiased
    unfold corr2
    rw [d1, e1]
    simp only [Option.bind_some, tr_sum2 conj h0 supp ref inp r c d e d3 d4 e3 e4, d2, e2, card_product, Nat.cast_mul, one_mul]
  refine ⟨key false, key true, fun unbiased => ?_⟩
  rw [key]
  cases unbiased
  · exact C42_values_matrix conj supp ref inp r c hM hM' hMN hMN'
  · exact C43_unbiased_matrix conj supp ref inp r c hM hM' hMN hMN' hr hc
example : (1 : ℕ) < extent .same 2 3 ∧
    corr2 (T := ℚ) id .same true ⟨2, 1, fun _ _ => 1⟩ ⟨3, 1, fun i _ => i + 5⟩ 2 0 = some (13 / 2) := by
  refine ⟨by decide, ?_⟩
  norm_num [corr2, corrDom, corrShift, window, List.range_succ]

/-! ## Fourier transforms -/

/-- **C96 (Fourier transforms).** The reference transform is the discrete Fourier transform of the sign given, and the transforms of
matrices are the transforms of their rows and columns. -/
theorem C96_dft (n : ℕ) (neg : Bool) (x : ℕ → ℂ) (w : ℕ) (m : Mat ℂ) (r c : ℕ) :
    TRef.dft (fun k : ℤ => Complex.exp (2 * Real.pi * Complex.I * k / n)) (if neg then -1 else 1) n x w = Dft.dft1 neg n x w ∧
    (dftX (fun k : ℤ => Complex.exp (2 * Real.pi * Complex.I * k / m.cols)) (if neg then -1 else 1) m).f r w =
      Dft.dft1 neg m.cols (fun k => m.f r k) w ∧
    (dftY (fun k : ℤ => Complex.exp (2 * Real.pi * Complex.I * k / m.rows)) (if neg then -1 else 1) m).f w c =
      Dft.dft1 neg m.rows (fun k => m.f k c) w := by
  have key : ∀ (n : ℕ) (x : ℕ → ℂ), TRef.dft (fun k : ℤ => Complex.exp (2 * Real.pi * Complex.I * k / n))
      (if neg then -1 else 1) n x w = Dft.dft1 neg n x w := by
    intro n x
    unfold TRef.dft Dft.dft1
    rw [tr_foldl, zero_add]
    refine sum_congr rfl fun k _ => ?_
    congr 1
    unfold Dft.unit
    cases neg
    · simp only [Bool.false_eq_true, if_false]
      push_cast
      exact congrArg Complex.exp (by ring)
    · simp only [if_true]
      push_cast
      exact congrArg Complex.exp (by ring)
  exact ⟨key n x, key _ _, key _ _⟩
example : TRef.dft (fun _ : ℤ => (1 : ℤ)) (-1) 3 (fun k => (k : ℤ) + 1) 0 = 6 := by decide

/-- **C96, partial (sizes of transforms).** Of elements of one type the assertion asks for equal sizes, of real elements to complex ones
for the first half. Missing: complex elements to complex ones of more precision, see `C96_dft_sizes_false`. -/
theorem C96_dft_sizes_partial (s n m : ℕ) (hs : 0 < s) :
    (dftSizes s s n m = true ↔ n = m) ∧ (dftSizes s (2 * s) n m = true ↔ m = n / 2 + 1) := by
  have h : s ≠ 2 * s := by omega
  have h' : s < 2 * s := by omega
  refine ⟨by simp [dftSizes], ?_⟩
  simp only [dftSizes, h', decide_true, Bool.true_and, beq_eq_false_iff_ne.2 h, Bool.false_and, Bool.or_false, beq_iff_eq]
  exact eq_comm
example : dftSizes 8 16 6 4 = true := by decide

/-- **C96 is false (transforms to more precision).** Complex numbers of single precision to complex numbers of double precision: the
assertion, which looks at the sizes of the types, refuses the transform with as many outputs as inputs. -/
theorem C96_dft_sizes_false : ∀ n : ℕ, 3 ≤ n → dftSizes 8 16 n n = false := by
  intro n hn
  have h : n / 2 + 1 ≠ n := by omega
  simp [dftSizes, h]
example : (3 : ℕ) ≤ 4 := by decide

/-! ## Distances -/

theorem tr_maxSq_nonneg (v : List ℚ) : 0 ≤ maxSq v := by
  cases v with
  | nil => exact le_refl _
  | cons x l => exact le_trans (sq_nonneg x) (le_max_left _ _)

theorem tr_maxSq_le (v : List ℚ) : ∀ x ∈ v, x ^ 2 ≤ maxSq v := by
  induction v with
  | nil => simp
  | cons y l ih =>
    intro x hx
    rcases List.mem_cons.1 hx with rfl | h
    · exact le_max_left _ _
    · exact le_trans (ih x h) (le_max_right _ _)

theorem tr_maxSq_mem (v : List ℚ) : maxSq v = 0 ∨ ∃ x ∈ v, maxSq v = x ^ 2 := by
  induction v with
  | nil => exact Or.inl rfl
  | cons y l ih =>
    rcases le_total (maxSq l) (y ^ 2) with h | h
    · exact Or.inr ⟨y, List.mem_cons_self, max_eq_left h⟩
    · have e : maxSq (y :: l) = maxSq l := max_eq_right h
      rw [e]
      rcases ih with h0 | ⟨x, hx, h1⟩
      · exact Or.inl h0
      · exact Or.inr ⟨x, List.mem_cons_of_mem _ hx, h1⟩

theorem tr_reduce (v : List ℚ) : (v.map some).reduceOption = v := by
  induction v with
  | nil => rfl
  | cons x l ih => exact congrArg (List.cons x) ih

theorem tr_any (v : List ℚ) : (v.map some).any Option.isNone = false := by simp

theorem tr_all {A B : Type} (v : List A) (w : List B) (f : A → B → Bool) : ((v.zip w).all fun p => f p.1 p.2) = true ↔
    ∀ (i : ℕ) (x : A) (y : B), v[i]? = some x → w[i]? = some y → f x y = true := by
  rw [List.all_eq_true]
  constructor
  · intro h i x y hx hy
    have hm : (x, y) ∈ v.zip w := List.mem_of_getElem? (i := i) (by rw [List.getElem?_zip_eq_some]; exact ⟨hx, hy⟩)
    exact h (x, y) hm
  · rintro h ⟨x, y⟩ hp
    obtain ⟨i, hi⟩ := List.getElem?_of_mem hp
    rw [List.getElem?_zip_eq_some] at hi
    exact h i x y hi.1 hi.2

theorem tr_diff (k : ℕ) (v w : List ℚ) : diffBelow k (v.map some) (w.map some) =
    (v.zip w).all fun p => below k (ratio (refmax v w) p.1 p.2) := by
  unfold diffBelow
  rw [tr_any, tr_any, tr_reduce, tr_reduce]
  rfl

theorem tr_below {k : ℕ} (hk : k ≤ 20) {m x y : ℚ} (hm : (x - y) ^ 2 ≤ 4 * m) :
    below k (ratio m x y) = true ↔ (x - y) ^ 2 < 1 / 10 ^ 20 ∨ (x - y) ^ 2 * 10 ^ k < 2 * m := by
  unfold ratio
  by_cases h : (x - y) ^ 2 < 1 / 10 ^ 20
  · rw [if_pos h]
    simp only [below, hk, decide_true, h, true_or]
  · rw [if_neg h]
    simp only [below, decide_eq_true_eq, h, false_or]
    have hpos : (0 : ℚ) < 2 * m := by
      have : (0 : ℚ) < 1 / 10 ^ 20 := by positivity
      linarith
    rw [div_lt_div_iff₀ hpos (by positivity), one_mul]

theorem tr_le (x y m : ℚ) (hx : x ^ 2 ≤ m) (hy : y ^ 2 ≤ m) : (x - y) ^ 2 ≤ 4 * m := by nlinarith [sq_nonneg (x + y)]

/-- **C96 (distances of vectors).** A distance below `-10 k` decibels, `k` at most 20, says exactly that every difference is small: its
square below `10^-20`, or `k` digits below twice the largest square. -/
theorem C96_diff (k : ℕ) (hk : k ≤ 20) (v w : List ℚ) : diffBelow k (v.map some) (w.map some) = true ↔ Close k v w := by
  rw [tr_diff, tr_all v w (fun x y => below k (ratio (refmax v w) x y))]
  have hb : ∀ x y, x ∈ v → y ∈ w → (x - y) ^ 2 ≤ 4 * refmax v w := fun x y hx hy =>
    tr_le x y _ (le_trans (tr_maxSq_le v x hx) (le_max_left _ _)) (le_trans (tr_maxSq_le w y hy) (le_max_right _ _))
  have hz : ∀ q : ℚ, 0 ≤ q → (q < 2 * refmax v w ↔ ∃ z, (z ∈ v ∨ z ∈ w) ∧ q < 2 * z ^ 2) := by
    intro q hq
    constructor
    · intro h
      have hr : refmax v w = maxSq v ∨ refmax v w = maxSq w := max_choice _ _
      rcases hr with hr | hr
      · rcases tr_maxSq_mem v with h0 | ⟨z, hz, h1⟩
        · rw [hr, h0] at h; linarith
        · exact ⟨z, Or.inl hz, by rw [← h1, ← hr]; exact h⟩
      · rcases tr_maxSq_mem w with h0 | ⟨z, hz, h1⟩
        · rw [hr, h0] at h; linarith
        · exact ⟨z, Or.inr hz, by rw [← h1, ← hr]; exact h⟩
    · rintro ⟨z, hz | hz, h⟩
      · have := le_trans (tr_maxSq_le v z hz) (le_max_left _ (maxSq w)); unfold refmax; linarith
      · have := le_trans (tr_maxSq_le w z hz) (le_max_right (maxSq v) _); unfold refmax; linarith
  have step : ∀ x y, x ∈ v → y ∈ w → (below k (ratio (refmax v w) x y) = true ↔ (x - y) ^ 2 < 1 / 10 ^ 20 ∨
      ∃ z, (z ∈ v ∨ z ∈ w) ∧ (x - y) ^ 2 * 10 ^ k < 2 * z ^ 2) := by
    intro x y hx hy
    rw [tr_below hk (hb x y hx hy), hz _ (by positivity)]
  unfold Close
  exact forall_congr' fun i => forall_congr' fun x => forall_congr' fun y => forall_congr' fun hx => forall_congr' fun hy =>
    step x y (List.mem_of_getElem? hx) (List.mem_of_getElem? hy)
example : diffBelow 10 [some 1, some 2] [some 1, some (2 + 1 / 10 ^ 6)] = true := by decide +kernel

/-- **C96 (distances with NaN).** A NaN in either vector makes the distance larger than every bound. -/
theorem C96_diff_nan (k : ℕ) (v w : List (Option ℚ)) (h : none ∈ v ∨ none ∈ w) : diffBelow k v w = false := by
  unfold diffBelow
  rw [if_pos]
  rw [Bool.or_eq_true, List.any_eq_true, List.any_eq_true]
  rcases h with h | h
  · exact Or.inl ⟨none, h, rfl⟩
  · exact Or.inr ⟨none, h, rfl⟩
example : (none : Option ℚ) ∈ [some 1, none] := by decide

/-- **C96 is false (distances of small vectors).** The distance is not relative: vectors of small elements are accepted whatever their
difference is, even a vector and its negative, and a vector and zero. -/
theorem C96_diff_false : ¬ (∀ v w : List ℚ, v.length = w.length → diffBelow 10 (v.map some) (w.map some) = true → RelClose 10 v w) ∧
    ∀ k ≤ 20, ∀ v : List ℚ, (∀ x ∈ v, x ^ 2 < 1 / 10 ^ 21) → diffBelow k (v.map some) ((v.map fun x => -x).map some) = true := by
  refine ⟨fun h => ?_, fun k hk v hv => ?_⟩
  · have h1 := h [1 / 10 ^ 11] [0] rfl (by decide +kernel) 0 (1 / 10 ^ 11) 0 rfl rfl
    rcases h1 with h1 | ⟨z, hz, h1⟩
    · norm_num at h1
    · rcases hz with hz | hz
      · rw [List.mem_singleton.1 hz] at h1
        norm_num at h1
      · rw [List.mem_singleton.1 hz] at h1
        norm_num at h1
  · rw [C96_diff k hk]
    intro i x y hx hy
    left
    rw [List.getElem?_map, hx] at hy
    simp only [Option.map_some, Option.some.injEq] at hy
    subst hy
    have := hv x (List.mem_of_getElem? hx)
    have e : (x - -x) ^ 2 = 4 * x ^ 2 := by ring
    rw [e]
    have : (4 : ℚ) * (1 / 10 ^ 21) < 1 / 10 ^ 20 := by norm_num
    linarith

/-- **C96 is false (the distance of a vector and its negative).** The comment says 0 decibel; the ratio is 2, that is 3 decibel. -/
theorem C96_negated_false : ∀ (v : List ℚ) (x : ℚ), x ∈ v → (∀ y ∈ v, y ^ 2 ≤ x ^ 2) → 1 ≤ x ^ 2 →
    ratio (refmax v (v.map fun x => -x)) x (-x) = some 2 := by
  intro v x hx hy h1
  have e : ∀ v : List ℚ, maxSq (v.map fun x => -x) = maxSq v := by
    intro v
    induction v with
    | nil => rfl
    | cons y l ih => simp only [List.map_cons, maxSq, ih, neg_sq]
  have hm : maxSq v = x ^ 2 := by
    refine le_antisymm ?_ (tr_maxSq_le v x hx)
    rcases tr_maxSq_mem v with h0 | ⟨z, hz, h2⟩
    · rw [h0]; positivity
    · rw [h2]; exact hy z hz
  have e2 : (x - -x) ^ 2 = 4 * x ^ 2 := by ring
  unfold ratio refmax
  rw [e, hm, max_self, e2, if_neg]
  · congr 1
    have h0 : x ^ 2 ≠ 0 := by linarith
    rw [div_eq_iff (mul_ne_zero two_ne_zero h0)]
    ring
  · rw [not_lt]
    refine le_trans ?_ (show (1 : ℚ) ≤ 4 * x ^ 2 by linarith)
    norm_num
example : (2 : ℚ) ∈ [(1 : ℚ), 2] ∧ (∀ y ∈ [(1 : ℚ), 2], y ^ 2 ≤ 2 ^ 2) ∧ (1 : ℚ) ≤ 2 ^ 2 := by decide +kernel

/-! ## Precision -/

theorem tr_rne_int (n : ℤ) : rne (n : ℚ) = n := by
  unfold rne
  rw [Int.floor_intCast, if_pos (by norm_num)]

theorem tr_onePlus_big (p k : ℕ) (hk : k + 1 ≤ p) : onePlus p (1 / 2 ^ k) = 1 + 1 / 2 ^ k := by
  unfold onePlus
  have e : (1 + 1 / 2 ^ k : ℚ) * 2 ^ (p - 1) = ((2 ^ (p - 1) + 2 ^ (p - 1 - k) : ℤ) : ℚ) := by
    have : (2 : ℚ) ^ (p - 1) = 2 ^ (p - 1 - k) * 2 ^ k := by rw [← pow_add]; congr 1; omega
    push_cast
    rw [add_mul, one_mul, this]
    field_simp
  rw [e, tr_rne_int, ← e]
  field_simp

theorem tr_onePlus_tie (p : ℕ) (hp : 2 ≤ p) : onePlus p (1 / 2 ^ p) = 1 := by
  unfold onePlus
  obtain ⟨q, rfl⟩ : ∃ q, p = q + 2 := ⟨p - 2, by omega⟩
  have e : (1 + 1 / 2 ^ (q + 2) : ℚ) * 2 ^ (q + 2 - 1) = ((2 ^ (q + 1) : ℤ) : ℚ) + 1 / 2 := by
    have : q + 2 - 1 = q + 1 := rfl
    rw [this]
    push_cast
    rw [pow_succ 2 (q + 1)]
    field_simp
  have hf : ⌊((2 ^ (q + 1) : ℤ) : ℚ) + 1 / 2⌋ = 2 ^ (q + 1) := by
    rw [Int.floor_intCast_add]
    norm_num
  have he : (2 : ℤ) ^ (q + 1) % 2 = 0 := by rw [pow_succ]; omega
  rw [e]
  unfold rne
  rw [hf, if_neg (by norm_num), if_neg (by norm_num), if_pos he]
  have : q + 2 - 1 = q + 1 := rfl
  rw [this]
  push_cast
  field_simp

/-- **C96 (precision).** With `p` significant bits (at least 2) the loop ends, and its result is `2^-p`. -/
theorem C96_precision (p fuel : ℕ) (hp : 2 ≤ p) (hf : p < fuel) : precisionLoop p fuel 1 = some (1 / 2 ^ p) := by
  have key : ∀ (j k fuel : ℕ), k + j = p → j < fuel → precisionLoop p fuel (1 / 2 ^ k) = some (1 / 2 ^ p) := by
    intro j
    induction j with
    | zero =>
      intro k fuel hk hf
      obtain ⟨f, rfl⟩ : ∃ f, fuel = f + 1 := ⟨fuel - 1, by omega⟩
      have : k = p := by omega
      subst this
      rw [precisionLoop, tr_onePlus_tie k hp, if_neg (by simp)]
    | succ j ih =>
      intro k fuel hk hf
      obtain ⟨f, rfl⟩ : ∃ f, fuel = f + 1 := ⟨fuel - 1, by omega⟩
      rw [precisionLoop, tr_onePlus_big p k (by omega), if_pos]
      · have e : (1 / 2 * (1 / 2 ^ k) : ℚ) = 1 / 2 ^ (k + 1) := by rw [pow_succ]; field_simp
        rw [e]
        exact ih (k + 1) f (by omega) (by omega)
      · rw [add_sub_cancel_left]
        positivity
  have := key p 0 fuel (by omega) hf
  rwa [pow_zero, div_one] at this
example : precisionLoop 3 5 1 = some (1 / 8) := by decide +kernel

/-- **C96 is false (the lowest bit of precision).** The result is half of the lowest bit: the loop ends when the sum is rounded to 1. -/
theorem C96_precision_false : ∀ p fuel e, 2 ≤ p → p < fuel → precisionLoop p fuel 1 = some e →
    ¬ LowestBit p e ∧ LowestBit p (2 * e) := by
  intro p fuel e hp hf he
  rw [C96_precision p fuel hp hf, Option.some.injEq] at he
  subst he
  obtain ⟨q, rfl⟩ : ∃ q, p = q + 1 := ⟨p - 1, by omega⟩
  have hq : (0 : ℚ) < 2 ^ q := by positivity
  have e2 : (2 : ℚ) * (1 / 2 ^ (q + 1)) = 1 / 2 ^ q := by rw [pow_succ]; field_simp
  have low : LowestBit (q + 1) (2 * (1 / 2 ^ (q + 1))) := by
    rw [e2]
    refine ⟨by positivity, ⟨2 ^ q + 1, by simp, ?_, ?_⟩, ?_⟩
    · rw [pow_succ]; have := Nat.one_le_two_pow (n := q); omega
    · simp only [Nat.add_sub_cancel]; push_cast; field_simp
    · rintro x ⟨m, h1, h2, rfl⟩ h3
      simp only [Nat.add_sub_cancel] at *
      rw [lt_div_iff₀ hq, one_mul] at h3
      have h4 : 2 ^ q < m := by exact_mod_cast h3
      have h5 : ((2 ^ q + 1 : ℕ) : ℚ) ≤ m := by exact_mod_cast h4
      push_cast at h5
      rw [le_div_iff₀ hq, add_mul, one_mul, one_div_mul_cancel hq.ne']
      exact h5
  refine ⟨fun h => ?_, low⟩
  have h1 := low.2.2 _ h.2.1 (by linarith [h.1])
  linarith [h.1]
example : precisionLoop 24 30 1 = some (1 / 2 ^ 24) := C96_precision 24 30 (by decide) (by decide)

/-! ## Random data -/

/-- **C96 is false (independent random data).** Every vector and every matrix is filled by a new generator with the same seed: two
vectors of one length are equal, of two lengths one begins with the other, and two matrices of one size and order are equal. So the
right-hand side of a system made in this way is the matrix itself, and the solution the unit matrix. -/
theorem C96_random_false {T : Type} [Ring T] (g : ℕ → T) (half : T) : (∀ n m, n ≤ m → randv g half n = (randv g half m).take n) ∧
    (∀ (o : Bool) (n k : ℕ) (i j : ℕ), (randm g half true n k).f i j = (randm g half true (n + 1) k).f i j ∧
      ∀ A B : Mat T, A = randm g half o n n → B = randm g half o n n → j < n →
        ∑ l ∈ range n, A.f i l * (if l = j then 1 else 0) = B.f i j) := by
  refine ⟨fun n m h => ?_, fun o n k i j => ⟨rfl, ?_⟩⟩
  · unfold randv
    rw [← List.map_take, List.take_range, Nat.min_eq_left h]
  · rintro A B rfl rfl hj
    simp [Finset.sum_ite_eq', hj]

/-- **C96 (order of random data).** A matrix in row-major order holds, row after row, the numbers of the vector of all its elements; one in
column-major order holds them column after column. -/
theorem C96_random_order {T : Type} [Ring T] (g : ℕ → T) (half : T) (rows cols r c : ℕ) (hr : r < rows) (hc : c < cols) :
    (randv g half (rows * cols))[r * cols + c]? = some ((randm g half true rows cols).f r c) ∧
    (randv g half (cols * rows))[c * rows + r]? = some ((randm g half false rows cols).f r c) := by
  have h1 : r * cols + c < rows * cols := by
    have : (r + 1) * cols ≤ rows * cols := Nat.mul_le_mul_right _ hr
    rw [Nat.add_mul] at this
    omega
  have h2 : c * rows + r < cols * rows := by
    have : (c + 1) * rows ≤ cols * rows := Nat.mul_le_mul_right _ hc
    rw [Nat.add_mul] at this
    omega
  simp [randv, randm, h1, h2]
example : (randm (fun i => (i : ℤ)) 0 false 2 3).f 1 2 = 5 := by decide

/-- **C96 (range of real random data).** The numbers of a generator between 0 and 1 are moved to the range from -1/2 to 1/2. -/
theorem C96_random_range (g : ℕ → ℚ) (hg : ∀ i, 0 ≤ g i ∧ g i < 1) (n : ℕ) : (randv g (1 / 2) n).length = n ∧
    ∀ x ∈ randv g (1 / 2) n, -(1 / 2) ≤ x ∧ x < 1 / 2 := by
  refine ⟨by simp [randv], fun x hx => ?_⟩
  simp only [randv, List.mem_map] at hx
  obtain ⟨i, -, rfl⟩ := hx
  have := hg i
  constructor <;> linarith [this.1, this.2]
example : ∀ i : ℕ, (0 : ℚ) ≤ (fun _ : ℕ => (1 / 3 : ℚ)) i ∧ (fun _ : ℕ => (1 / 3 : ℚ)) i < 1 := by intro i; norm_num

/-- **C96 is false (range of complex random data).** Only the real part is moved: the imaginary part stays between 0 and 1. -/
theorem C96_complex_range_false : ∀ z : ℚ × ℚ, (centred z).2 = z.2 ∧ (1 / 2 < z.2 → ¬ (centred z).2 ≤ 1 / 2) := by
  intro z
  refine ⟨by simp [centred], fun h => ?_⟩
  simp only [centred, sub_zero, not_le]
  exact h
example : (1 / 2 : ℚ) < ((0, 3 / 4) : ℚ × ℚ).2 := by norm_num

/-! ## Maps -/

/-- **C96, partial (grids of processors).** The grid is not empty, uses no more processors than there are, and leaves fewer of them
unused than it has rows. Missing: that every processor is used, see `C96_grid_false`. -/
theorem C96_grid_partial (np : ℕ) (h : 1 ≤ np) : 1 ≤ (createMap2 np).1 ∧ (createMap2 np).1 ≤ (createMap2 np).2 ∧
    (createMap2 np).1 * (createMap2 np).2 ≤ np ∧ np < (createMap2 np).1 * (createMap2 np).2 + (createMap2 np).1 := by
  have hs : 1 ≤ np.sqrt := Nat.sqrt_pos.2 h
  simp only [createMap2]
  refine ⟨hs, (Nat.le_div_iff_mul_le hs).2 (Nat.sqrt_le np), Nat.mul_div_le _ _, ?_⟩
  have h1 := Nat.div_add_mod np np.sqrt
  have h2 := Nat.mod_lt np hs
  omega
example : createMap2 12 = (3, 4) := by decide +kernel

/-- **C96 is false (processors in grids).** Some processors may be left out: one of five. -/
theorem C96_grid_false : ¬ ∀ np, 1 ≤ np → (createMap2 np).1 * (createMap2 np).2 = np := by
  intro h
  exact absurd (h 5 (by decide)) (by decide +kernel)

end Verif.Props

#print axioms Verif.Props.C96_products
#print axioms Verif.Props.C96_outer_partial
#print axioms Verif.Props.C96_outer_false
#print axioms Verif.Props.C96_kernel
#print axioms Verif.Props.C96_conv_size
#print axioms Verif.Props.C96_conv_partial
#print axioms Verif.Props.C96_conv_library
#print axioms Verif.Props.C96_conv_false
#print axioms Verif.Props.C96_corr_size
#print axioms Verif.Props.C96_corr
#print axioms Verif.Props.C96_corr_library
#print axioms Verif.Props.C96_scale_false
#print axioms Verif.Props.C96_corr_matrix
#print axioms Verif.Props.C96_dft
#print axioms Verif.Props.C96_dft_sizes_partial
#print axioms Verif.Props.C96_dft_sizes_false
#print axioms Verif.Props.C96_diff
#print axioms Verif.Props.C96_diff_nan
#print axioms Verif.Props.C96_diff_false
#print axioms Verif.Props.C96_negated_false
#print axioms Verif.Props.C96_precision
#print axioms Verif.Props.C96_precision_false
#print axioms Verif.Props.C96_random_false
#print axioms Verif.Props.C96_random_range
#print axioms Verif.Props.C96_complex_range_false
#print axioms Verif.Props.C96_grid_partial
#print axioms Verif.Props.C96_grid_false
#print axioms Verif.Props.C96_random_order
