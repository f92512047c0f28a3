import Verif.BenchConv.Model
import Verif.Signal.Props
import Mathlib.Algebra.BigOperators.Intervals
import Mathlib.Tactic.Ring
import Mathlib.Tactic.NormNum
import Mathlib.Tactic.IntervalCases
/-!
# C103: benchmarks of two-dimensional convolutions
-/
namespace Verif.Props
open Verif Verif.Sig Verif.Bcv

theorem bcv_out (supp : Supp) {M N : Nat} (h1 : 1 ≤ M) (h2 : M ≤ N) (h3 : N + M < 9223372036854775808) : Bcv.outSize supp M N = extent supp M N := by
  cases supp
  · show toIdx ((toIdx _ / 1 : Nat) + 1) = N + M - 1
    rw [Nat.div_one]
    unfold toIdx
    omega
  · show toIdx ((toIdx _ / 1 : Nat) + 1) = N
    rw [Nat.div_one]
    unfold toIdx
    omega
  · show toIdx ((toIdx _ / 1 : Nat) - (toIdx _ / 1 : Nat) + 1) = N + 1 - M
    rw [Nat.div_one, Nat.div_one]
    unfold toIdx
    omega

/-- **C103, partial (sizes).** For coefficients that fit into the input, the benchmarks make an output of exactly the size the convolution asks for.  Missing:
other sizes, see `C103_sizes_false`. -/
theorem C103_sizes_partial {T : Type} [Semiring T] (supp : Supp) (coeff inp : Mat T)
    (hr : 1 ≤ coeff.rows ∧ coeff.rows ≤ inp.rows ∧ inp.rows + coeff.rows < 9223372036854775808)
    (hc : 1 ≤ coeff.cols ∧ coeff.cols ≤ inp.cols ∧ inp.cols + coeff.cols < 9223372036854775808) :
    (Bcv.outSize supp coeff.rows inp.rows, Bcv.outSize supp coeff.cols inp.cols) = (convolve2 .nonsym supp coeff inp 1).1 ∧
    0 < Bcv.outSize supp coeff.rows inp.rows ∧ 0 < Bcv.outSize supp coeff.cols inp.cols := by
  have e : (convolve2 .nonsym supp coeff inp 1).1 = (extent supp coeff.rows inp.rows, extent supp coeff.cols inp.cols) :=
    Prod.ext (C42_size supp hr.1 hr.2.1 hr.2.2) (C42_size supp hc.1 hc.2.1 hc.2.2)
  rw [e, bcv_out supp hr.1 hr.2.1 hr.2.2, bcv_out supp hc.1 hc.2.1 hc.2.2]
  refine ⟨rfl, ?_, ?_⟩ <;> cases supp <;> simp only [extent] <;> omega

example : Bcv.outSize .full 3 16 = 18 ∧ Bcv.outSize .same 3 16 = 16 ∧ Bcv.outSize .min 3 16 = 14 := by decide +kernel

/-- **C103 is false (sizes).** With minimal support and two or more rows of coefficients more than the input has, the output has almost 2^64 rows, with one more none.
The benchmarks do not refuse this. -/
theorem C103_sizes_false (M N : Nat) (h : N < M) (hN : 1 ≤ N) (hM : M < W₆₄) :
    Bcv.outSize .min M N = if M = N + 1 then 0 else W₆₄ - (M - N - 1) := by
  show toIdx ((toIdx _ / 1 : Nat) - (toIdx _ / 1 : Nat) + 1) = _
  rw [Nat.div_one, Nat.div_one]
  by_cases e : M = N + 1
  · rw [if_pos e]; unfold toIdx; omega
  · rw [if_neg e]; unfold toIdx; omega

/-- Specification: how many of `m` coefficients meet an input at the first output. -/
def firstTaps (supp : Supp) (m : Nat) : Nat :=
  match supp with
  | .full => 1
  | .same => m / 2 + 1
  | .min => m

theorem bcv_count (supp : Supp) {m n : Nat} (h1 : 1 ≤ m) (h2 : m ≤ n) :
    ((Finset.range m).filter fun i : Nat => 0 ≤ (0 : Int) + offset supp m - i ∧ (0 : Int) + offset supp m - i < n).card = firstTaps supp m := by
  have e : ((Finset.range m).filter fun i : Nat => 0 ≤ (0 : Int) + offset supp m - i ∧ (0 : Int) + offset supp m - i < n) =
      Finset.range (firstTaps supp m) := by
    ext i
    simp only [Finset.mem_filter, Finset.mem_range]
    cases supp <;> simp only [offset, firstTaps] <;> omega
  rw [e, Finset.card_range]

/-- The first output of the convolution of ones. -/
theorem bcv_first (supp : Supp) {rows cols m n : Nat} (hm : 1 ≤ m) (hn : 1 ≤ n) (hmr : m ≤ rows) (hnc : n ≤ cols) :
    (convolve2 .nonsym supp (Bcv.ones m n) (Bcv.ones rows cols) 1).2 0 0 = some ((firstTaps supp m * firstTaps supp n : Nat) : ℚ) := by
  have hext : ∀ {a b : Nat}, 1 ≤ a → a ≤ b → 0 * 1 < extent supp a b := by
    intro a b h1 h2
    cases supp <;> simp only [extent] <;> omega
  rw [C41_values_matrix .nonsym supp (Bcv.ones m n) (Bcv.ones rows cols) 1 0 0 hm hn (hext hm hmr) (hext hn hnc)]
  congr 1
  show (∑ i ∈ Finset.range m, ∑ j ∈ Finset.range n, (1 : ℚ) * zext2 (Bcv.ones rows cols) (((0 : Nat) : Int) * ((1 : Nat) : Int) + offset supp m - i)
    (((0 : Nat) : Int) * ((1 : Nat) : Int) + offset supp n - j)) = _
  have hz : ∀ i j : Nat, (1 : ℚ) * zext2 (Bcv.ones rows cols) (((0 : Nat) : Int) * ((1 : Nat) : Int) + offset supp m - i)
      (((0 : Nat) : Int) * ((1 : Nat) : Int) + offset supp n - j) =
      (if 0 ≤ (0 : Int) + offset supp m - i ∧ (0 : Int) + offset supp m - i < rows then 1 else 0) *
      (if 0 ≤ (0 : Int) + offset supp n - j ∧ (0 : Int) + offset supp n - j < cols then 1 else 0) := by
    intro i j
    rw [one_mul, show (((0 : Nat) : Int) * ((1 : Nat) : Int)) = 0 from rfl]
    unfold zext2
    show (if (0 ≤ (0 : Int) + offset supp m - i ∧ (0 : Int) + offset supp m - i < rows) ∧ 0 ≤ (0 : Int) + offset supp n - j ∧
      (0 : Int) + offset supp n - j < cols then (1 : ℚ) else 0) = _
    by_cases h1 : 0 ≤ (0 : Int) + offset supp m - i ∧ (0 : Int) + offset supp m - i < rows
    · by_cases h2 : 0 ≤ (0 : Int) + offset supp n - j ∧ (0 : Int) + offset supp n - j < cols
      · rw [if_pos ⟨h1, h2⟩, if_pos h1, if_pos h2, one_mul]
      · rw [if_neg (fun h => h2 h.2), if_neg h2, mul_zero]
    · rw [if_neg (fun h => h1 h.1), if_neg h1, zero_mul]
  simp only [hz]
  rw [← Finset.sum_mul_sum, Finset.sum_boole, Finset.sum_boole, bcv_count supp hm hmr, bcv_count supp hn hnc, Nat.cast_mul]

/-- **C103, partial (check).** With full support the check accepts the result for all coefficients that fit; with equal support those of two or three rows and columns,
with minimal support those of three by three.  Missing: other sizes, see `C103_check_false`. -/
theorem C103_check_partial (rows cols m n : Nat) (hm : 1 ≤ m) (hn : 1 ≤ n) (hmr : m ≤ rows) (hnc : n ≤ cols) :
    Bcv.check .full rows cols m n = some true ∧
    ((m = 2 ∨ m = 3) → (n = 2 ∨ n = 3) → Bcv.check .same rows cols m n = some true) ∧
    (m = 3 → n = 3 → Bcv.check .min rows cols m n = some true) := by
  refine ⟨?_, fun h1 h2 => ?_, fun h1 h2 => ?_⟩
  · unfold Bcv.check
    rw [bcv_first .full hm hn hmr hnc]
    norm_num [firstTaps, Bcv.expected]
  · unfold Bcv.check
    rw [bcv_first .same hm hn hmr hnc]
    rcases h1 with rfl | rfl <;> rcases h2 with rfl | rfl <;> norm_num [firstTaps, Bcv.expected]
  · unfold Bcv.check
    rw [bcv_first .min hm hn hmr hnc]
    subst h1 h2
    norm_num [firstTaps, Bcv.expected]

example : Bcv.check .same 16 16 3 2 = some true := (C103_check_partial 16 16 3 2 (by decide) (by decide) (by decide) (by decide)).2.1 (Or.inr rfl) (Or.inl rfl)

/-- **C103 is false (check).** The sizes of the coefficients can be chosen, the values expected cannot: correct results are said to be wrong with minimal support for all
square coefficients but three by three, and with equal support for those of one and of four or more rows. -/
theorem C103_check_false (rows cols m : Nat) (hm : 1 ≤ m) (hmr : m ≤ rows) (hmc : m ≤ cols) :
    (m ≠ 3 → Bcv.check .min rows cols m m = some false) ∧ ((m = 1 ∨ 4 ≤ m) → Bcv.check .same rows cols m m = some false) := by
  refine ⟨fun h => ?_, fun h => ?_⟩
  · unfold Bcv.check
    rw [bcv_first .min hm hm hmr hmc]
    have : ¬ (((m * m : Nat) : ℚ) = 9) := by
      intro e
      have e' : m * m = 9 := by exact_mod_cast e
      have : m < 4 := by by_contra hc; have := Nat.mul_le_mul (Nat.le_of_not_lt hc) (Nat.le_of_not_lt hc); omega
      interval_cases m <;> omega
    show some (decide (((m * m : Nat) : ℚ) = 9)) = _
    rw [decide_eq_false this]
  · unfold Bcv.check
    rw [bcv_first .same hm hm hmr hmc]
    have : ¬ ((((m / 2 + 1) * (m / 2 + 1) : Nat) : ℚ) = 4) := by
      intro e
      have e' : (m / 2 + 1) * (m / 2 + 1) = 4 := by exact_mod_cast e
      rcases h with rfl | h
      · norm_num at e'
      · have h3 : 3 ≤ m / 2 + 1 := by omega
        have := Nat.mul_le_mul h3 h3
        omega
    show some (decide ((((m / 2 + 1) * (m / 2 + 1) : Nat) : ℚ) = 4)) = _
    rw [decide_eq_false this]

#print axioms C103_sizes_partial
#print axioms C103_sizes_false
#print axioms C103_check_partial
#print axioms C103_check_false

end Verif.Props
