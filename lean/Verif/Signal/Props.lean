import Verif.Signal.Hist
import Verif.Signal.Swap
import Mathlib.Order.Interval.Finset.Nat
import Mathlib.Algebra.BigOperators.Ring.Finset
import Mathlib.Data.Rat.Defs
import Mathlib.Algebra.Field.Rat
import Mathlib.Tactic.NormNum
/-!
C41, C42, C43: convolution and correlation.  (C39 is in `Hist.lean`, C40 in `Swap.lean`.)
-/
namespace Verif.Props
open Verif.Sig Finset

/-! ### Sizes -/

/-- specification: extent of the undecimated output -/
def extent (supp : Supp) (M N : Nat) : Nat :=
  match supp with
  | .full => N + M - 1
  | .same => N
  | .min => N + 1 - M

/-- C41: the number of outputs is the number of multiples of the decimation in the extent of the support -/
theorem C41_size (supp : Supp) {M N D : Nat} (hM : 1 ≤ M) (hN : 1 ≤ N) (hD : 1 ≤ D) (hmin : supp = .min → M ≤ N)
    (hs : N + M < 9223372036854775808) (n : Nat) : n < outputSize supp M N D ↔ n * D < extent supp M N := by
  have key : ∀ L : Nat, n < L / D + 1 ↔ n * D < L + 1 := by
    intro L
    rw [Nat.lt_succ_iff, Nat.lt_succ_iff, Nat.le_div_iff_mul_le (by omega)]
  cases supp with
  | full =>
    have e1 : (((N : Int) + M - 2) % 18446744073709551616).toNat = N + M - 2 := by omega
    have hle : (N + M - 2) / D ≤ N + M - 2 := Nat.div_le_self _ _
    simp only [outputSize, extent, e1]
    have e2 : ((((N + M - 2) / D : Nat) + 1 : Int) % 18446744073709551616).toNat = (N + M - 2) / D + 1 := by
      generalize (N + M - 2) / D = q at *
      omega
    rw [e2, key]
    omega
  | same =>
    have e1 : (((N : Int) - 1) % 18446744073709551616).toNat = N - 1 := by omega
    have hle : (N - 1) / D ≤ N - 1 := Nat.div_le_self _ _
    simp only [outputSize, extent, e1]
    have e2 : ((((N - 1) / D : Nat) + 1 : Int) % 18446744073709551616).toNat = (N - 1) / D + 1 := by
      generalize (N - 1) / D = q at *
      omega
    rw [e2, key]
    omega
  | min =>
    have hmn := hmin rfl
    have e1 : (((N : Int) - M + 1) % 18446744073709551616).toNat = N + 1 - M := by omega
    simp only [outputSize, extent, e1]
    have hdm := Nat.div_add_mod (N + 1 - M) D
    have hml := Nat.mod_lt (N + 1 - M) (show D > 0 by omega)
    split
    · rename_i h0
      rw [Nat.add_zero, Nat.lt_div_iff_mul_lt' (Nat.dvd_of_mod_eq_zero h0), Nat.mul_comm]
    · rename_i h0
      rw [Nat.lt_succ_iff, Nat.le_div_iff_mul_le (by omega)]
      constructor
      · intro h
        rcases Nat.lt_or_ge (n * D) (N + 1 - M) with h' | h'
        · exact h'
        · exfalso
          have : N + 1 - M = n * D := by omega
          rw [this, Nat.mul_mod_left] at h0
          exact h0 rfl
      · omega

example : (1 : Nat) ≤ 3 ∧ 3 ≤ 10 ∧ outputSize .min 3 10 3 = 3 ∧ outputSize .full 3 10 3 = 4 ∧ outputSize .same 3 10 3 = 4 := by decide

/-- C41 is false of the output size for a kernel the constructor accepts: two coefficients of a symmetric kernel of odd length make three,
more than the one input, and the number of outputs wraps around to `2^64 - 1` -/
theorem C41_min_size_false : convOk .evenLenOdd 2 1 1 ∧ outputSize .min (convKernel1 .evenLenOdd (⟨2, fun _ => 1⟩ : Vec Nat)).n 1 1 =
    18446744073709551615 := by
  refine ⟨⟨by decide, by decide⟩, by decide⟩

/-- The helper `conv_kernel_size` disagrees with the kernel built for even symmetric matrices (nothing calls it for matrices) -/
theorem C41_kernel_size2_false : kernelSize2 .evenLenEven 1 1 ≠
    ((convKernel2 .evenLenEven (⟨1, 1, fun _ _ => 1⟩ : Mat Nat)).rows, (convKernel2 .evenLenEven (⟨1, 1, fun _ _ => 1⟩ : Mat Nat)).cols) := by
  decide

/-- C41, partial (helpers for the size of the kernel): for vectors the helper gives the size of the kernel that is built; for matrices it does unless the kernel is symmetric of
even size, where it gives one column too few.  Missing: that case, see `C41_kernel_size2_false`. -/
theorem C41_kernel_size_partial {T : Type} [Zero T] (s : Symm) (c : Vec T) (m : Mat T) :
    kernelSize1 s c.n = (convKernel1 s c).n ∧
    (s ≠ .evenLenEven → kernelSize2 s m.rows m.cols = ((convKernel2 s m).rows, (convKernel2 s m).cols)) ∧
    (1 ≤ m.cols → kernelSize2 .evenLenEven m.rows m.cols = ((convKernel2 .evenLenEven m).rows, (convKernel2 .evenLenEven m).cols - 1)) := by
  refine ⟨?_, ?_, ?_⟩
  · cases s <;> rfl
  · intro h
    cases s <;> first | rfl | exact absurd rfl h
  · intro _
    rfl

example : kernelSize2 .evenLenOdd 2 2 = (3, 3) := by decide

/-! ### Kernels -/

/-- specification: `K` is the kernel of which `coeff` gives the first elements, palindromic unless `nonsym` -/
structure IsKernel {T : Type} (s : Symm) (coeff K : Vec T) : Prop where
  size : K.n = match s with | .nonsym => coeff.n | .evenLenOdd => 2 * coeff.n - 1 | .evenLenEven => 2 * coeff.n
  head : ∀ i < coeff.n, K.f i = coeff.f i
  mirror : s ≠ .nonsym → ∀ i < K.n, K.f i = K.f (K.n - 1 - i)

/-- the same for matrices: palindromic in each dimension -/
structure IsKernel2 {T : Type} (s : Symm) (coeff K : Mat T) : Prop where
  rows : K.rows = match s with | .nonsym => coeff.rows | .evenLenOdd => 2 * coeff.rows - 1 | .evenLenEven => 2 * coeff.rows
  cols : K.cols = match s with | .nonsym => coeff.cols | .evenLenOdd => 2 * coeff.cols - 1 | .evenLenEven => 2 * coeff.cols
  head : ∀ i < coeff.rows, ∀ j < coeff.cols, K.f i j = coeff.f i j
  mirrorRows : s ≠ .nonsym → ∀ i < K.rows, ∀ j < K.cols, K.f i j = K.f (K.rows - 1 - i) j
  mirrorCols : s ≠ .nonsym → ∀ i < K.rows, ∀ j < K.cols, K.f i j = K.f i (K.cols - 1 - j)

section
variable {T : Type}

/-- C41: the kernel built is the symmetric expansion of the coefficients, and `conv_kernel_size` is its size -/
theorem C41_kernel [Zero T] (s : Symm) (coeff : Vec T) (h : 1 ≤ coeff.n) :
    IsKernel s coeff (convKernel1 s coeff) ∧ (convKernel1 s coeff).n = kernelSize1 s coeff.n := by
  cases s with
  | nonsym => exact ⟨⟨rfl, fun _ _ => rfl, fun h => absurd rfl h⟩, rfl⟩
  | evenLenOdd =>
    refine ⟨⟨rfl, ?_, ?_⟩, rfl⟩
    · intro i hi
      simp only [convKernel1]
      rw [if_neg (by omega), if_pos hi]
    · intro _ i hi
      simp only [convKernel1] at hi ⊢
      rcases Nat.lt_trichotomy i (coeff.n - 1) with hlt | heq | hgt
      · rw [if_neg (by omega), if_pos (by omega), if_pos (by omega)]
        congr 1; omega
      · rw [if_neg (by omega), if_pos (by omega), if_neg (by omega), if_pos (by omega)]
        congr 1; omega
      · rw [if_pos (by omega), if_neg (by omega), if_pos (by omega)]
        congr 1; omega
  | evenLenEven =>
    refine ⟨⟨rfl, ?_, ?_⟩, rfl⟩
    · intro i hi
      simp only [convKernel1]
      rw [if_neg (by omega), if_pos hi]
    · intro _ i hi
      simp only [convKernel1] at hi ⊢
      by_cases hlt : i < coeff.n
      · rw [if_neg (by omega), if_pos hlt, if_pos (by omega)]
        congr 1; omega
      · rw [if_pos (by omega), if_neg (by omega), if_pos (by omega)]
        congr 1; omega

example : (List.range 5).map (convKernel1 .evenLenOdd (⟨3, fun i => i + 1⟩ : Vec Nat)).f = [1, 2, 3, 2, 1] := by decide

/-- a kernel is determined by its coefficients -/
theorem isKernel_unique {s : Symm} {coeff K K' : Vec T} (h : 1 ≤ coeff.n) (a : IsKernel s coeff K) (b : IsKernel s coeff K') :
    K.n = K'.n ∧ ∀ i < K.n, K.f i = K'.f i := by
  have hn : K.n = K'.n := by rw [a.size, b.size]
  refine ⟨hn, fun i hi => ?_⟩
  by_cases hlt : i < coeff.n
  · rw [a.head i hlt, b.head i hlt]
  · have hsym : s ≠ .nonsym := by
      rintro rfl
      have := a.size
      simp only at this
      omega
    have hsz : K.n = 2 * coeff.n ∨ K.n = 2 * coeff.n - 1 := by
      have := a.size
      cases s <;> simp only at this <;> simp_all
    rw [a.mirror hsym i hi, b.mirror hsym i (by omega), ← hn, a.head _ (by omega), b.head _ (by omega)]

theorem kernel2_odd (coeff : Mat T) [Zero T] (i j : Nat) (hi : i < 2 * coeff.rows - 1) (hj : j < 2 * coeff.cols - 1) :
    (convKernel2 .evenLenOdd coeff).f i j = coeff.f (if i < coeff.rows then i else 2 * coeff.rows - 2 - i)
      (if j < coeff.cols then j else 2 * coeff.cols - 2 - j) := by
  simp only [convKernel2]
  by_cases h1 : i < coeff.rows
  · rw [if_neg (by omega), if_pos h1]
    by_cases h2 : j < coeff.cols
    · rw [if_neg (by omega), if_pos ⟨h1, h2⟩, if_pos h2]
    · rw [if_pos (by omega), if_neg h2]
      congr 1; omega
  · rw [if_pos (by omega), if_neg h1]
    have e : coeff.rows - 2 - (i - coeff.rows) = 2 * coeff.rows - 2 - i := by omega
    rw [e]
    by_cases h2 : j < coeff.cols
    · rw [if_neg (by omega), if_pos (by omega), if_pos h2]
    · rw [if_pos (by omega), if_neg h2]
      congr 1; omega

theorem kernel2_even (coeff : Mat T) [Zero T] (i j : Nat) (hi : i < 2 * coeff.rows) (hj : j < 2 * coeff.cols) :
    (convKernel2 .evenLenEven coeff).f i j = coeff.f (if i < coeff.rows then i else 2 * coeff.rows - 1 - i)
      (if j < coeff.cols then j else 2 * coeff.cols - 1 - j) := by
  simp only [convKernel2]
  by_cases h1 : i < coeff.rows
  · rw [if_neg (by omega), if_pos h1]
    by_cases h2 : j < coeff.cols
    · rw [if_neg (by omega), if_pos ⟨h1, h2⟩, if_pos h2]
    · rw [if_pos (by omega), if_neg h2]
      congr 1; omega
  · rw [if_pos (by omega), if_neg h1]
    have e : coeff.rows - 1 - (i - coeff.rows) = 2 * coeff.rows - 1 - i := by omega
    rw [e]
    by_cases h2 : j < coeff.cols
    · rw [if_neg (by omega), if_pos (by omega), if_pos h2]
    · rw [if_pos (by omega), if_neg h2]
      congr 1; omega

/-- C41: the kernel matrix is the expansion of the coefficients in both dimensions -/
theorem C41_kernel_matrix [Zero T] (s : Symm) (coeff : Mat T) (hr : 1 ≤ coeff.rows) (hc : 1 ≤ coeff.cols) :
    IsKernel2 s coeff (convKernel2 s coeff) := by
  cases s with
  | nonsym => exact ⟨rfl, rfl, fun _ _ _ _ => rfl, fun h => absurd rfl h, fun h => absurd rfl h⟩
  | evenLenOdd =>
    refine ⟨rfl, rfl, ?_, ?_, ?_⟩
    · intro i hi j hj
      rw [kernel2_odd coeff i j (by omega) (by omega), if_pos hi, if_pos hj]
    · intro _ i hi j hj
      have hi' : i < 2 * coeff.rows - 1 := hi
      have hj' : j < 2 * coeff.cols - 1 := hj
      have e : (convKernel2 .evenLenOdd coeff).rows = 2 * coeff.rows - 1 := rfl
      rw [e, kernel2_odd coeff i j hi' hj', kernel2_odd coeff _ j (by omega) hj']
      congr 1
      split <;> split <;> omega
    · intro _ i hi j hj
      have hi' : i < 2 * coeff.rows - 1 := hi
      have hj' : j < 2 * coeff.cols - 1 := hj
      have e : (convKernel2 .evenLenOdd coeff).cols = 2 * coeff.cols - 1 := rfl
      rw [e, kernel2_odd coeff i j hi' hj', kernel2_odd coeff i _ hi' (by omega)]
      congr 1
      split <;> split <;> omega
  | evenLenEven =>
    refine ⟨rfl, rfl, ?_, ?_, ?_⟩
    · intro i hi j hj
      rw [kernel2_even coeff i j (by omega) (by omega), if_pos hi, if_pos hj]
    · intro _ i hi j hj
      have hi' : i < 2 * coeff.rows := hi
      have hj' : j < 2 * coeff.cols := hj
      have e : (convKernel2 .evenLenEven coeff).rows = 2 * coeff.rows := rfl
      rw [e, kernel2_even coeff i j hi' hj', kernel2_even coeff _ j (by omega) hj']
      congr 1
      split <;> split <;> omega
    · intro _ i hi j hj
      have hi' : i < 2 * coeff.rows := hi
      have hj' : j < 2 * coeff.cols := hj
      have e : (convKernel2 .evenLenEven coeff).cols = 2 * coeff.cols := rfl
      rw [e, kernel2_even coeff i j hi' hj', kernel2_even coeff i _ hi' (by omega)]
      congr 1
      split <;> split <;> omega

example : (List.range 3).map (fun i => (List.range 3).map
    ((convKernel2 .evenLenOdd (⟨2, 2, fun i j => 10 * i + j + 1⟩ : Mat Nat)).f i)) = [[1, 2, 1], [11, 12, 11], [1, 2, 1]] := by decide
end

/-! ### Convolution -/

/-- specification: the input extended by zeros -/
def zext {T : Type} [Zero T] (x : Vec T) (i : Int) : T := if 0 ≤ i ∧ i < x.n then x.f i.toNat else 0
def zext2 {T : Type} [Zero T] (x : Mat T) (i j : Int) : T :=
  if (0 ≤ i ∧ i < x.rows) ∧ 0 ≤ j ∧ j < x.cols then x.f i.toNat j.toNat else 0

/-- specification: position of output 0 in the full convolution -/
def offset (supp : Supp) (M : Nat) : Int :=
  match supp with
  | .full => 0
  | .same => (M / 2 : Nat)
  | .min => M - 1

section
variable {T : Type} [Semiring T]

theorem conv_step (K inp : Vec T) (o k : Nat) (hk : k < K.n) (s : T) :
    (if o ≥ k ∧ o - k < inp.n then (do some (s + (← K.get k) * (← inp.get (o - k)))) else some s : Option T) =
      some (s + K.f k * zext inp ((o : Int) - k)) := by
  unfold zext
  by_cases h : o ≥ k ∧ o - k < inp.n
  · have e : ((o : Int) - k).toNat = o - k := by omega
    rw [if_pos h, if_pos (by omega), e]
    simp [Vec.get, hk, h.2]
  · rw [if_neg h, if_neg (by omega)]
    simp

theorem conv_step2 (K inp : Mat T) (o p i j : Nat) (hi : i < K.rows) (hj : j < K.cols) (s : T) :
    (if o ≥ i ∧ o - i < inp.rows ∧ p ≥ j ∧ p - j < inp.cols then
        (do some (s + (← K.get i j) * (← inp.get (o - i) (p - j)))) else some s : Option T) =
      some (s + K.f i j * zext2 inp ((o : Int) - i) ((p : Int) - j)) := by
  unfold zext2
  by_cases h : o ≥ i ∧ o - i < inp.rows ∧ p ≥ j ∧ p - j < inp.cols
  · have e : ((o : Int) - i).toNat = o - i := by omega
    have e' : ((p : Int) - j).toNat = p - j := by omega
    rw [if_pos h, if_pos (by omega), e, e']
    simp [Mat.get, hi, hj, h.2.1, h.2.2.2]
  · rw [if_neg h, if_neg (by omega)]
    simp

theorem conv_min_step (K inp : Vec T) (o k : Nat) (hk : k < K.n) (h : o ≥ k ∧ o - k < inp.n) (s : T) :
    (do some (s + (← K.get k) * (← inp.get (o - k))) : Option T) = some (s + K.f k * zext inp ((o : Int) - k)) := by
  rw [← conv_step K inp o k hk s, if_pos h]

theorem conv_min_step2 (K inp : Mat T) (o p i j : Nat) (hi : i < K.rows) (hj : j < K.cols)
    (h : o ≥ i ∧ o - i < inp.rows ∧ p ≥ j ∧ p - j < inp.cols) (s : T) :
    (do some (s + (← K.get i j) * (← inp.get (o - i) (p - j))) : Option T) =
      some (s + K.f i j * zext2 inp ((o : Int) - i) ((p : Int) - j)) := by
  rw [← conv_step2 K inp o p i j hi hj s, if_pos h]

/-- C41: every output is the decimated convolution sum, and computing it reads nothing outside kernel and input -/
theorem C41_values (s : Symm) (supp : Supp) (coeff inp K : Vec T) (D n : Nat) (hc : 1 ≤ coeff.n) (hK : IsKernel s coeff K)
    (hn : n * D < extent supp K.n inp.n) :
    (convolve1 s supp coeff inp D).2 n =
      some (∑ k ∈ range K.n, K.f k * zext inp ((n : Int) * D + offset supp K.n - k)) := by
  obtain ⟨eK, fK⟩ := isKernel_unique hc hK (C41_kernel s coeff hc).1
  have e : ∀ o : Nat, (∑ k ∈ range K.n, K.f k * zext inp ((o : Int) - k)) =
      ∑ k ∈ range (convKernel1 s coeff).n, (convKernel1 s coeff).f k * zext inp ((o : Int) - k) := by
    intro o
    rw [← eK]
    exact sum_congr rfl fun k hk => by rw [fK k (mem_range.1 hk)]
  cases supp with
  | full =>
    have := e (n * D)
    push_cast at this
    simp only [convolve1, offset, convFull, Int.add_zero]
    rw [this, loop_sum _ _ _ (fun k => (convKernel1 s coeff).f k * zext inp ((n * D : Nat) - (k : Int)))
      (fun k s hk => conv_step _ inp (n * D) k hk s), zero_add]
    push_cast
    rfl
  | same =>
    have := e (n * D + K.n / 2)
    push_cast at this
    simp only [convolve1, offset, convSame]
    rw [← eK, show ((K.n / 2 : Nat) : Int) = (K.n : Int) / 2 by omega, this]
    rw [eK]
    rw [loop_sum _ _ _ (fun k => (convKernel1 s coeff).f k * zext inp ((n * D + (convKernel1 s coeff).n / 2 : Nat) - (k : Int)))
      (fun k s hk => conv_step _ inp (n * D + _) k hk s), zero_add]
    push_cast
    rfl
  | min =>
    have h1 : 1 ≤ K.n := by
      by_contra h0
      have := hK.size
      cases s <;> simp only at this <;> omega
    have := e (n * D + (K.n - 1))
    push_cast [h1] at this
    simp only [convolve1, offset, convMin]
    simp only [extent] at hn
    rw [← Int.add_sub_assoc] at *
    rw [this, loop_sum _ _ _ (fun k => (convKernel1 s coeff).f k * zext inp ((n * D + ((convKernel1 s coeff).n - 1) : Nat) - (k : Int)))
      (fun k s hk => conv_min_step _ inp (n * D + _) k hk (by omega) s), zero_add, ← eK]
    push_cast [h1]
    rw [← Int.add_sub_assoc]

/-- C41 for matrices; `K` is the kernel actually built, characterised by `C41_kernel_matrix` -/
theorem C41_values_matrix (s : Symm) (supp : Supp) (coeff inp : Mat T) (D r c : Nat) (hcr : 1 ≤ coeff.rows) (hcc : 1 ≤ coeff.cols)
    (hr : r * D < extent supp (convKernel2 s coeff).rows inp.rows) (hc : c * D < extent supp (convKernel2 s coeff).cols inp.cols) :
    (convolve2 s supp coeff inp D).2 r c =
      some (∑ i ∈ range (convKernel2 s coeff).rows, ∑ j ∈ range (convKernel2 s coeff).cols, (convKernel2 s coeff).f i j *
        zext2 inp ((r : Int) * D + offset supp (convKernel2 s coeff).rows - i)
          ((c : Int) * D + offset supp (convKernel2 s coeff).cols - j)) := by
  have hK := C41_kernel_matrix s coeff hcr hcc
  have h1 : 1 ≤ (convKernel2 s coeff).rows := by
    by_contra h0
    have := hK.rows
    cases s <;> simp only at this <;> omega
  have h2 : 1 ≤ (convKernel2 s coeff).cols := by
    by_contra h0
    have := hK.cols
    cases s <;> simp only at this <;> omega
  simp only [convolve2]
  generalize convKernel2 s coeff = K at *
  cases supp with
  | full =>
    simp only [offset, convFull2, Int.add_zero]
    rw [loop_sum2 _ _ _ (fun i j => K.f i j * zext2 inp ((r * D : Nat) - (i : Int)) ((c * D : Nat) - (j : Int)))
      (fun i j s hi hj => conv_step2 K inp (r * D) (c * D) i j hi hj s)]
    push_cast
    rfl
  | same =>
    simp only [offset, convSame2]
    rw [loop_sum2 _ _ _ (fun i j => K.f i j * zext2 inp ((r * D + K.rows / 2 : Nat) - (i : Int)) ((c * D + K.cols / 2 : Nat) - (j : Int)))
      (fun i j s hi hj => conv_step2 K inp (r * D + _) (c * D + _) i j hi hj s)]
    push_cast
    rfl
  | min =>
    simp only [offset, convMin2]
    simp only [extent] at hr hc
    rw [loop_sum2 _ _ _ (fun i j => K.f i j * zext2 inp ((r * D + (K.rows - 1) : Nat) - (i : Int)) ((c * D + (K.cols - 1) : Nat) - (j : Int)))
      (fun i j s hi hj => conv_min_step2 K inp (r * D + _) (c * D + _) i j hi hj (by omega) s)]
    push_cast [h1, h2]
    rfl

example : (1 : Nat) ≤ 2 ∧ 1 * 2 < extent .same 3 4 ∧
    (convolve1 .evenLenOdd .same (⟨2, fun i => i + 1⟩ : Vec Nat) ⟨4, fun i => i⟩ 2).2 1 = some 8 := by decide
end

/-! ### Correlation -/

/-- specification: the lag of output 0 -/
def lag (supp : Supp) (M : Nat) : Int :=
  match supp with
  | .full => M - 1
  | .same => (M / 2 : Nat)
  | .min => 0

/-- specification: the elements of a reference of size `M` that meet an input of size `N` at output `n` -/
def overlap (supp : Supp) (M N n : Nat) : Finset Nat :=
  (range M).filter fun k => 0 ≤ (n : Int) + k - lag supp M ∧ (n : Int) + k - lag supp M < N

section
variable {T : Type} [Field T]

theorem corr_step (conj : T → T) (ref inp : Vec T) (sh n k : Nat) (hk : k < ref.n) (s : T) :
    (if n + k ≥ sh ∧ n + k < inp.n + sh then (do some (s + (← ref.get k) * conj (← inp.get (n + k - sh)))) else some s : Option T) =
      some (s + if 0 ≤ (n : Int) + k - sh ∧ (n : Int) + k - sh < inp.n then ref.f k * conj (inp.f ((n : Int) + k - sh).toNat) else 0) := by
  by_cases h : n + k ≥ sh ∧ n + k < inp.n + sh
  · have e : ((n : Int) + k - sh).toNat = n + k - sh := by omega
    rw [if_pos h, if_pos (by omega), e]
    simp [Vec.get, hk, show n + k - sh < inp.n by omega]
  · rw [if_neg h, if_neg (by omega)]
    simp

theorem corr_step2 (conj : T → T) (ref inp : Mat T) (sh sc r c i j : Nat) (hi : i < ref.rows) (hj : j < ref.cols) (s : T) :
    (if r + i ≥ sh ∧ r + i < inp.rows + sh ∧ c + j ≥ sc ∧ c + j < inp.cols + sc then
        (do some (s + (← ref.get i j) * conj (← inp.get (r + i - sh) (c + j - sc)))) else some s : Option T) =
      some (s + if 0 ≤ (r : Int) + i - sh ∧ (r : Int) + i - sh < inp.rows then
        if 0 ≤ (c : Int) + j - sc ∧ (c : Int) + j - sc < inp.cols then
          ref.f i j * conj (inp.f ((r : Int) + i - sh).toNat ((c : Int) + j - sc).toNat) else 0 else 0) := by
  by_cases h : r + i ≥ sh ∧ r + i < inp.rows + sh ∧ c + j ≥ sc ∧ c + j < inp.cols + sc
  · have e : ((r : Int) + i - sh).toNat = r + i - sh := by omega
    have e' : ((c : Int) + j - sc).toNat = c + j - sc := by omega
    rw [if_pos h, if_pos (by omega), if_pos (by omega), e, e']
    simp [Mat.get, hi, hj, show r + i - sh < inp.rows by omega, show c + j - sc < inp.cols by omega]
  · rw [if_neg h]
    split
    · rw [if_neg (by omega)]; simp
    · simp

/-- value of the summing loop with lag `sh` -/
theorem corr_loop (conj : T → T) (supp : Supp) (ref inp : Vec T) (n sh : Nat) (hl : lag supp ref.n = sh) :
    loop ref.n (0 : T) (fun sum k =>
      if n + k ≥ sh ∧ n + k < inp.n + sh then do
        some (sum + (← ref.get k) * conj (← inp.get (n + k - sh)))
      else some sum) =
      some (∑ k ∈ overlap supp ref.n inp.n n, ref.f k * conj (inp.f ((n : Int) + k - lag supp ref.n).toNat)) := by
  rw [loop_sum _ _ _ _ (fun k s hk => corr_step conj ref inp sh n k hk s), zero_add]
  unfold overlap
  rw [sum_filter, hl]

theorem corr_loop2 (conj : T → T) (supp : Supp) (ref inp : Mat T) (r c sh sc : Nat) (hl : lag supp ref.rows = sh)
    (hl' : lag supp ref.cols = sc) :
    loop ref.rows (0 : T) (fun sum i => loop ref.cols sum fun sum j =>
      if r + i ≥ sh ∧ r + i < inp.rows + sh ∧ c + j ≥ sc ∧ c + j < inp.cols + sc then do
        some (sum + (← ref.get i j) * conj (← inp.get (r + i - sh) (c + j - sc)))
      else some sum) =
      some (∑ i ∈ overlap supp ref.rows inp.rows r, ∑ j ∈ overlap supp ref.cols inp.cols c,
        ref.f i j * conj (inp.f ((r : Int) + i - lag supp ref.rows).toNat ((c : Int) + j - lag supp ref.cols).toNat)) := by
  rw [loop_sum2 _ _ _ _ (fun i j s hi hj => corr_step2 conj ref inp sh sc r c i j hi hj s)]
  unfold overlap
  rw [sum_filter, hl, hl']
  congr 1
  refine sum_congr rfl fun i _ => ?_
  split
  · rw [sum_filter]
  · simp

/-- the guards of the other supports hold throughout for minimum support -/
theorem corr_min_loop (conj : T → T) (ref inp : Vec T) (n : Nat) (hn : n < extent .min ref.n inp.n) :
    loop ref.n (0 : T) (fun sum k => do some (sum + (← ref.get k) * conj (← inp.get (n + k)))) =
      some (∑ k ∈ overlap .min ref.n inp.n n, ref.f k * conj (inp.f ((n : Int) + k - lag .min ref.n).toNat)) := by
  rw [← corr_loop conj .min ref inp n 0 rfl]
  rw [loop_sum _ _ _ _ (fun k s hk => corr_step conj ref inp 0 n k hk s)]
  rw [loop_sum _ _ _ _ (fun k s hk => ?_)]
  have hnk : n + k < inp.n := by simp only [extent] at hn; omega
  have := corr_step conj ref inp 0 n k hk s
  rw [if_pos (by omega), Nat.sub_zero] at this
  exact this

/-- C42: outputs are sums over the overlapping range of products of the reference and the conjugated input; nothing outside is read -/
theorem C42_values (conj : T → T) (supp : Supp) (ref inp : Vec T) (n : Nat) (hM : 1 ≤ ref.n) (hMN : ref.n ≤ inp.n)
    (hn : n < extent supp ref.n inp.n) :
    (correlate1 conj supp false ref inp).2 n =
      some (∑ k ∈ overlap supp ref.n inp.n n, ref.f k * conj (inp.f ((n : Int) + k - lag supp ref.n).toNat)) := by
  cases supp with
  | full =>
    simp only [correlate1, corrFull, if_pos hMN]
    rw [corr_loop conj .full ref inp n (ref.n - 1) (by simp only [lag]; omega)]
    simp
  | same =>
    simp only [correlate1, corrSame]
    rw [corr_loop conj .same ref inp n (ref.n / 2) rfl]
    simp
  | min =>
    simp only [correlate1, corrMin]
    rw [corr_min_loop conj ref inp n hn]
    simp

/-- C42 for matrices -/
theorem C42_values_matrix (conj : T → T) (supp : Supp) (ref inp : Mat T) (r c : Nat) (hM : 1 ≤ ref.rows) (hM' : 1 ≤ ref.cols)
    (hMN : ref.rows ≤ inp.rows) (hMN' : ref.cols ≤ inp.cols) :
    (correlate2 conj supp false ref inp).2 r c =
      some (∑ i ∈ overlap supp ref.rows inp.rows r, ∑ j ∈ overlap supp ref.cols inp.cols c,
        ref.f i j * conj (inp.f ((r : Int) + i - lag supp ref.rows).toNat ((c : Int) + j - lag supp ref.cols).toNat)) := by
  cases supp with
  | full =>
    simp only [correlate2, corrBase, if_pos (show ref.rows ≤ inp.rows ∧ ref.cols ≤ inp.cols from ⟨hMN, hMN'⟩)]
    rw [corr_loop2 conj .full ref inp r c (ref.rows - 1) (ref.cols - 1) (by simp only [lag]; omega) (by simp only [lag]; omega)]
    simp
  | same =>
    simp only [correlate2, corrBase, if_pos (show ref.rows ≤ inp.rows ∧ ref.cols ≤ inp.cols from ⟨hMN, hMN'⟩)]
    rw [corr_loop2 conj .same ref inp r c (ref.rows / 2) (ref.cols / 2) rfl rfl]
    simp
  | min =>
    simp only [correlate2, corrBase, if_pos (show ref.rows ≤ inp.rows ∧ ref.cols ≤ inp.cols from ⟨hMN, hMN'⟩)]
    rw [corr_loop2 conj .min ref inp r c 0 0 rfl rfl]
    simp

/-- C42: the number of outputs -/
theorem C42_size (supp : Supp) {M N : Nat} (hM : 1 ≤ M) (hMN : M ≤ N) (hs : N + M < 9223372036854775808) :
    outputSize supp M N 1 = extent supp M N := by
  have h := C41_size supp hM (show 1 ≤ N by omega) (Nat.le_refl 1) (fun _ => hMN) hs
  have h1 := h (outputSize supp M N 1)
  have h2 := h (extent supp M N)
  omega

/-- C42: correlations of vectors and matrices have as many outputs as the extent of the support -/
theorem C42_outputs {T : Type} [Field T] (conj : T → T) (supp : Supp) (u : Bool) (ref inp : Vec T) (refm inpm : Mat T)
    (h : 1 ≤ ref.n ∧ ref.n ≤ inp.n ∧ inp.n + ref.n < 9223372036854775808)
    (hr : 1 ≤ refm.rows ∧ refm.rows ≤ inpm.rows ∧ inpm.rows + refm.rows < 9223372036854775808)
    (hc : 1 ≤ refm.cols ∧ refm.cols ≤ inpm.cols ∧ inpm.cols + refm.cols < 9223372036854775808) :
    (correlate1 conj supp u ref inp).1 = extent supp ref.n inp.n ∧
    (correlate2 conj supp u refm inpm).1 = (extent supp refm.rows inpm.rows, extent supp refm.cols inpm.cols) := by
  simp only [correlate1, correlate2]
  rw [C42_size supp h.1 h.2.1 h.2.2, C42_size supp hr.1 hr.2.1 hr.2.2, C42_size supp hc.1 hc.2.1 hc.2.2]
  exact ⟨rfl, rfl⟩

example : (1 : Nat) ≤ 2 ∧ 2 ≤ 3 ∧ 0 < extent .full 2 3 ∧
    (correlate1 (T := ℚ) id .full false ⟨2, fun i => i + 2⟩ ⟨3, fun i => i + 5⟩).2 0 = some 15 := by
  refine ⟨by decide, by decide, by decide, ?_⟩
  norm_num [correlate1, corrFull, loop, List.range_succ, Vec.get]

/-! ### Unbiased scaling -/

theorem overlap_card (supp : Supp) (M N n sh : Nat) (hl : lag supp M = sh) :
    (overlap supp M N n).card = min M (N + sh - n) - (sh - n) := by
  have : overlap supp M N n = Finset.Ico (sh - n) (min M (N + sh - n)) := by
    ext k
    simp only [overlap, mem_filter, mem_range, mem_Ico, hl]
    omega
  rw [this, Nat.card_Ico]

/-- C43: with full and minimum support each output is divided by the number of products contributing to it; with same support for
references of odd size and away from the end of the output (missing: `C43_same_false`) -/
theorem C43_unbiased_partial (conj : T → T) (supp : Supp) (ref inp : Vec T) (n : Nat) (hM : 1 ≤ ref.n) (hMN : ref.n ≤ inp.n)
    (hn : n < extent supp ref.n inp.n) (hsame : supp = .same → ref.n % 2 = 1 ∨ n < inp.n - ref.n / 2) :
    (correlate1 conj supp true ref inp).2 n =
      some ((∑ k ∈ overlap supp ref.n inp.n n, ref.f k * conj (inp.f ((n : Int) + k - lag supp ref.n).toNat)) /
        ((overlap supp ref.n inp.n n).card : T)) := by
  cases supp with
  | full =>
    simp only [extent] at hn
    simp only [correlate1, corrFull, if_pos hMN]
    rw [corr_loop conj .full ref inp n (ref.n - 1) (by simp only [lag]; omega),
      overlap_card .full ref.n inp.n n (ref.n - 1) (by simp only [lag]; omega)]
    simp only [Option.bind_eq_bind, Option.bind_some, if_true]
    split
    · congr 3; omega
    · split
      · congr 3; omega
      · congr 3; omega
  | same =>
    simp only [extent] at hn
    have hs := hsame rfl
    simp only [correlate1, corrSame]
    rw [corr_loop conj .same ref inp n (ref.n / 2) rfl, overlap_card .same ref.n inp.n n (ref.n / 2) rfl]
    simp only [Option.bind_eq_bind, Option.bind_some, if_true]
    split
    · congr 3; omega
    · split
      · congr 3; omega
      · congr 3; omega
  | min =>
    simp only [correlate1, corrMin]
    rw [corr_min_loop conj ref inp n hn, overlap_card .min ref.n inp.n n 0 rfl]
    simp only [extent] at hn
    simp only [Option.bind_eq_bind, Option.bind_some, if_true]
    congr 3; omega

example : (1 : Nat) ≤ 3 ∧ 3 ≤ 4 ∧ 3 < extent .same 3 4 ∧ (3 % 2 = 1) ∧ (overlap .same 3 4 3).card = 2 := by decide

/-- C43 is false of same support and a reference of even size: the last output is the sum of two products but is divided by one -/
theorem C43_same_false :
    (correlate1 (T := ℚ) id .same true ⟨2, fun _ => 1⟩ ⟨2, fun _ => 1⟩).2 1 = some 2 ∧ (overlap .same 2 2 1).card = 2 ∧
    (∑ _k ∈ overlap .same 2 2 1, (1 : ℚ) * id 1) / ((overlap .same 2 2 1).card : ℚ) ≠ 2 := by
  have hc : (overlap .same 2 2 1).card = 2 := by decide
  refine ⟨?_, hc, ?_⟩
  · norm_num [correlate1, corrSame, loop, List.range_succ, Vec.get]
  · rw [sum_const, hc]; norm_num

theorem baseScale_full {M N r : Nat} (hM : 1 ≤ M) (hMN : M ≤ N) :
    (overlap .full M N r).card = baseScale r M N (M - 1) 0 := by
  rw [overlap_card .full M N r (M - 1) (by simp only [lag]; omega)]
  unfold baseScale
  split
  · omega
  · split <;> omega

theorem baseScale_same {M N r : Nat} (hM : 1 ≤ M) (hMN : M ≤ N) (hr : r < extent .same M N) :
    (overlap .same M N r).card = baseScale r M N (M / 2) (M / 2) := by
  rw [overlap_card .same M N r (M / 2) rfl]
  simp only [extent] at hr
  unfold baseScale
  split
  · omega
  · split <;> omega

theorem baseScale_min {M N r : Nat} (hMN : M ≤ N) (hr : r < extent .min M N) :
    (overlap .min M N r).card = baseScale r M N 0 0 := by
  rw [overlap_card .min M N r 0 rfl]
  simp only [extent] at hr
  unfold baseScale
  split
  · omega
  · split <;> omega

/-- C43 for matrices: all supports and sizes -/
theorem C43_unbiased_matrix (conj : T → T) (supp : Supp) (ref inp : Mat T) (r c : Nat) (hM : 1 ≤ ref.rows) (hM' : 1 ≤ ref.cols)
    (hMN : ref.rows ≤ inp.rows) (hMN' : ref.cols ≤ inp.cols) (hr : r < extent supp ref.rows inp.rows)
    (hc : c < extent supp ref.cols inp.cols) :
    (correlate2 conj supp true ref inp).2 r c =
      some ((∑ i ∈ overlap supp ref.rows inp.rows r, ∑ j ∈ overlap supp ref.cols inp.cols c,
        ref.f i j * conj (inp.f ((r : Int) + i - lag supp ref.rows).toNat ((c : Int) + j - lag supp ref.cols).toNat)) /
        (((overlap supp ref.rows inp.rows r ×ˢ overlap supp ref.cols inp.cols c).card : Nat) : T)) := by
  rw [card_product, Nat.cast_mul]
  cases supp with
  | full =>
    simp only [correlate2, corrBase, if_pos (show ref.rows ≤ inp.rows ∧ ref.cols ≤ inp.cols from ⟨hMN, hMN'⟩)]
    rw [corr_loop2 conj .full ref inp r c (ref.rows - 1) (ref.cols - 1) (by simp only [lag]; omega) (by simp only [lag]; omega),
      baseScale_full hM hMN, baseScale_full hM' hMN']
    simp
  | same =>
    simp only [correlate2, corrBase, if_pos (show ref.rows ≤ inp.rows ∧ ref.cols ≤ inp.cols from ⟨hMN, hMN'⟩)]
    rw [corr_loop2 conj .same ref inp r c (ref.rows / 2) (ref.cols / 2) rfl rfl,
      baseScale_same hM hMN hr, baseScale_same hM' hMN' hc]
    simp
  | min =>
    simp only [correlate2, corrBase, if_pos (show ref.rows ≤ inp.rows ∧ ref.cols ≤ inp.cols from ⟨hMN, hMN'⟩)]
    rw [corr_loop2 conj .min ref inp r c 0 0 rfl rfl, baseScale_min hMN hr, baseScale_min hMN' hc]
    simp

example : (1 : Nat) ≤ 2 ∧ 2 ≤ 3 ∧ 2 < extent .same 2 3 ∧ (overlap .same 2 3 2).card = 2 := by decide
end

end Verif.Props
#print axioms Verif.Props.C41_kernel_size_partial
