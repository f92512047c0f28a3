import Verif.Svd.Model
import Mathlib.Algebra.BigOperators.Ring.Finset
import Mathlib.Algebra.Star.BigOperators
import Mathlib.Tactic.Ring

/-!
# Algebra of the decomposition
-/

namespace Verif.Svd

open Finset

variable {𝕜 : Type} [RCLike 𝕜]

/-- The matrix `X` continued by the identity. -/
noncomputable def ext (p : ℕ) (X : ℕ → ℕ → ℝ) (i j : ℕ) : 𝕜 := if i < p ∧ j < p then (X i j : 𝕜) else if i = j then 1 else 0

theorem ext_ortho {p c : ℕ} (hp : p ≤ c) {X : ℕ → ℕ → ℝ} (hX : Ortho p p X) : Ortho c c (ext p X : ℕ → ℕ → 𝕜) := by
  intro j hj k hk
  by_cases hjp : j < p
  · by_cases hkp : k < p
    · have h1 : ∑ i ∈ range c, star (ext p X i j : 𝕜) * ext p X i k = ∑ i ∈ range p, star (ext p X i j : 𝕜) * ext p X i k := by
        symm
        refine sum_subset (range_subset_range.2 hp) fun i _ hi => ?_
        rw [mem_range] at hi
        have : (ext p X i j : 𝕜) = 0 := by unfold ext; rw [if_neg (by omega), if_neg (by omega)]
        rw [this, star_zero, zero_mul]
      rw [h1]
      have h2 := hX j hjp k hkp
      have h3 : ∑ i ∈ range p, star (ext p X i j : 𝕜) * ext p X i k = ((∑ i ∈ range p, star (X i j) * X i k : ℝ) : 𝕜) := by
        rw [RCLike.ofReal_sum]
        refine sum_congr rfl fun i hi => ?_
        rw [mem_range] at hi
        unfold ext
        rw [if_pos ⟨hi, hjp⟩, if_pos ⟨hi, hkp⟩]
        simp
      rw [h3, h2]
      split <;> simp
    · rw [sum_eq_single k]
      · have a : (ext p X k j : 𝕜) = 0 := by unfold ext; rw [if_neg (by omega), if_neg (by omega)]
        rw [a, star_zero, zero_mul, if_neg (by omega)]
      · intro i _ hi
        have a : (ext p X i k : 𝕜) = 0 := by unfold ext; rw [if_neg (by omega), if_neg hi]
        rw [a, mul_zero]
      · intro h; simp at h; omega
  · rw [sum_eq_single j]
    · have a : (ext p X j j : 𝕜) = 1 := by unfold ext; rw [if_neg (by omega), if_pos rfl]
      have b : (ext p X j k : 𝕜) = if j = k then 1 else 0 := by unfold ext; rw [if_neg (by omega)]
      rw [a, b, star_one, one_mul]
    · intro i _ hi
      have a : (ext p X i j : 𝕜) = 0 := by unfold ext; rw [if_neg (by omega), if_neg hi]
      rw [a, star_zero, zero_mul]
    · intro h; simp at h; omega

theorem ortho_mul {r c : ℕ} {Q R : ℕ → ℕ → 𝕜} (hQ : Ortho r c Q) (hR : Ortho c c R) : Ortho r c (mul c Q R) := by
  intro j hj k hk
  have key : ∀ i, star (mul c Q R i j) * mul c Q R i k = ∑ a ∈ range c, ∑ b ∈ range c, (star (R a j) * R b k) * (star (Q i a) * Q i b) := by
    intro i
    simp only [mul, star_sum, star_mul, sum_mul_sum]
    refine sum_congr rfl fun a _ => sum_congr rfl fun b _ => ?_
    ring
  simp only [key]
  rw [sum_comm]
  have : ∀ a ∈ range c, ∑ i ∈ range r, ∑ b ∈ range c, (star (R a j) * R b k) * (star (Q i a) * Q i b) = star (R a j) * R a k := by
    intro a ha
    rw [sum_comm]
    have : ∀ b ∈ range c, ∑ i ∈ range r, (star (R a j) * R b k) * (star (Q i a) * Q i b) = if a = b then star (R a j) * R b k else 0 := by
      intro b hb
      rw [← mul_sum, hQ a (mem_range.1 ha) b (mem_range.1 hb)]
      split <;> simp
    rw [sum_congr rfl this, sum_ite_eq, if_pos ha]
  rw [sum_congr rfl this]
  exact hR j hj k hk

theorem Ortho.le {r c c' : ℕ} {Q : ℕ → ℕ → 𝕜} (h : Ortho r c Q) (hc : c' ≤ c) : Ortho r c' Q :=
  fun j hj k hk => h j (by omega) k (by omega)

theorem Ortho.congr {r c : ℕ} {Q Q' : ℕ → ℕ → 𝕜} (h : Ortho r c Q) (he : ∀ i < r, ∀ j < c, Q' i j = Q i j) : Ortho r c Q' := by
  intro j hj k hk
  rw [← h j hj k hk]
  refine sum_congr rfl fun i hi => ?_
  rw [he i (mem_range.1 hi) j hj, he i (mem_range.1 hi) k hk]

/-- Columns of a product with a continued matrix. -/
theorem mul_ext {p c : ℕ} (hp : p ≤ c) (X : ℕ → ℕ → ℝ) (Q : ℕ → ℕ → 𝕜) (i : ℕ) {j : ℕ} (hj : j < c) :
    mul c Q (ext p X) i j = if j < p then ∑ k ∈ range p, Q i k * (X k j : 𝕜) else Q i j := by
  unfold mul
  by_cases h : j < p
  · rw [if_pos h]
    have h1 : ∑ k ∈ range c, Q i k * (ext p X k j : 𝕜) = ∑ k ∈ range p, Q i k * (ext p X k j : 𝕜) := by
      symm
      refine sum_subset (range_subset_range.2 hp) fun k _ hk => ?_
      rw [mem_range] at hk
      have : (ext p X k j : 𝕜) = 0 := by unfold ext; rw [if_neg (by omega), if_neg (by omega)]
      rw [this, mul_zero]
    rw [h1]
    refine sum_congr rfl fun k hk => ?_
    unfold ext
    rw [if_pos ⟨mem_range.1 hk, h⟩]
  · rw [if_neg h, sum_eq_single j]
    · have : (ext p X j j : 𝕜) = 1 := by unfold ext; rw [if_neg (by omega), if_pos rfl]
      rw [this, mul_one]
    · intro k _ hk
      have : (ext p X k j : 𝕜) = 0 := by unfold ext; rw [if_neg (by omega), if_neg hk]
      rw [this, mul_zero]
    · intro h; simp at h; omega

/-- The two factorisations combined. -/
theorem combine {m n : ℕ} {A Q P : ℕ → ℕ → 𝕜} {B : ℕ → ℕ → ℝ} {X Y : ℕ → ℕ → ℝ} {s : ℕ → ℝ} (hQ : Ortho m m Q) (hP : Ortho n n P)
    (hA : ∀ i < m, ∀ j < n, A i j = ∑ k ∈ range (min m n), ∑ l ∈ range (min m n), Q i k * (B k l : 𝕜) * star (P j l))
    (hX : Ortho (min m n) (min m n) X) (hY : Ortho (min m n) (min m n) Y)
    (hB : ∀ i < min m n, ∀ j < min m n, B i j = ∑ t ∈ range (min m n), X i t * s t * Y j t)
    (h0 : ∀ l < min m n, 0 ≤ s l) (h1 : ∀ k l, k ≤ l → l < min m n → s l ≤ s k) :
    IsSvd m n A s (mul m Q (ext (min m n) X)) (mul n P (ext (min m n) Y)) := by
  refine ⟨fun i hi j hj => ?_, (ortho_mul hQ (ext_ortho (min_le_left _ _) hX)).le (min_le_left _ _),
    (ortho_mul hP (ext_ortho (min_le_right _ _) hY)).le (min_le_right _ _), h0, h1⟩
  rw [hA i hi j hj]
  have lhs : ∀ k ∈ range (min m n), ∀ l ∈ range (min m n), Q i k * (B k l : 𝕜) * star (P j l) =
      ∑ t ∈ range (min m n), (Q i k * (X k t : 𝕜)) * (s t : 𝕜) * (star (P j l) * (Y l t : 𝕜)) := by
    intro k hk l hl
    rw [hB k (mem_range.1 hk) l (mem_range.1 hl), RCLike.ofReal_sum, mul_sum, sum_mul]
    refine sum_congr rfl fun t _ => ?_
    push_cast
    ring
  rw [sum_congr rfl fun k hk => sum_congr rfl fun l hl => lhs k hk l hl]
  rw [sum_congr rfl fun k _ => sum_comm, sum_comm]
  refine sum_congr rfl fun t ht => ?_
  have ht' := mem_range.1 ht
  rw [mul_ext (min_le_left _ _) X Q i (lt_of_lt_of_le ht' (min_le_left _ _)), if_pos ht',
    mul_ext (min_le_right _ _) Y P j (lt_of_lt_of_le ht' (min_le_right _ _)), if_pos ht', star_sum, sum_mul, sum_mul_sum]
  refine sum_congr rfl fun k _ => sum_congr rfl fun l _ => ?_
  simp only [star_mul, RCLike.star_def, RCLike.conj_ofReal]
  ring

end Verif.Svd
