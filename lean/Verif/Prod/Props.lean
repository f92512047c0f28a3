import Mathlib.Algebra.BigOperators.Ring.Finset
import Mathlib.Data.Rat.Floor
import Mathlib.Tactic.NormNum
import Verif.Prod.Lemmas

/-!
# C75: products of matrices and vectors
-/

namespace Verif.Props

open Verif Verif.Prd Finset

section
variable {T : Type} [Semiring T]

/-- The loops of an assignment, whatever bound they use, if it is the common size. -/
theorem prd_assign (c cv : T → T) (hcv : Absorbs cv) (r : MV) (x y : P T) (m : ℤ → T) (hs : (P.prod c x y).Sized) (hr : r.rows = x.rows) (hc : r.cols = y.cols) (hd : r.Distinct)
    (ha : ∀ v ∈ x.outer ++ y.outer, r.Apart v) :
    ∃ m' A B, Prd.exec (σ := ℤ → T) (fun m => m) (fun m i j v => Function.update m (r.at i j) v) r.rows r.cols c cv x.cols x.toE y.toE m = some (m', A, B) ∧
      (∀ i < r.rows, ∀ j < r.cols, m' (r.at i j) = cv ((P.prod c x y).val m i j)) ∧ ∀ a, (∀ i < r.rows, ∀ j < r.cols, a ≠ r.at i j) → m' a = m a := by
  obtain ⟨h1, h2, h3⟩ := hs
  have hx := beh m x h1
  have hy := beh m y h2
  rw [← h3] at hy
  obtain ⟨s, A, B, e, hI1, hI2⟩ := exec_inv hx hy c cv hcv (fun m : ℤ → T => m) (fun m i j v => Function.update m (r.at i j) v) r.rows r.cols hr.le hc.le m rfl
    (fun i j s => (∀ i' < r.rows, ∀ j' < r.cols, (i' < i ∨ (i' = i ∧ j' < j)) → s (r.at i' j') = cv ((P.prod c x y).val m i' j')) ∧
      ∀ a, (∀ i < r.rows, ∀ j < r.cols, a ≠ r.at i j) → s a = m a)
    ⟨fun i' _ j' _ h => by omega, fun _ _ => rfl⟩
    (fun i j s hs => ⟨fun v hv i1 hi1 j1 hj1 => hs.2 _ fun i2 hi2 j2 hj2 h => ha v (by simp [hv]) i2 hi2 j2 hj2 i1 hi1 j1 hj1 h.symm,
      fun v hv i1 hi1 j1 hj1 => hs.2 _ fun i2 hi2 j2 hj2 h => ha v (by simp [hv]) i2 hi2 j2 hj2 i1 hi1 j1 hj1 h.symm⟩)
    (by
      rintro i hi j hj s ⟨hs1, hs2⟩
      refine ⟨fun i' hi' j' hj' h => ?_, fun a h => ?_⟩
      · by_cases he : r.at i' j' = r.at i j
        · obtain ⟨rfl, rfl⟩ := hd i' hi' j' hj' i hi j hj he
          rw [Function.update_self]
          rfl
        · have : ¬ (i' = i ∧ j' = j) := fun hh => he (by rw [hh.1, hh.2])
          rw [Function.update_of_ne he]
          exact hs1 i' hi' j' hj' (by omega)
      · rw [Function.update_of_ne (h i hi j hj)]
        exact hs2 a h)
    (fun i _ s hs => ⟨fun i' hi' j' hj' h => hs.1 i' hi' j' hj' (by omega), hs.2⟩)
  exact ⟨s, A, B, e, fun i hi j hj => hI1 i hi j hj (by omega), hI2⟩

/-- **C75, partial (assignment).** `r = prod(x, y)` and its relatives, for expressions `x` and `y` of stored matrices, transpositions, elementwise functions and further
products, of agreeing sizes: every element of `r` gets the value of the product for the memory before the assignment, and nothing else changes.  A matrix that stands
inside of a further product may overlap the result, even be it; one that stands outside may not.  If the result has a narrower type, its elements are the converted
values, as long as the conversion can be put off to the end.  Missing: overlap with arguments, see `C75_alias_false`; conversions that round, see `C75_narrow_false`. -/
theorem C75_assign_partial (c cv : T → T) (hcv : Absorbs cv) (r : MV) (x y : P T) (m : ℤ → T) (hs : (P.prod c x y).Sized) (hr : r.rows = x.rows) (hc : r.cols = y.cols) (hd : r.Distinct)
    (ha : ∀ v ∈ x.outer ++ y.outer, r.Apart v) :
    ∃ m', assign cv c r x y m = some m' ∧ assignVM cv c r x y m = some m' ∧
      (∀ i < r.rows, ∀ j < r.cols, m' (r.at i j) = cv ((P.prod c x y).val m i j)) ∧
      ∀ a, (∀ i < r.rows, ∀ j < r.cols, a ≠ r.at i j) → m' a = m a := by
  obtain ⟨m', A, B, e, h1, h2⟩ := prd_assign c cv hcv r x y m hs hr hc hd ha
  refine ⟨m', ?_, ?_, h1, h2⟩
  · unfold assign
    rw [(beh m x hs.1).c, e]; rfl
  · unfold assignVM
    rw [(beh m y hs.2.1).r, ← hs.2.2, e]; rfl

/-- Three matrices of 4 elements each. -/
def pA : MV := ⟨0, 2, 1, 2, 2⟩
def pB : MV := ⟨4, 2, 1, 2, 2⟩
def pC : MV := ⟨8, 1, 2, 2, 2⟩

/-- `A = prod(prod(A, B), C)`: the result is the first matrix, and the hypotheses hold. -/
example : (P.prod (id : ℤ → ℤ) (.prod id (.view pA) (.view pB)) (.view pC)).Sized ∧ pA.Distinct ∧
    ∀ v ∈ (P.prod (id : ℤ → ℤ) (.view pA) (.view pB)).outer ++ (P.view pC : P ℤ).outer, pA.Apart v := by
  refine ⟨⟨⟨trivial, trivial, rfl⟩, trivial, rfl⟩, ?_, ?_⟩
  · intro i hi j hj i' hi' j' hj' h
    simp only [pA, MV.at] at *
    omega
  · intro v hv i hi j hj i' hi' j' hj' h
    simp only [P.outer, List.nil_append, List.mem_singleton] at hv
    subst hv
    simp only [pA, pC, MV.at] at *
    omega

/-- Integers reduced modulo 256. -/
example : Absorbs (fun x : ℤ => x % 256) := ⟨rfl, fun x y => Int.emod_add_emod x 256 y⟩

/-- **C75, products of three matrices.** `r = prod(prod(x, y), z)` and `r = prod(x, prod(y, z))` leave the same memory (exact arithmetic). -/
theorem C75_assoc (r : MV) (x y z : P T) (m : ℤ → T) (hx : x.Sized) (hy : y.Sized) (hz : z.Sized) (h1 : x.cols = y.rows) (h2 : y.cols = z.rows)
    (hr : r.rows = x.rows) (hc : r.cols = z.cols) (hd : r.Distinct) (hax : ∀ v ∈ x.outer, r.Apart v) (haz : ∀ v ∈ z.outer, r.Apart v) :
    ∃ m', assign id id r (.prod id x y) z m = some m' ∧ assign id id r x (.prod id y z) m = some m' := by
  obtain ⟨m1, e1, -, v1, o1⟩ := C75_assign_partial id id ⟨rfl, fun _ _ => rfl⟩ r (.prod id x y) z m ⟨⟨hx, hy, h1⟩, hz, h2⟩ hr hc hd (by simpa [P.outer] using haz)
  obtain ⟨m2, e2, -, v2, o2⟩ := C75_assign_partial id id ⟨rfl, fun _ _ => rfl⟩ r x (.prod id y z) m ⟨hx, ⟨hy, hz, h2⟩, h1⟩ hr hc hd (by simpa [P.outer] using hax)
  have : m1 = m2 := by
    funext a
    by_cases h : ∀ i < r.rows, ∀ j < r.cols, a ≠ r.at i j
    · rw [o1 a h, o2 a h]
    · push Not at h
      obtain ⟨i, hi, j, hj, rfl⟩ := h
      rw [v1 i hi j hj, v2 i hi j hj]
      simp only [P.val, P.cols, id]
      simp only [Finset.sum_mul, Finset.mul_sum, mul_assoc]
      exact Finset.sum_comm
  exact ⟨m1, e1, this ▸ e2⟩

/-- Three matrices apart from the result. -/
example : (P.view pA : P ℤ).Sized ∧ (P.view pA : P ℤ).cols = (P.view pB : P ℤ).rows ∧ (⟨100, 2, 1, 2, 2⟩ : MV).Distinct ∧
    ∀ v ∈ (P.view pA : P ℤ).outer, (⟨100, 2, 1, 2, 2⟩ : MV).Apart v := by
  refine ⟨trivial, rfl, ?_, ?_⟩
  · intro i hi j hj i' hi' j' hj' h
    simp only [MV.at] at *
    omega
  · intro v hv i hi j hj i' hi' j' hj' h
    simp only [P.outer, List.mem_singleton] at hv
    subst hv
    simp only [pA, MV.at] at *
    omega

/-- **C75, the functions.** What `prod`, `prodh`, `prodj` and `prodt` of two matrices stand for, given that sizes agree; the size of the result. -/
theorem C75_functions (conj : T → T) (x y : P T) (m : ℤ → T) (i j : ℕ) :
    (Fn.build .prod conj x y).val m i j = ∑ k ∈ range x.cols, x.val m i k * y.val m k j ∧
      (Fn.build .prodj conj x y).val m i j = ∑ k ∈ range x.cols, x.val m i k * conj (y.val m k j) ∧
      (Fn.build .prodt conj x y).val m i j = ∑ k ∈ range x.cols, x.val m i k * y.val m j k ∧
      (Fn.build .prodh conj x y).val m i j = ∑ k ∈ range x.cols, x.val m i k * conj (y.val m j k) ∧
      ∀ f, (Fn.build f conj x y).toE.rows = x.toE.rows ∧ (Fn.build f conj x y).toE.cols = if f = .prodh ∨ f = .prodt then y.toE.rows else y.toE.cols :=
  ⟨rfl, rfl, rfl, rfl, fun f => by cases f <;> exact ⟨rfl, rfl⟩⟩
end

/-- **C75 is false (overlap).** With the matrices `A = [1 2; 3 4]`, `B = [5 6; 7 8]`: the second element of the first row of `A = prod(A, B)` is 130, of the product 22; of
`B = prod(A, B)` the lower left is 85 instead of 43; and `A = prodt(A, A)` gives 23 instead of 11. -/
theorem C75_alias_false :
    (assign id id pA (.view pA) (.view pB) fun a : ℤ => a + 1).map (· (pA.at 0 1)) = some (19 * 6 + 2 * 8) ∧
    (P.prod (id : ℤ → ℤ) (.view pA) (.view pB)).val (fun a => a + 1) 0 1 = 22 ∧
    (assign id id pB (.view pA) (.view pB) fun a : ℤ => a + 1).map (· (pB.at 1 0)) = some (3 * 19 + 4 * 7) ∧
    (P.prod (id : ℤ → ℤ) (.view pA) (.view pB)).val (fun a => a + 1) 1 0 = 43 ∧
    (assign id id pA (.view pA) (.trans (.view pA)) fun a : ℤ => a + 1).map (· (pA.at 0 1)) = some (5 * 3 + 2 * 4) ∧
    (P.prod (id : ℤ → ℤ) (.view pA) (.trans (.view pA))).val (fun a => a + 1) 0 1 = 11 := by
  refine ⟨by decide, by decide, by decide, by decide, by decide, by decide⟩

/-- **C75 is false (results of a narrower type).** Sums are kept in the type of the result: the product of `[1/2 1/2]` with a column of ones, assigned to a matrix of
integers, is 0, though its value is 1. -/
theorem C75_narrow_false :
    (assign (fun q : ℚ => (⌊q⌋ : ℚ)) id ⟨10, 1, 1, 1, 1⟩ (.view ⟨0, 2, 1, 1, 2⟩) (.view ⟨2, 1, 1, 2, 1⟩) fun a => if a < 2 then 1 / 2 else 1).map (· 10) = some 0 ∧
    (P.prod (id : ℚ → ℚ) (.view ⟨0, 2, 1, 1, 2⟩) (.view ⟨2, 1, 1, 2, 1⟩)).val (fun a => if a < 2 then 1 / 2 else 1) 0 0 = 1 := by
  constructor
  · decide +kernel
  · decide +kernel

/-- **C75, partial (sizes are checked).** `prod` accepts matrices exactly if sizes agree.  Missing: the other functions, see `C75_unchecked_false`. -/
theorem C75_checked_partial {T : Type} (conj : T → T) (v w : MV) :
    Fn.pre .prod (v.rows, v.cols) (w.rows, w.cols) = true ↔ (Fn.build .prod conj (.view v) (.view w)).Sized := by
  simp [Fn.pre, Fn.build, P.Sized, P.rows, P.cols]

/-- **C75 is false (sizes are not checked).** `prodh`, `prodj` and `prodt` accept any sizes, `prod3` and `prod4` any second argument: with too few rows (columns for
`prodh` and `prodt`) they read outside of it; with more than three rows `prod3` leaves out those in excess. -/
theorem C75_unchecked_false :
    (∀ a b : ℕ × ℕ, Fn.pre .prodh a b = true ∧ Fn.pre .prodj a b = true ∧ Fn.pre .prodt a b = true ∧ Fn.pre .prod3 (3, 3) b = true ∧
      Fn.pre .prod4 (4, 4) b = true) ∧
    (∀ m : ℤ → ℤ, assign id id ⟨20, 1, 1, 3, 1⟩ (.view ⟨0, 3, 1, 3, 3⟩) (.view ⟨9, 1, 1, 2, 1⟩) m = none ∧
      assign id id ⟨20, 1, 1, 3, 1⟩ (.view ⟨0, 3, 1, 3, 3⟩) (.trans (.view ⟨9, 1, 1, 1, 2⟩)) m = none) ∧
    (assign id id ⟨20, 1, 1, 3, 1⟩ (.view ⟨0, 3, 1, 3, 3⟩) (.view ⟨9, 1, 1, 4, 1⟩) fun a : ℤ => a).map (· 20) = some (0 * 9 + 1 * 10 + 2 * 11) :=
  ⟨fun _ _ => ⟨rfl, rfl, rfl, rfl, rfl⟩, fun _ => ⟨rfl, rfl⟩, by decide⟩

end Verif.Props
