import Verif.Blas.Model
import Mathlib.Tactic.Ring
import Mathlib.Tactic.LinearCombination
import Mathlib.Data.List.Nodup
import Mathlib.Data.Int.Basic

/-! Lemmas about the BLAS functions and the element loops. -/

namespace Verif.Blas

open Finset

theorem int_eq {z : ℤ} (h : -2147483648 ≤ z) (h' : z < 2147483648) : int z = z := by
  unfold int
  omega

theorem divmod {d i j ld : ℤ} (h0 : 0 ≤ i) (h1 : i < ld) (e : d = i + j * ld) : d % ld = i ∧ d / ld = j := by
  subst e
  have hl : ld ≠ 0 := by omega
  constructor
  · rw [Int.add_mul_emod_self_right]; exact Int.emod_eq_of_lt h0 h1
  · rw [Int.add_mul_ediv_right _ _ hl, Int.ediv_eq_zero_of_lt h0 h1]; omega

section
variable {K : Type} [CommRing K] [StarRing K] [DecidableEq K]

/-- What `gemm` does when its arguments are accepted. -/
theorem gemm_spec (ta tb : Bool) (m n k : ℕ) (alpha : K) (A : Mem K) (a lda : ℤ) (B : Mem K) (b ldb : ℤ) (beta : K) (C : Mem K) (c ldc : ℤ)
    (ha : max 1 (if ta then (k : ℤ) else m) ≤ lda) (hb : max 1 (if tb then (n : ℤ) else k) ≤ ldb) (hc : max 1 (m : ℤ) ≤ ldc) :
    ∃ C', gemm ta tb m n k alpha A a lda B b ldb beta C c ldc = some C' ∧
      (∀ i < m, ∀ j < n, C' (c + i + j * ldc) =
        alpha * (∑ l ∈ range k, opElem ta A a lda i l * opElem tb B b ldb l j) + beta * C (c + i + j * ldc)) ∧
      (∀ x, (∀ i < m, ∀ j < n, x ≠ c + (i : ℤ) + (j : ℤ) * ldc) → C' x = C x) := by
  unfold gemm
  rw [if_neg (by
    rintro (h | h | h | h | h | h) <;> omega)]
  refine ⟨_, rfl, ?_, ?_⟩
  · intro i hi j hj
    have hl : (i : ℤ) < ldc := by omega
    obtain ⟨e1, e2⟩ := divmod (d := c + i + j * ldc - c) (i := i) (j := j) (ld := ldc) (by omega) hl (by ring)
    dsimp only
    rw [e1, e2, if_pos (by omega), Int.toNat_natCast]
    congr 1
    split
    · rename_i h; rw [h, zero_mul]
    · rfl
  · intro x hx
    dsimp only
    rw [if_neg]
    rintro ⟨h1, h2, h3⟩
    have hl : 0 < ldc := by omega
    have hm := Int.emod_nonneg (x - c) (show ldc ≠ 0 by omega)
    have e := Int.emod_add_mul_ediv (x - c) ldc
    refine hx ((x - c) % ldc).toNat (by omega) ((x - c) / ldc).toNat (by omega) ?_
    rw [Int.toNat_of_nonneg hm, Int.toNat_of_nonneg h2]
    linear_combination -e

/-- What `ger` does when its arguments are accepted. -/
theorem ger_spec (cj : Bool) (m n : ℕ) (alpha : K) (X : Mem K) (x : ℤ) (Y : Mem K) (y : ℤ) (A : Mem K) (a lda : ℤ) (hl : max 1 (m : ℤ) ≤ lda) :
    ∃ A', ger cj m n alpha X x 1 Y y 1 A a lda = some A' ∧
      (∀ i < m, ∀ j < n, A' (a + i + j * lda) =
        A (a + i + j * lda) + alpha * X (x + i) * (if cj then star (Y (y + j)) else Y (y + j))) ∧
      (∀ z, (∀ i < m, ∀ j < n, z ≠ a + (i : ℤ) + (j : ℤ) * lda) → A' z = A z) := by
  unfold ger
  rw [if_neg (by
    rintro (h | h | h | h | h) <;> omega)]
  refine ⟨_, rfl, ?_, ?_⟩
  · intro i hi j hj
    obtain ⟨e1, e2⟩ := divmod (d := a + i + j * lda - a) (i := i) (j := j) (ld := lda) (by omega) (by omega) (by ring)
    dsimp only
    rw [e1, e2, if_pos (by omega)]
    simp [vecAddr]
  · intro z hz
    dsimp only
    rw [if_neg]
    rintro ⟨h1, h2, h3⟩
    have hm := Int.emod_nonneg (z - a) (show lda ≠ 0 by omega)
    have e := Int.emod_add_mul_ediv (z - a) lda
    refine hz ((z - a) % lda).toNat (by omega) ((z - a) / lda).toNat (by omega) ?_
    rw [Int.toNat_of_nonneg hm, Int.toNat_of_nonneg h2]
    linear_combination -e

/-- What `gemv` does when its arguments are accepted and neither dimension is empty; `y0` is the address of the first element of the result. -/
theorem gemv_spec (m n : ℕ) (alpha : K) (A : Mem K) (a lda : ℤ) (X : Mem K) (x incx : ℤ) (beta : K) (Y : Mem K) (y incy : ℤ)
    (hl : max 1 (m : ℤ) ≤ lda) (hx : 0 < incx) (hy : 0 < incy) (hm : 0 < m) (hn : 0 < n) :
    ∃ Y', gemv m n alpha A a lda X x incx beta Y y incy = some Y' ∧
      (∀ i < m, Y' (y + i * incy) = alpha * (∑ l ∈ range n, A (a + i + l * lda) * X (x + l * incx)) + beta * Y (y + i * incy)) ∧
      (∀ z, (∀ i < m, z ≠ y + (i : ℤ) * incy) → Y' z = Y z) := by
  unfold gemv
  rw [if_neg (by
    rintro (h | h | h | h | h) <;> omega), if_neg (by omega)]
  refine ⟨_, rfl, ?_, ?_⟩
  · intro i hi
    have ev : vecAddr y incy m 0 = y := by unfold vecAddr; rw [if_pos hy]; ring
    obtain ⟨e1, e2⟩ := divmod (d := y + i * incy - y) (i := 0) (j := i) (ld := incy) (by omega) hy (by ring)
    dsimp only
    rw [ev, e1, e2, if_pos (by omega), Int.toNat_natCast]
    congr 1
    · congr 1
      refine Finset.sum_congr rfl fun l _ => ?_
      unfold vecAddr
      rw [if_pos hx]
    · split
      · rename_i h; rw [h, zero_mul]
      · rfl
  · intro z hz
    have ev : vecAddr y incy m 0 = y := by unfold vecAddr; rw [if_pos hy]; ring
    dsimp only
    rw [ev, if_neg]
    rintro ⟨h1, h2, h3⟩
    have e := Int.emod_add_mul_ediv (z - y) incy
    refine hz ((z - y) / incy).toNat (by omega) ?_
    rw [Int.toNat_of_nonneg h2]
    rw [h1] at e
    linear_combination -e

/-- One pass over a list of distinct places. -/
theorem fold_places {ι : Type} (p : ι → ℤ) (g : K → K) (L : List ι) (h : (L.map p).Nodup) (R : Mem K) (z : ℤ) :
    L.foldl (fun (R : Mem K) t z => if z = p t then g (R z) else R z) R z = if z ∈ L.map p then g (R z) else R z := by
  induction L generalizing R with
  | nil => simp
  | cons t L ih =>
    simp only [List.map_cons, List.nodup_cons] at h
    rw [List.foldl_cons, ih h.2]
    by_cases e : z = p t
    · subst e
      simp [h.1]
    · simp [e]

/-- All index pairs. -/
def allPairs (m n : ℕ) : List (ℕ × ℕ) := (List.range m).flatMap fun i => (List.range n).map fun j => (i, j)

theorem mem_allPairs {m n : ℕ} {t : ℕ × ℕ} : t ∈ allPairs m n ↔ t.1 < m ∧ t.2 < n := by
  simp only [allPairs, List.mem_flatMap, List.mem_range, List.mem_map]
  constructor
  · rintro ⟨i, hi, j, hj, rfl⟩; exact ⟨hi, hj⟩
  · rintro ⟨h1, h2⟩; exact ⟨t.1, h1, t.2, h2, rfl⟩

theorem nodup_allPairs (m n : ℕ) : (allPairs m n).Nodup := by
  unfold allPairs
  rw [List.nodup_flatMap]
  refine ⟨fun i _ => List.Nodup.map (fun a b h => by simpa using h) List.nodup_range, ?_⟩
  refine List.Nodup.pairwise_of_forall_ne List.nodup_range ?_
  intro a _ b _ hab
  rw [Function.onFun, List.disjoint_left]
  intro t h1 h2
  simp only [List.mem_map] at h1 h2
  obtain ⟨_, _, rfl⟩ := h1
  obtain ⟨_, _, e⟩ := h2
  simp only [Prod.mk.injEq] at e
  exact hab e.1.symm

/-- Places of different elements are different. -/
def Inj (r : MView) : Prop := ∀ i < r.rows, ∀ j < r.cols, ∀ i' < r.rows, ∀ j' < r.cols, r.addr i j = r.addr i' j' → i = i' ∧ j = j'

theorem fold_view (r : MView) (h : Inj r) (g : K → K) (R : Mem K) :
    (∀ i < r.rows, ∀ j < r.cols,
      (List.range r.rows).foldl (fun R i => (List.range r.cols).foldl (fun (R : Mem K) j z => if z = r.addr i j then g (R z) else R z) R) R (r.addr i j) =
        g (R (r.addr i j))) ∧
    (∀ z, (∀ i < r.rows, ∀ j < r.cols, z ≠ r.addr i j) →
      (List.range r.rows).foldl (fun R i => (List.range r.cols).foldl (fun (R : Mem K) j z => if z = r.addr i j then g (R z) else R z) R) R z = R z) := by
  have e : (List.range r.rows).foldl (fun R i => (List.range r.cols).foldl (fun (R : Mem K) j z => if z = r.addr i j then g (R z) else R z) R) R =
      (allPairs r.rows r.cols).foldl (fun (R : Mem K) t z => if z = r.addr t.1 t.2 then g (R z) else R z) R := by
    unfold allPairs
    rw [List.foldl_flatMap]
    congr 1
    funext R i
    rw [List.foldl_map]
  rw [e]
  have hn : ((allPairs r.rows r.cols).map fun t => r.addr t.1 t.2).Nodup := by
    refine List.Nodup.map_on ?_ (nodup_allPairs _ _)
    intro x hx y hy hxy
    rw [mem_allPairs] at hx hy
    have := h _ hx.1 _ hx.2 _ hy.1 _ hy.2 hxy
    exact Prod.ext this.1 this.2
  constructor
  · intro i hi j hj
    rw [fold_places (fun t : ℕ × ℕ => r.addr t.1 t.2) g _ hn, if_pos]
    exact List.mem_map.2 ⟨(i, j), mem_allPairs.2 ⟨hi, hj⟩, rfl⟩
  · intro z hz
    rw [fold_places (fun t : ℕ × ℕ => r.addr t.1 t.2) g _ hn, if_neg]
    intro hm
    obtain ⟨t, ht, rfl⟩ := List.mem_map.1 hm
    rw [mem_allPairs] at ht
    exact hz _ ht.1 _ ht.2 rfl

end

end Verif.Blas
