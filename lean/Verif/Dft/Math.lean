import Verif.Dft.Spec
import Mathlib.Algebra.BigOperators.Intervals
import Mathlib.RingTheory.RootsOfUnity.Complex
import Mathlib.RingTheory.RootsOfUnity.PrimitiveRoots
import Mathlib.Tactic.Ring
import Mathlib.Tactic.Linarith
import Mathlib.Tactic.FieldSimp
import Mathlib.Tactic.Push

namespace Verif.Dft

open Finset

theorem unit_pow (neg : Bool) (l k w : ℕ) : unit neg l k w = unit neg l 1 1 ^ (k * w) := by
  unfold unit
  rw [← Complex.exp_nat_mul]
  congr 1
  push_cast
  ring

theorem unit_prim (neg : Bool) (l : ℕ) (h : 0 < l) : IsPrimitiveRoot (unit neg l 1 1) l := by
  have hp := Complex.isPrimitiveRoot_exp l (by omega)
  cases neg
  · have : unit false l 1 1 = Complex.exp (2 * Real.pi * Complex.I / l) := by simp [unit]
    rw [this]; exact hp
  · have : unit true l 1 1 = (Complex.exp (2 * Real.pi * Complex.I / l))⁻¹ := by
      rw [← Complex.exp_neg]; unfold unit; congr 1; simp; ring
    rw [this]; exact hp.inv

theorem unit_conj (neg : Bool) (l k w : ℕ) : (starRingEnd ℂ) (unit neg l k w) = unit (!neg) l k w := by
  unfold unit
  rw [← Complex.exp_conj]
  congr 1
  have h2 : (starRingEnd ℂ) 2 = 2 := map_ofNat (starRingEnd ℂ) 2
  cases neg <;> simp [h2]

theorem unit_opp (neg : Bool) (l k w : ℕ) (h : k < l) : unit neg l (opp l k) w = unit (!neg) l k w := by
  have hl : (l : ℂ) ≠ 0 := by exact_mod_cast (by omega : l ≠ 0)
  rcases Nat.eq_zero_or_pos k with rfl | hk
  · simp [opp, unit]
  · have : opp l k = l - k := Nat.mod_eq_of_lt (by omega)
    rw [this]
    unfold unit
    have e : ((l - k : ℕ) : ℂ) = (l : ℂ) - k := by rw [Nat.cast_sub (by omega)]
    rw [e, Complex.exp_eq_exp_iff_exists_int]
    cases neg
    · exact ⟨w, by simp; field_simp; ring⟩
    · exact ⟨-w, by simp; field_simp; ring⟩

theorem unit_comm (neg : Bool) (l k w : ℕ) : unit neg l k w = unit neg l w k := by rw [unit_pow, unit_pow neg l w k, mul_comm]

theorem opp_lt (l k : ℕ) (h : k < l) : opp l k < l := Nat.mod_lt _ (by omega)

theorem opp_opp (l k : ℕ) (h : k < l) : opp l (opp l k) = k := by
  rcases Nat.eq_zero_or_pos k with rfl | hk
  · simp [opp]
  · have h1 : opp l k = l - k := Nat.mod_eq_of_lt (by omega)
    rw [h1]; unfold opp; rw [Nat.mod_eq_of_lt (by omega)]; omega

theorem sum_opp {M : Type*} [AddCommMonoid M] (l : ℕ) (f : ℕ → M) : ∑ k ∈ range l, f (opp l k) = ∑ k ∈ range l, f k := by
  refine Finset.sum_nbij' (opp l) (opp l) ?_ ?_ ?_ ?_ ?_ <;> simp only [mem_range]
  · exact fun k h => opp_lt l k h
  · exact fun k h => opp_lt l k h
  · exact fun k h => opp_opp l k h
  · exact fun k h => opp_opp l k h
  · exact fun k h => trivial

theorem dft1_congr (neg : Bool) (l : ℕ) (x y : ℕ → ℂ) (h : ∀ k < l, x k = y k) (w : ℕ) : dft1 neg l x w = dft1 neg l y w :=
  Finset.sum_congr rfl fun k hk => by rw [h k (mem_range.1 hk)]

/-- Orthogonality of the characters. -/
theorem unit_orth (l : ℕ) (w w' : ℕ) (hw : w < l) (hw' : w' < l) :
    ∑ k ∈ range l, unit true l k w * unit false l k w' = if w = w' then (l : ℂ) else 0 := by
  have hl : 0 < l := by omega
  have hz := unit_prim false l hl
  set z := unit false l 1 1 with hzd
  have hz0 : z ≠ 0 := hz.ne_zero (by omega)
  have hinv : ∀ k w, unit true l k w = (z ^ (k * w))⁻¹ := by
    intro k w
    rw [unit_pow true, ← inv_pow]
    congr 1
    rw [hzd]; unfold unit
    rw [← Complex.exp_neg]; congr 1; simp; ring
  split
  · rename_i h; subst h
    have : ∀ k ∈ range l, unit true l k w * unit false l k w = 1 := by
      intro k _
      rw [hinv, unit_pow false, ← hzd, inv_mul_cancel₀ (pow_ne_zero _ hz0)]
    rw [Finset.sum_congr rfl this]; simp
  · rename_i h
    -- the ratio q = z^w' / z^w is a nontrivial l-th root of unity
    set q := z ^ w' * (z ^ w)⁻¹ with hq
    have e : ∀ k ∈ range l, unit true l k w * unit false l k w' = q ^ k := by
      intro k _
      rw [hinv, unit_pow false, ← hzd, hq, mul_pow, inv_pow, ← pow_mul, ← pow_mul, mul_comm k w, mul_comm k w', mul_comm]
    rw [Finset.sum_congr rfl e]
    have hq1 : q ≠ 1 := by
      intro h1
      rw [hq, mul_inv_eq_one₀ (pow_ne_zero _ hz0)] at h1
      exact h (hz.pow_inj hw' hw h1).symm
    have hql : q ^ l = 1 := by
      rw [hq, mul_pow, inv_pow, ← pow_mul, ← pow_mul, mul_comm w' l, mul_comm w l, pow_mul, pow_mul, hz.pow_eq_one]; simp
    have := mul_neg_geom_sum q l
    rw [hql, sub_self] at this
    exact (mul_eq_zero.1 this).resolve_left (sub_ne_zero.2 (Ne.symm hq1))

/-- The inverse transform of the forward transform is `l` times the signal. -/
theorem dft1_inv (l : ℕ) (x : ℕ → ℂ) (w : ℕ) (hw : w < l) : dft1 false l (dft1 true l x) w = l * x w := by
  unfold dft1
  have e : ∀ k ∈ range l, (∑ j ∈ range l, x j * unit true l j k) * unit false l k w
      = ∑ j ∈ range l, x j * (unit true l k j * unit false l k w) := by
    intro k _
    rw [Finset.sum_mul]
    exact Finset.sum_congr rfl fun j _ => by rw [unit_comm true l j k]; ring
  rw [Finset.sum_congr rfl e, Finset.sum_comm]
  have e2 : ∀ j ∈ range l, ∑ k ∈ range l, x j * (unit true l k j * unit false l k w) = if j = w then x j * l else 0 := by
    intro j hj
    rw [← Finset.mul_sum, unit_orth l j w (mem_range.1 hj) hw]; split <;> simp
  rw [Finset.sum_congr rfl e2, Finset.sum_ite_eq' (range l) w]
  simp [hw, mul_comm]

/-- Two spectra that are conjugate at opposite frequencies have conjugate transforms. -/
theorem dft1_herm (neg : Bool) (l : ℕ) (X X' : ℕ → ℂ) (h : ∀ k < l, X' (opp l k) = (starRingEnd ℂ) (X k)) (w : ℕ) :
    dft1 neg l X' w = (starRingEnd ℂ) (dft1 neg l X w) := by
  unfold dft1
  rw [map_sum, ← sum_opp]
  refine Finset.sum_congr rfl fun k hk => ?_
  rw [h k (mem_range.1 hk), map_mul, unit_conj, unit_opp _ _ _ _ (mem_range.1 hk)]

/-- The forward transform of real values is Hermitian. -/
theorem dft1_real_herm (l : ℕ) (x : ℕ → ℝ) : Herm1 l (dft1 true l (fun k => (x k : ℂ))) := by
  intro w hw
  unfold dft1
  rw [map_sum]
  refine Finset.sum_congr rfl fun k _ => ?_
  rw [map_mul, unit_conj, unit_comm true, unit_opp _ _ _ _ hw, unit_comm, Complex.conj_ofReal]

theorem dft2_lines (neg : Bool) (R C : ℕ) (x : ℕ → ℕ → ℂ) (u v : ℕ) :
    dft1 neg R (fun r => dft1 neg C (fun c => x r c) v) u = dft2 neg R C x u v := by
  unfold dft1 dft2
  refine Finset.sum_congr rfl fun r _ => ?_
  rw [Finset.sum_mul]
  exact Finset.sum_congr rfl fun c _ => by ring

theorem dft2_lines' (neg : Bool) (R C : ℕ) (x : ℕ → ℕ → ℂ) (u v : ℕ) :
    dft1 neg C (fun c => dft1 neg R (fun r => x r c) u) v = dft2 neg R C x u v := by
  unfold dft1 dft2
  rw [Finset.sum_comm]
  refine Finset.sum_congr rfl fun c _ => ?_
  rw [Finset.sum_mul]
  exact Finset.sum_congr rfl fun r _ => by ring

theorem dft2_congr (neg : Bool) (R C : ℕ) (x y : ℕ → ℕ → ℂ) (h : ∀ r < R, ∀ c < C, x r c = y r c) (u v : ℕ) :
    dft2 neg R C x u v = dft2 neg R C y u v :=
  Finset.sum_congr rfl fun r hr => Finset.sum_congr rfl fun c hc => by rw [h r (mem_range.1 hr) c (mem_range.1 hc)]

theorem dft2_inv (R C : ℕ) (x : ℕ → ℕ → ℂ) (r c : ℕ) (hr : r < R) (hc : c < C) :
    dft2 false R C (dft2 true R C x) r c = R * C * x r c := by
  rw [← dft2_lines]
  have e : ∀ u < R, dft1 false C (fun v => dft2 true R C x u v) c = dft1 true R (fun r => C * x r c) u := by
    intro u hu
    have e1 : ∀ v < C, dft2 true R C x u v = dft1 true C (fun c => dft1 true R (fun r => x r c) u) v := fun v _ => (dft2_lines' _ _ _ _ _ _).symm
    rw [dft1_congr _ _ _ _ e1, dft1_inv C _ c hc]
    unfold dft1
    rw [Finset.mul_sum]
    exact Finset.sum_congr rfl fun r _ => by ring
  rw [dft1_congr _ _ _ _ e, dft1_inv R _ r hr]; ring

theorem dft3_lines (neg : Bool) (A B C : ℕ) (f : ℕ → ℕ → ℕ → ℂ) (u v w : ℕ) :
    dft1 neg A (fun x => dft2 neg B C (fun y z => f x y z) v w) u = dft3 neg A B C f u v w := by
  unfold dft1 dft2 dft3
  refine Finset.sum_congr rfl fun x _ => ?_
  rw [Finset.sum_mul]
  refine Finset.sum_congr rfl fun y _ => ?_
  rw [Finset.sum_mul]
  exact Finset.sum_congr rfl fun z _ => by ring

theorem dft3_lines1 (neg : Bool) (A B C : ℕ) (f : ℕ → ℕ → ℕ → ℂ) (u v w : ℕ) :
    dft1 neg B (fun y => dft2 neg A C (fun x z => f x y z) u w) v = dft3 neg A B C f u v w := by
  unfold dft1 dft2 dft3
  rw [Finset.sum_comm]
  refine Finset.sum_congr rfl fun y _ => ?_
  rw [Finset.sum_mul]
  refine Finset.sum_congr rfl fun x _ => ?_
  rw [Finset.sum_mul]
  exact Finset.sum_congr rfl fun z _ => by ring

theorem dft3_lines2 (neg : Bool) (A B C : ℕ) (f : ℕ → ℕ → ℕ → ℂ) (u v w : ℕ) :
    dft1 neg C (fun z => dft2 neg A B (fun x y => f x y z) u v) w = dft3 neg A B C f u v w := by
  unfold dft1 dft2 dft3
  have : ∀ x ∈ range A, ∑ y ∈ range B, ∑ z ∈ range C, f x y z * (unit neg A x u * unit neg B y v * unit neg C z w)
      = ∑ z ∈ range C, ∑ y ∈ range B, f x y z * (unit neg A x u * unit neg B y v * unit neg C z w) := fun x _ => Finset.sum_comm
  rw [Finset.sum_congr rfl this, Finset.sum_comm]
  refine Finset.sum_congr rfl fun z _ => ?_
  rw [Finset.sum_mul]
  refine Finset.sum_congr rfl fun x _ => ?_
  rw [Finset.sum_mul]
  exact Finset.sum_congr rfl fun y _ => by ring

/-- Lines first, planes second. -/
theorem dft3_planes (neg : Bool) (A B C : ℕ) (f : ℕ → ℕ → ℕ → ℂ) (u v w : ℕ) :
    dft2 neg B C (fun y z => dft1 neg A (fun x => f x y z) u) v w = dft3 neg A B C f u v w := by
  unfold dft1 dft2 dft3
  have e : ∀ y ∈ range B, ∀ z ∈ range C, (∑ x ∈ range A, f x y z * unit neg A x u) * (unit neg B y v * unit neg C z w)
      = ∑ x ∈ range A, f x y z * (unit neg A x u * unit neg B y v * unit neg C z w) := fun y _ z _ => by
    rw [Finset.sum_mul]; exact Finset.sum_congr rfl fun x _ => by ring
  rw [Finset.sum_congr rfl fun y hy => Finset.sum_congr rfl fun z hz => e y hy z hz]
  have e2 : ∀ y ∈ range B, ∑ z ∈ range C, ∑ x ∈ range A, f x y z * (unit neg A x u * unit neg B y v * unit neg C z w)
      = ∑ x ∈ range A, ∑ z ∈ range C, f x y z * (unit neg A x u * unit neg B y v * unit neg C z w) := fun y _ => Finset.sum_comm
  rw [Finset.sum_congr rfl e2, Finset.sum_comm]

theorem dft3_perm1 (neg : Bool) (A B C : ℕ) (f : ℕ → ℕ → ℕ → ℂ) (u v w : ℕ) :
    dft3 neg B A C (fun y x z => f x y z) v u w = dft3 neg A B C f u v w := by
  rw [← dft3_lines, ← dft3_lines1]

theorem dft3_perm2 (neg : Bool) (A B C : ℕ) (f : ℕ → ℕ → ℕ → ℂ) (u v w : ℕ) :
    dft3 neg C A B (fun z x y => f x y z) w u v = dft3 neg A B C f u v w := by
  rw [← dft3_lines, ← dft3_lines2]

theorem dft3_inv (A B C : ℕ) (f : ℕ → ℕ → ℕ → ℂ) (x y z : ℕ) (hx : x < A) (hy : y < B) (hz : z < C) :
    dft3 false A B C (dft3 true A B C f) x y z = A * B * C * f x y z := by
  rw [← dft3_lines]
  have e : ∀ u < A, dft2 false B C (fun v w => dft3 true A B C f u v w) y z = dft1 true A (fun x => B * C * f x y z) u := by
    intro u _
    have e1 : ∀ v < B, ∀ w < C, dft3 true A B C f u v w = dft2 true B C (fun y z => dft1 true A (fun x => f x y z) u) v w :=
      fun v _ w _ => (dft3_planes _ _ _ _ _ _ _ _).symm
    rw [dft2_congr _ _ _ _ _ e1, dft2_inv B C _ y z hy hz]
    unfold dft1
    rw [Finset.mul_sum]
    exact Finset.sum_congr rfl fun r _ => by ring
  rw [dft1_congr _ _ _ _ e, dft1_inv A _ x hx]; ring

theorem dft2_real_herm (R C : ℕ) (x : ℕ → ℕ → ℝ) : Herm2 R C (dft2 true R C (fun r c => (x r c : ℂ))) := by
  intro u hu v hv
  unfold dft2
  rw [map_sum]
  refine Finset.sum_congr rfl fun r _ => ?_
  rw [map_sum]
  refine Finset.sum_congr rfl fun c _ => ?_
  rw [map_mul, map_mul, unit_conj, unit_conj, unit_comm true R, unit_opp _ _ _ _ hu, unit_comm _ R, unit_comm true C, unit_opp _ _ _ _ hv, unit_comm _ C,
    Complex.conj_ofReal]

theorem dft3_real_herm (A B C : ℕ) (x : ℕ → ℕ → ℕ → ℝ) : Herm3 A B C (dft3 true A B C (fun r c d => (x r c d : ℂ))) := by
  intro u hu v hv w hw
  unfold dft3
  rw [map_sum]
  refine Finset.sum_congr rfl fun r _ => ?_
  rw [map_sum]
  refine Finset.sum_congr rfl fun c _ => ?_
  rw [map_sum]
  refine Finset.sum_congr rfl fun d _ => ?_
  rw [map_mul, map_mul, map_mul, unit_conj, unit_conj, unit_conj, unit_comm true A, unit_opp _ _ _ _ hu, unit_comm _ A,
    unit_comm true B, unit_opp _ _ _ _ hv, unit_comm _ B, unit_comm true C, unit_opp _ _ _ _ hw, unit_comm _ C,
    Complex.conj_ofReal]

/-- Two spectra that are conjugate at opposite frequencies have conjugate transforms, in two dimensions. -/
theorem dft2_herm (neg : Bool) (R C : ℕ) (X X' : ℕ → ℕ → ℂ)
    (h : ∀ u < R, ∀ v < C, X' (opp R u) (opp C v) = (starRingEnd ℂ) (X u v)) (r c : ℕ) :
    dft2 neg R C X' r c = (starRingEnd ℂ) (dft2 neg R C X r c) := by
  rw [← dft2_lines, ← dft2_lines]
  exact dft1_herm _ _ _ _ (fun u hu => dft1_herm _ _ _ _ (fun v hv => h u hu v hv) c) r

end Verif.Dft
