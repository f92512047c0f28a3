import Verif.Radar.Model
import Mathlib.Tactic.Ring
import Mathlib.Tactic.Linarith
import Mathlib.Tactic.LinearCombination
import Mathlib.Tactic.Positivity
import Mathlib.Tactic.FieldSimp
import Mathlib.Tactic.NormNum

/-! # C94: the radar, audio and beamforming examples -/

namespace Verif.Props

open Verif.Radar Verif.Radar.Spec

theorem rad_search (x : List ℚ) (t : ℚ) (k : ℕ) (hk : k ≤ x.length) :
    k ≤ search x t k ∧ search x t k ≤ x.length ∧
      (∀ j, k ≤ j → j < search x t k → at' x j < t) ∧
      (search x t k < x.length → t ≤ at' x (search x t k)) := by
  fun_induction search x t k with
  | case1 k h hlt ih =>
    obtain ⟨h1, h2, h3, h4⟩ := ih h
    refine ⟨by omega, h2, ?_, h4⟩
    intro j hj hj'
    rcases Nat.lt_or_ge k j with hkj | hkj
    · exact h3 j hkj hj'
    · have : j = k := by omega
      subst this
      simpa [at', h] using hlt
  | case2 k h hlt =>
    refine ⟨le_refl _, hk, ?_, ?_⟩
    · intro j hj hj'; omega
    · intro _
      simpa [at', h] using hlt
  | case3 k h =>
    refine ⟨le_refl _, hk, ?_, ?_⟩
    · intro j hj hj'; omega
    · intro h'; exact absurd h' h

theorem rad_inc {x : List ℚ} (hx : Increasing x) {i j : ℕ} (h : i < j) (hj : j < x.length) :
    at' x i < at' x j := by
  induction j with
  | zero => omega
  | succ j ih =>
    rcases Nat.lt_or_ge i j with h' | h'
    · exact lt_trans (ih h' (by omega)) (hx j hj)
    · have : i = j := by omega
      subst this
      exact hx i hj

theorem rad_inc_le {x : List ℚ} (hx : Increasing x) {i j : ℕ} (h : i ≤ j) (hj : j < x.length) :
    at' x i ≤ at' x j := by
  rcases Nat.lt_or_ge i j with h' | h'
  · exact le_of_lt (rad_inc hx h' hj)
  · have : i = j := by omega
    subst this; exact le_refl _

theorem rad_get {x : List ℚ} {i : ℕ} (h : i < x.length) : x[i]? = some (at' x i) := by
  simp [at', h]

theorem rad_lerp_eq {x y : List ℚ} (t : ℚ) {r : ℕ} (hr : search x t 1 = r + 1)
    (hl : r + 1 < x.length) (hy : y.length = x.length) (hne : at' x r < at' x (r + 1)) :
    lerp1 x y t = some (at' y r + (t - at' x r) * (at' y (r + 1) - at' y r) /
      (at' x (r + 1) - at' x r)) := by
  unfold lerp1
  rw [hr, Nat.add_sub_cancel, if_pos hl, rad_get (by omega : r < x.length),
    rad_get (by omega : r < y.length), rad_get hl, rad_get (by omega : r + 1 < y.length)]
  simp only [Option.bind_some]
  rw [if_neg (ne_of_gt hne)]

/-- **C94 (linear interpolation).** `lerp` gives, at every place between two neighbouring increasing
sample places, the point of the straight line through the two samples. -/
theorem C94_interpolate (x y : List ℚ) (hx : Increasing x) (hy : y.length = x.length) (i : ℕ)
    (hi : i + 1 < x.length) (t : ℚ) (h0 : at' x i ≤ t) (h1 : t ≤ at' x (i + 1)) :
    ∃ v, lerp1 x y t = some v ∧ OnLine (at' x i) (at' y i) (at' x (i + 1)) (at' y (i + 1)) t v := by
  obtain ⟨a1, a2, a3, a4⟩ := rad_search x t 1 (by omega)
  obtain ⟨r, hr⟩ : ∃ r, search x t 1 = r + 1 := ⟨search x t 1 - 1, by omega⟩
  rw [hr] at a2 a3 a4
  have hle : r + 1 ≤ i + 1 := by
    rcases Nat.lt_or_ge (i + 1) (r + 1) with h | h
    · exact absurd (a3 (i + 1) (by omega) h) (not_lt.mpr h1)
    · exact h
  have hlt : r + 1 < x.length := by omega
  have h4 := a4 hlt
  have hri := hx r hlt
  refine ⟨_, rad_lerp_eq t hr hlt hy hri, ?_⟩
  unfold OnLine
  rcases Nat.lt_or_ge r i with h | h
  · have h5 : at' x (r + 1) ≤ at' x i := rad_inc_le hx (by omega) (by omega)
    have ht : t = at' x i := le_antisymm (le_trans h4 h5) h0
    have h6 : at' x (r + 1) = at' x i := le_antisymm h5 (ht ▸ h4)
    have hri' : r + 1 = i := by
      rcases Nat.lt_or_ge (r + 1) i with h' | h'
      · exact absurd h6 (ne_of_lt (rad_inc hx h' (by omega)))
      · omega
    subst hri'
    have hd : at' x (r + 1) - at' x r ≠ 0 := sub_ne_zero.mpr (ne_of_gt hri)
    rw [ht]
    field_simp
    ring
  · have : r = i := by omega
    subst this
    have hd : at' x (r + 1) - at' x r ≠ 0 := sub_ne_zero.mpr (ne_of_gt hri)
    field_simp
    ring

example : ∃ v, lerp1 [0, 1, 3] [5, 7, 1] 2 = some v ∧ OnLine 1 7 3 1 2 v :=
  C94_interpolate [0, 1, 3] [5, 7, 1] (by
    intro i hi
    have : i = 0 ∨ i = 1 := by simp at hi; omega
    rcases this with rfl | rfl <;> norm_num [at']) rfl 1 (by decide) 2 (by norm_num [at'])
    (by norm_num [at'])

/-- **C94 (interpolation beyond the last sample).** From the last sample place on `lerp` gives the
last sample. -/
theorem C94_above (x y : List ℚ) (hx : Increasing x) (hy : y.length = x.length) (n : ℕ)
    (hn : x.length = n + 1) (t : ℚ) (h : at' x n ≤ t) : lerp1 x y t = some (at' y n) := by
  rcases eq_or_lt_of_le h with he | hlt
  · rcases Nat.eq_zero_or_pos n with h0 | hpos
    · subst h0
      have hs : search x t 1 = 1 := by unfold search; rw [dif_neg (by omega)]
      unfold lerp1
      rw [hs, if_neg (by omega), hn]
      simp only [Nat.sub_self]
      rw [rad_get (by omega : 0 < x.length), rad_get (by omega : 0 < y.length)]
      simp
    · obtain ⟨m, rfl⟩ : ∃ m, n = m + 1 := ⟨n - 1, by omega⟩
      have hinc := hx m (by omega)
      obtain ⟨v, hv, hl⟩ := C94_interpolate x y hx hy m (by omega) t
        (by rw [← he]; exact le_of_lt hinc) (by rw [he])
      rw [hv]
      unfold OnLine at hl
      rw [← he] at hl
      have hd : at' x (m + 1) - at' x m ≠ 0 := sub_ne_zero.mpr (ne_of_gt hinc)
      have : v - at' y m = at' y (m + 1) - at' y m := by
        apply mul_right_cancel₀ hd
        rw [hl]; ring
      congr 1
      linarith
  · obtain ⟨a1, a2, a3, a4⟩ := rad_search x t 1 (by omega)
    have hs : search x t 1 = n + 1 := by
      rcases Nat.lt_or_ge (search x t 1) x.length with h' | h'
      · have := a4 h'
        have h2 := rad_inc_le hx (show search x t 1 ≤ n by omega) (by omega)
        exact absurd (lt_of_lt_of_le hlt (le_trans this h2)) (lt_irrefl _)
      · omega
    unfold lerp1
    rw [hs, hn, if_neg (by omega), Nat.add_sub_cancel, rad_get (by omega : n < x.length),
      rad_get (by omega : n < y.length)]
    simp

example : lerp1 [0, 1, 3] [5, 7, 1] 10 = some 1 :=
  C94_above [0, 1, 3] [5, 7, 1] (by
    intro i hi
    have : i = 0 ∨ i = 1 := by simp at hi; omega
    rcases this with rfl | rfl <;> norm_num [at']) rfl 2 rfl 10 (by norm_num [at'])

/-- **C94 is false (interpolation before the first sample).** Before the first sample place `lerp` does
not give the first sample but continues the first line: with rising samples the value is below every
sample. -/
theorem C94_below_false (x y : List ℚ) (hx : Increasing x) (hy : y.length = x.length)
    (hl : 1 < x.length) (h01 : at' y 0 < at' y 1) (t : ℚ) (ht : t < at' x 0) :
    ∃ v, lerp1 x y t = some v ∧ v < at' y 0 ∧ OnLine (at' x 0) (at' y 0) (at' x 1) (at' y 1) t v := by
  have hs : search x t 1 = 0 + 1 := by
    unfold search
    rw [dif_pos hl, if_neg]
    have := hx 0 hl
    have h1 : at' x 1 = x[1] := by simp [at', hl]
    rw [← h1]
    intro h
    simp only [Nat.zero_add] at this
    linarith
  have h0 := hx 0 hl
  simp only [Nat.zero_add] at h0
  refine ⟨_, rad_lerp_eq t hs hl hy h0, ?_, ?_⟩
  · have hneg : (t - at' x 0) * (at' y (0 + 1) - at' y 0) / (at' x (0 + 1) - at' x 0) < 0 := by
      apply div_neg_of_neg_of_pos
      · exact mul_neg_of_neg_of_pos (by linarith) (by simpa using h01)
      · simpa using h0
    linarith
  · unfold OnLine
    have hd : at' x 1 - at' x 0 ≠ 0 := sub_ne_zero.mpr (ne_of_gt h0)
    simp only [Nat.zero_add]
    field_simp
    ring

example : ∃ v, lerp1 [1, 2] [0, 3] 0 = some v ∧ v < 0 ∧ OnLine 1 0 2 3 0 v :=
  C94_below_false [1, 2] [0, 3] (by
    intro i hi
    have : i = 0 := by simp at hi; omega
    subst this; norm_num [at']) rfl (by decide) (by norm_num [at']) 0 (by norm_num [at'])

/-- **C94 is false (interpolation without samples).** Without samples every call with a place reads
outside the vectors. -/
theorem C94_empty_false (y xi : List ℚ) (h : xi ≠ []) : lerp [] y xi = none := by
  cases xi with
  | nil => exact absurd rfl h
  | cons t l =>
    unfold lerp
    rw [List.mapM_cons]
    simp [lerp1]

example : lerp [] [1] [3, 4] = none := C94_empty_false _ _ (by simp)

/-! ## Integration -/

theorem rad_running_length (l : List ℚ) (a : ℚ) : (running a l).length = l.length := by
  induction l generalizing a with
  | nil => rfl
  | cons b l ih => simp [running, ih]

theorem rad_running (l : List ℚ) (a : ℚ) (j : ℕ) (h : j < l.length) :
    (running a l)[j]? = some (a + (l.take (j + 1)).sum) := by
  induction l generalizing a j with
  | nil => simp at h
  | cons b l ih =>
    cases j with
    | zero => simp [running]
    | succ j =>
      rw [running, List.getElem?_cons_succ, ih _ _ (by simpa using h)]
      simp [List.take_succ_cons, add_assoc]

/-- The sum of the first factors is twice the area. -/
theorem rad_factors (x y : List ℚ) (k : ℕ) (h : k ≤ x.length - 1) :
    ((factors x y).take k).sum = 2 * area x y k := by
  unfold factors area
  rw [← List.map_take, List.take_range, Nat.min_eq_left h]
  induction k with
  | zero => simp
  | succ k ih =>
    rw [List.range_succ, List.map_append, List.map_append, List.sum_append, List.sum_append,
      ih (by omega)]
    simp only [List.map_cons, List.map_nil, List.sum_cons, List.sum_nil, at']
    ring

theorem rad_cdf (x y : List ℚ) (hx : x ≠ []) (hy : x.length ≤ y.length) :
    ∃ c, ctrapz x y = some c ∧ c.length + 1 = x.length ∧
      ∀ j, j < c.length → at' c j = area x y (j + 1) := by
  have hpos : 0 < x.length := List.length_pos_iff.mpr hx
  refine ⟨_, by rw [ctrapz, if_neg (by omega), if_neg (by omega)], ?_, ?_⟩
  · simp [rad_running_length, factors]; omega
  · intro j hj
    have hj' : j < x.length - 1 := by simpa [rad_running_length, factors] using hj
    have h1 := rad_running (factors x y) 0 j (by simpa [factors] using hj')
    unfold at'
    rw [List.getD_eq_getElem?_getD, List.getElem?_map, h1, rad_factors x y (j + 1) (by omega)]
    simp

/-- **C94 (running integral).** `ctrapz` of at least one sample gives one value less than there are
samples, the `j`-th being the area of the trapezia of the first `j + 1` intervals. -/
theorem C94_integral (x y : List ℚ) (hx : x ≠ []) (hy : x.length ≤ y.length) :
    ∃ c, ctrapz x y = some c ∧ c.length + 1 = x.length ∧
      ∀ j, j < c.length → at' c j = area x y (j + 1) := rad_cdf x y hx hy

example : ctrapz [0, 1, 3] [2, 4, 8] = some [3, 15] := by
  norm_num [ctrapz, running, factors, List.range_succ]

/-- **C94 (integral of a straight line).** For samples of a straight line `a x + b` the running
integral is exact, for any places. -/
theorem C94_affine (x y : List ℚ) (a b : ℚ) (hx : x ≠ []) (hy : y.length = x.length)
    (h : ∀ i, i < x.length → at' y i = a * at' x i + b) :
    ∃ c, ctrapz x y = some c ∧ ∀ j, j + 1 < x.length →
      at' c j = a * (at' x (j + 1) ^ 2 - at' x 0 ^ 2) / 2 + b * (at' x (j + 1) - at' x 0) := by
  obtain ⟨c, h1, h2, h3⟩ := rad_cdf x y hx (by omega)
  refine ⟨c, h1, ?_⟩
  intro j hj
  rw [h3 j (by omega)]
  have key : ∀ k, k < x.length → area x y k =
      a * (at' x k ^ 2 - at' x 0 ^ 2) / 2 + b * (at' x k - at' x 0) := by
    intro k
    induction k with
    | zero => intro _; simp [area]
    | succ k ih =>
      intro hk
      have : area x y (k + 1) = area x y k +
          (at' x (k + 1) - at' x k) * ((at' y k + at' y (k + 1)) / 2) := by
        simp [area, List.range_succ]
      rw [this, ih (by omega), h k (by omega), h (k + 1) hk]
      ring
  exact key (j + 1) hj

example : ∃ c, ctrapz [0, 1, 4] [1, 3, 9] = some c ∧ ∀ j, j + 1 < 3 →
    at' c j = 2 * (at' [0, 1, 4] (j + 1) ^ 2 - at' [0, 1, 4] 0 ^ 2) / 2 +
      1 * (at' [0, 1, 4] (j + 1) - at' [0, 1, 4] 0) :=
  C94_affine [0, 1, 4] [1, 3, 9] 2 1 (by simp) rfl (by
    intro i hi
    have : i = 0 ∨ i = 1 ∨ i = 2 := by simp at hi; omega
    rcases this with rfl | rfl | rfl <;> norm_num [at'])

/-- **C94 is false (integral without samples).** Without samples, or with fewer values than places,
`ctrapz` has no result: the lengths `len - 1` wrap around, the subviews lie outside. -/
theorem C94_integral_false (x y : List ℚ) (h : x = [] ∨ y.length < x.length) :
    ctrapz x y = none := by
  unfold ctrapz
  rcases h with rfl | h
  · simp
  · rw [if_pos h]; split <;> rfl

example : ctrapz [1, 2] [3] = none := C94_integral_false _ _ (Or.inr (by decide))

/-! ## Inverting the distribution -/

theorem rad_area_succ (x y : List ℚ) (k : ℕ) : area x y (k + 1) = area x y k +
    (at' x (k + 1) - at' x k) * ((at' y k + at' y (k + 1)) / 2) := by
  simp [area, List.range_succ]

theorem rad_take (x : List ℚ) {i : ℕ} (h : i + 1 < x.length) :
    at' (x.take (x.length - 1)) i = at' x i := by
  unfold at'
  rw [List.getD_eq_getElem?_getD, List.getD_eq_getElem?_getD, List.getElem?_take, if_pos (by omega)]

/-- **C94 is false (inverting the distribution).** With equally spaced places the transformed sample is
one step below the place where the integral of the density has the value of the uniform sample: at
every place `v` between the second and the last, the sample `u` with integral `u` at `v` is
transformed to `v - h`. -/
theorem C94_inverse_false (x y : List ℚ) (s : ℚ) (hs : 0 < s)
    (hx : ∀ i, i + 1 < x.length → at' x (i + 1) = at' x i + s) (hy : y.length = x.length)
    (hpos : ∀ i, i + 1 < x.length → 0 < at' y i + at' y (i + 1))
    (j : ℕ) (hj : j + 2 < x.length) (u v : ℚ)
    (h0 : at' x (j + 1) ≤ v) (h1 : v ≤ at' x (j + 2))
    (hu : OnLine (at' x (j + 1)) (area x y (j + 1)) (at' x (j + 2)) (area x y (j + 2)) v u) :
    transform x y u = some (v - s) := by
  have hinc : Increasing x := fun i hi => by rw [hx i hi]; linarith
  obtain ⟨c, c1, c2, c3⟩ := rad_cdf x y (by rintro rfl; simp at hj) (by omega)
  have hcinc : Increasing c := by
    intro i hi
    rw [c3 i (by omega), c3 (i + 1) hi, rad_area_succ x y (i + 1)]
    have h1 := hinc (i + 1) (by omega)
    have h2 := hpos (i + 1) (by omega)
    have : 0 < (at' x (i + 1 + 1) - at' x (i + 1)) * ((at' y (i + 1) + at' y (i + 1 + 1)) / 2) :=
      mul_pos (by linarith) (by linarith)
    linarith
  have hg := hcinc j (by omega)
  have e1 : at' c j = area x y (j + 1) := c3 j (by omega)
  have e2 : at' c (j + 1) = area x y (j + 2) := c3 (j + 1) (by omega)
  have hstep : at' x (j + 2) = at' x (j + 1) + s := hx (j + 1) hj
  have hstep0 : at' x (j + 1) = at' x j + s := hx j (by omega)
  unfold OnLine at hu
  rw [← e1, ← e2, hstep] at hu
  have hu' : (u - at' c j) * s = (v - at' x (j + 1)) * (at' c (j + 1) - at' c j) := by
    rw [← hu]; ring
  have b0 : at' c j ≤ u := by
    have : 0 ≤ (u - at' c j) * s := by
      rw [hu']; exact mul_nonneg (by linarith) (by linarith)
    have := nonneg_of_mul_nonneg_left this hs
    linarith
  have b1 : u ≤ at' c (j + 1) := by
    have : 0 ≤ (at' c (j + 1) - u) * s := by
      have : (at' c (j + 1) - u) * s =
          (at' x (j + 1) + s - v) * (at' c (j + 1) - at' c j) := by linear_combination -hu'
      rw [this]
      exact mul_nonneg (by linarith) (by linarith)
    have := nonneg_of_mul_nonneg_left this hs
    linarith
  obtain ⟨w, w1, w2⟩ := C94_interpolate c (x.take (x.length - 1)) hcinc
    (by rw [List.length_take]; omega) j (by omega) u b0 b1
  unfold transform
  rw [c1, Option.bind_some, w1]
  unfold OnLine at w2
  rw [rad_take x (by omega), rad_take x (by omega), hstep0] at w2
  have hd : at' c (j + 1) - at' c j ≠ 0 := sub_ne_zero.mpr (ne_of_gt hg)
  congr 1
  apply mul_right_cancel₀ hd
  rw [hstep0] at hu'
  linear_combination w2 + hu'

example : transform [0, 1, 2, 3] [1, 1, 1, 1] (3 / 2) = some (3 / 2 - 1) :=
  C94_inverse_false [0, 1, 2, 3] [1, 1, 1, 1] 1 (by norm_num)
    (by
      intro i hi
      have : i = 0 ∨ i = 1 ∨ i = 2 := by simp at hi; omega
      rcases this with rfl | rfl | rfl <;> norm_num [at']) rfl
    (by
      intro i hi
      have : i = 0 ∨ i = 1 ∨ i = 2 := by simp at hi; omega
      rcases this with rfl | rfl | rfl <;> norm_num [at']) 0 (by decide) (3 / 2) (3 / 2)
    (by norm_num [at']) (by norm_num [at'])
    (by norm_num [OnLine, at', area, List.range_succ])

/-- **C94 is false (small samples).** Every uniform sample below the area of the first interval (in
particular zero) is transformed to a value below the first place, where the density is not
defined: the clutter voltages can be negative. -/
theorem C94_negative_false (x y : List ℚ) (hx : Increasing x) (hy : y.length = x.length)
    (hl : 2 < x.length) (hpos : ∀ i, i + 1 < x.length → 0 < at' y i + at' y (i + 1)) (u : ℚ)
    (hu : u < area x y 1) : ∃ v, transform x y u = some v ∧ v < at' x 0 := by
  obtain ⟨c, c1, c2, c3⟩ := rad_cdf x y (by rintro rfl; simp at hl) (by omega)
  have hcinc : Increasing c := by
    intro i hi
    rw [c3 i (by omega), c3 (i + 1) hi, rad_area_succ x y (i + 1)]
    have h1 := hx (i + 1) (by omega)
    have h2 := hpos (i + 1) (by omega)
    have : 0 < (at' x (i + 1 + 1) - at' x (i + 1)) * ((at' y (i + 1) + at' y (i + 1 + 1)) / 2) :=
      mul_pos (by linarith) (by linarith)
    linarith
  have h01 := hx 0 (by omega)
  obtain ⟨v, v1, v2, _⟩ := C94_below_false c (x.take (x.length - 1)) hcinc
    (by rw [List.length_take]; omega) (by omega)
    (by rw [rad_take x (by omega), rad_take x (by omega)]; simpa using h01) u
    (by rw [c3 0 (by omega)]; simpa using hu)
  refine ⟨v, ?_, ?_⟩
  · unfold transform; rw [c1, Option.bind_some, v1]
  · rw [rad_take x (by omega)] at v2; exact v2

example : ∃ v, transform [0, 1, 2] [0, 2, 1] 0 = some v ∧ v < 0 :=
  C94_negative_false [0, 1, 2] [0, 2, 1] (by
      intro i hi
      have : i = 0 ∨ i = 1 := by simp at hi; omega
      rcases this with rfl | rfl <;> norm_num [at']) rfl (by decide) (by
      intro i hi
      have : i = 0 ∨ i = 1 := by simp at hi; omega
      rcases this with rfl | rfl <;> norm_num [at']) 0
    (by norm_num [at', area, List.range_succ])

/-! ## Waveforms -/

/-- **C94 (pulses).** A pulse has one value for every instant, the amplitude exactly from the start
until before the end of its duration; with instants `k h` these are the samples `k` from `start / h`
to before `(start + duration) / h`; a later start is the same as earlier instants. -/
theorem C94_pulse (a d s h : ℚ) (time : List ℚ) (hh : 0 < h) (ha : a ≠ 0) :
    (pulse a d s time).length = time.length ∧
      (∀ k, k < time.length → at' time k = k * h →
        (at' (pulse a d s time) k = a ↔ s / h ≤ k ∧ (k : ℚ) < (s + d) / h) ∧
        (at' (pulse a d s time) k = 0 ↔ ¬ (s / h ≤ k ∧ (k : ℚ) < (s + d) / h))) ∧
      pulse a d s time = pulse a d 0 (time.map (· - s)) := by
  refine ⟨by simp [pulse], ?_, ?_⟩
  · intro k hk ht
    have e : at' (pulse a d s time) k = if at' time k < d + s ∧ at' time k ≥ s then a else 0 := by
      simp [at', pulse, hk]
    have c : (at' time k < d + s ∧ at' time k ≥ s) ↔ (s / h ≤ k ∧ (k : ℚ) < (s + d) / h) := by
      rw [ht, div_le_iff₀ hh, lt_div_iff₀ hh, add_comm d s]
      exact and_comm
    rw [e]
    by_cases hc : at' time k < d + s ∧ at' time k ≥ s
    · rw [if_pos hc]
      exact ⟨⟨fun _ => c.mp hc, fun _ => rfl⟩, ⟨fun h => absurd h ha, fun h => absurd (c.mp hc) h⟩⟩
    · rw [if_neg hc]
      exact ⟨⟨fun h => absurd h.symm ha, fun h => absurd (c.mpr h) hc⟩,
        ⟨fun _ h => hc (c.mpr h), fun _ => rfl⟩⟩
  · unfold pulse
    rw [List.map_map]
    apply List.map_congr_left
    intro t _
    simp only [Function.comp]
    have : (t < d + s ∧ t ≥ s) ↔ (t - s < d + 0 ∧ t - s ≥ 0) := by
      constructor <;> rintro ⟨h1, h2⟩ <;> constructor <;> linarith
    by_cases hc : t < d + s ∧ t ≥ s
    · rw [if_pos hc, if_pos (this.mp hc)]
    · rw [if_neg hc, if_neg (fun h => hc (this.mpr h))]

example : pulse 5 2 1 [0, 1, 2, 3, 4] = [0, 5, 5, 0, 0] := by norm_num [pulse]

/-- **C94 (chirps).** The frequency of a chirp changes at a constant rate (whatever the instants and
their distances), the phase is zero at the start, and a later start shifts the phase. -/
theorem C94_chirp (pi rate s : ℚ) (hpi : pi ≠ 0) :
    (∀ h d t h' d' t', h ≠ 0 → d ≠ 0 → h' ≠ 0 → d' ≠ 0 →
      sweep (2 * pi) (phase pi rate s) h d t = sweep (2 * pi) (phase pi rate s) h' d' t') ∧
      phase pi rate s s = 0 ∧ ∀ t, phase pi rate s t = phase pi rate 0 (t - s) := by
  have key : ∀ h d t, h ≠ 0 → d ≠ 0 → sweep (2 * pi) (phase pi rate s) h d t = -2 * rate := by
    intro h d t hh hd
    unfold sweep meanFreq phase
    field_simp
    ring
  refine ⟨?_, by simp [phase], fun t => by simp [phase]⟩
  intro h d t h' d' t' h1 h2 h3 h4
  rw [key h d t h1 h2, key h' d' t' h3 h4]

example : (phase 3 5 1 1 = 0) ∧ ∀ t, phase 3 5 1 t = phase 3 5 0 (t - 1) :=
  (C94_chirp 3 5 1 (by norm_num)).2

/-- **C94 is false (rate of chirps).** The frequency of a chirp constructed with a frequency rate other
than zero does not change by that rate per second: it changes by twice the rate, downwards. -/
theorem C94_chirp_false (pi rate s h d t : ℚ) (hpi : pi ≠ 0) (hr : rate ≠ 0) (hh : h ≠ 0)
    (hd : d ≠ 0) : sweep (2 * pi) (phase pi rate s) h d t = -(2 * rate) ∧
      sweep (2 * pi) (phase pi rate s) h d t ≠ rate := by
  have key : sweep (2 * pi) (phase pi rate s) h d t = -(2 * rate) := by
    unfold sweep meanFreq phase
    field_simp
    ring
  refine ⟨key, ?_⟩
  rw [key]
  intro h
  apply hr
  linarith

example : sweep (2 * 3) (phase 3 5 0) 1 2 7 ≠ 5 :=
  (C94_chirp_false 3 5 0 1 2 7 (by norm_num) (by norm_num) (by norm_num) (by norm_num)).2

/-! ## Audio samples -/

/-- **C94, partial (tones).** A sample of a sine that is not below minus one after scaling is its
value cut off to an integer and takes 14 bits. Missing: the other samples, see
`C94_tone_false`. -/
theorem C94_tone_partial (s : ℚ) (h1 : s ≤ 1) (h0 : -1 < s * 16383) :
    ∃ n, sineSample s = some n ∧ n < 2 ^ 14 ∧ ((n : ℚ) ≤ s * 16383 ∨ n = 0) ∧
      s * 16383 < n + 1 := by
  have e : (((1 <<< 14 : ℕ) - 1 : ℤ) : ℚ) = 16383 := by
    rw [show ((1 <<< 14 : ℕ) - 1 : ℤ) = 16383 by decide]; norm_num
  unfold sineSample toU16
  rw [e]
  by_cases hp : 0 ≤ s * 16383
  · have hf : trunc (s * 16383) = ⌊s * 16383⌋ := by rw [trunc, if_pos hp]
    have n0 : 0 ≤ ⌊s * 16383⌋ := Int.floor_nonneg.mpr hp
    have n1 : ⌊s * 16383⌋ < 16384 := by
      rw [Int.floor_lt]; push_cast; linarith
    rw [hf, if_pos ⟨n0, by omega⟩]
    refine ⟨_, rfl, by omega, Or.inl ?_, ?_⟩
    · have := Int.floor_le (s * 16383)
      have hc : ((⌊s * 16383⌋.toNat : ℕ) : ℚ) = ((⌊s * 16383⌋ : ℤ) : ℚ) := by
        exact_mod_cast Int.toNat_of_nonneg n0
      rw [hc]; exact this
    · have := Int.lt_floor_add_one (s * 16383)
      have hc : ((⌊s * 16383⌋.toNat : ℕ) : ℚ) = ((⌊s * 16383⌋ : ℤ) : ℚ) := by
        exact_mod_cast Int.toNat_of_nonneg n0
      rw [hc]; exact this
  · have hz : ⌊-(s * 16383)⌋ = 0 := by
      rw [Int.floor_eq_zero_iff]
      exact ⟨by linarith, by linarith⟩
    have hf : trunc (s * 16383) = 0 := by rw [trunc, if_neg hp, hz]; rfl
    rw [hf]
    exact ⟨0, by simp, by norm_num, Or.inr rfl, by push_cast; linarith⟩

example : ∃ n, sineSample (1 / 2) = some n ∧ n < 2 ^ 14 ∧ ((n : ℚ) ≤ 1 / 2 * 16383 ∨ n = 0) ∧
    (1 / 2 : ℚ) * 16383 < n + 1 := C94_tone_partial (1 / 2) (by norm_num) (by norm_num)

/-- **C94 is false (negative half waves).** Every sample of a sine below minus one after scaling is
converted to an unsigned type that cannot hold it: the conversion has no defined value. -/
theorem C94_tone_false (s : ℚ) (h : s * 16383 ≤ -1) : sineSample s = none := by
  have e : (((1 <<< 14 : ℕ) - 1 : ℤ) : ℚ) = 16383 := by
    rw [show ((1 <<< 14 : ℕ) - 1 : ℤ) = 16383 by decide]; norm_num
  unfold sineSample toU16
  rw [e, if_neg]
  rintro ⟨h0, _⟩
  rw [trunc, if_neg (by linarith)] at h0
  have : (1 : ℤ) ≤ ⌊-(s * 16383)⌋ := by
    rw [Int.le_floor]; push_cast; linarith
  omega

example : sineSample (-1 / 2) = none := C94_tone_false (-1 / 2) (by norm_num)

/-! ## Beamformer -/

theorem rad_trunc_le {v : ℚ} (h : 0 ≤ v) : (trunc v : ℚ) ≤ v := by
  rw [trunc, if_pos h]; exact Int.floor_le v

/-- **C94, partial (noise of the beamformer).** If sound needs at most a second along the sensors, the
part of the noise of every sensor from every direction lies inside the filtered noise. Missing:
longer arrays, see `C94_noise_false`. -/
theorem C94_noise_partial (rate nts sensors : ℕ) (d a : ℚ) (i : ℕ) (hd : 0 < d) (hs : i < sensors)
    (h1 : sensors * d ≤ 1) (ha : -1 ≤ a) (ha' : a ≤ 1) :
    Inside (noiseOff rate sensors d i a) nts (noiseLen rate nts sensors d) := by
  have hS : (0 : ℚ) < sensors := by exact_mod_cast (by omega : 0 < sensors)
  have hT : 0 < sensors * d := mul_pos hS hd
  have hr : (0 : ℚ) ≤ rate := Nat.cast_nonneg _
  have hi : (0 : ℚ) ≤ i := Nat.cast_nonneg _
  have hiS : (i : ℚ) + 1 ≤ sensors := by exact_mod_cast hs
  have hdr : 0 ≤ d * rate := mul_nonneg (le_of_lt hd) hr
  have hq : 0 ≤ (i : ℚ) * (d * rate) := mul_nonneg hi hdr
  have hb : (i : ℚ) * (d * rate) ≤ sensors * (d * rate) :=
    mul_le_mul_of_nonneg_right (by linarith) hdr
  have lo : -((i : ℚ) * (d * rate)) ≤ i * (d * rate) * a := by nlinarith
  have hi' : (i : ℚ) * (d * rate) * a ≤ i * (d * rate) := by nlinarith
  have hv : 0 ≤ d * rate * sensors + 1 + i * (d * rate) * a := by
    have : d * rate * sensors = sensors * (d * rate) := by ring
    rw [this]; linarith
  have hdiv : rate * (sensors * d) ≤ rate / (sensors * d) := by
    rw [le_div_iff₀ hT]
    have : (sensors * d) * (sensors * d) ≤ 1 := by nlinarith
    have h2 : (rate : ℚ) * (sensors * d) * (sensors * d) =
      rate * ((sensors * d) * (sensors * d)) := by ring
    rw [h2]
    nlinarith
  have hL : (0 : ℚ) ≤ 2 * rate / (sensors * d) + nts + 1 := by positivity
  refine ⟨?_, ?_⟩
  · unfold noiseOff
    rw [trunc, if_pos hv]
    exact Int.floor_nonneg.mpr hv
  · unfold noiseOff noiseLen
    rw [trunc, if_pos hv, trunc, if_pos hL, Int.le_floor]
    push_cast
    have h3 := Int.floor_le (d * rate * sensors + 1 + (i : ℚ) * (d * rate) * a)
    have h4 : 2 * (rate : ℚ) / (sensors * d) = 2 * (rate / (sensors * d)) := by ring
    rw [h4]
    have h5 : d * rate * sensors = rate * (sensors * d) := by ring
    have h6 : (sensors : ℚ) * (d * rate) = rate * (sensors * d) := by ring
    rw [h5] at h3 ⊢
    linarith

example : Inside (noiseOff 1024 128 (1 / 1000) 127 1) 1024 (noiseLen 1024 1024 128 (1 / 1000)) :=
  C94_noise_partial 1024 1024 128 (1 / 1000) 1 127 (by norm_num) (by norm_num) (by norm_num)
    (by norm_num) (by norm_num)

/-- **C94 is false (noise of long arrays).** The length of the noise is computed by dividing by the
time sound needs along the sensors instead of multiplying by it: if that time is two seconds or
more, the part of the noise of the last of several sensors (in the first direction) ends outside. -/
theorem C94_noise_false (rate nts sensors : ℕ) (d : ℚ) (hr : 0 < rate) (hs : 1 < sensors)
    (h2 : 2 ≤ sensors * d) :
    ¬ Inside (noiseOff rate sensors d (sensors - 1) 1) nts (noiseLen rate nts sensors d) := by
  have hS : (2 : ℚ) ≤ sensors := by exact_mod_cast hs
  have hR : (1 : ℚ) ≤ rate := by exact_mod_cast hr
  have hT : 0 < sensors * d := by linarith
  have hd : 0 < d := by
    by_contra hc
    have : (sensors : ℚ) * d ≤ 0 := mul_nonpos_of_nonneg_of_nonpos (by linarith) (not_lt.mp hc)
    linarith
  have hc : ((sensors - 1 : ℕ) : ℚ) = sensors - 1 := by
    rw [Nat.cast_sub (by omega)]; simp
  have hdr : 0 < d * rate := mul_pos hd (by linarith)
  have hv : 0 ≤ d * rate * sensors + 1 + ((sensors - 1 : ℕ) : ℚ) * (d * rate) * 1 := by
    rw [hc]
    have : 0 ≤ ((sensors : ℚ) - 1) * (d * rate) := mul_nonneg (by linarith) (le_of_lt hdr)
    nlinarith
  have hL : (0 : ℚ) ≤ 2 * rate / (sensors * d) + nts + 1 := by positivity
  rintro ⟨_, h⟩
  unfold noiseOff noiseLen at h
  rw [trunc, if_pos hv, trunc, if_pos hL, Int.le_floor] at h
  push_cast at h
  have h3 := Int.lt_floor_add_one (d * rate * sensors + 1 + ((sensors - 1 : ℕ) : ℚ) * (d * rate) * 1)
  have hdiv : 2 * (rate : ℚ) / (sensors * d) ≤ rate := by
    rw [div_le_iff₀ hT]; nlinarith
  rw [hc] at h3 h
  have h4 : d * rate * sensors = rate * (sensors * d) := by ring
  have h5 : 2 * (rate : ℚ) ≤ rate * (sensors * d) := by nlinarith
  have h6 : (rate : ℚ) ≤ (sensors - 1) * (d * rate) := by
    have : ((sensors : ℚ) - 1) * (d * rate) ≥ (sensors / 2) * (d * rate) :=
      mul_le_mul_of_nonneg_right (by linarith) (le_of_lt hdr)
    nlinarith
  rw [h4] at h3 h
  linarith

example : ¬ Inside (noiseOff 8 4 1 3 1) 16 (noiseLen 8 16 4 1) :=
  C94_noise_false 8 16 4 1 (by decide) (by decide) (by norm_num)

/-- **C94, partial (grid of processors).** The grid of processors of the distributed matrix never
needs more processors than there are, and leaves out at most one; it uses all of them for even
numbers and three (and one). Missing: all processors, see `C94_grid_false`. -/
theorem C94_grid_partial (p : ℕ) (hp : 0 < p) :
    (grid p).1 * (grid p).2 ≤ p ∧ p ≤ (grid p).1 * (grid p).2 + 1 ∧
      (p % 2 = 0 ∨ p = 3 ∨ p = 1 → (grid p).1 * (grid p).2 = p) := by
  unfold grid
  by_cases h : p > 1
  · rw [if_pos h]
    obtain ⟨m, rfl | rfl⟩ : ∃ m, p = 2 * m ∨ p = 2 * m + 1 := ⟨p / 2, by omega⟩
    · have e : 2 * m / 2 = m := by omega
      simp only [e, Nat.mul_div_cancel _ (by omega : 0 < m)]
      omega
    · have e : (2 * m + 1) / 2 = m := by omega
      simp only [e]
      rcases Nat.lt_or_ge m 2 with hm | hm
      · have : m = 1 := by omega
        subst this; norm_num
      · have : (2 * m + 1) / m = 2 := by
          apply Nat.div_eq_of_lt_le <;> omega
        rw [this]; omega
  · rw [if_neg h]; omega

example : grid 6 = (3, 2) := rfl

/-- **C94 is false (grid of processors).** With an odd number of processors from five on the grid
leaves out a processor. -/
theorem C94_grid_false (m : ℕ) (h : 2 ≤ m) :
    (grid (2 * m + 1)).1 * (grid (2 * m + 1)).2 < 2 * m + 1 := by
  have e : (2 * m + 1) / 2 = m := by omega
  have : (2 * m + 1) / m = 2 := by apply Nat.div_eq_of_lt_le <;> omega
  unfold grid
  rw [if_pos (by omega), e]
  show m * ((2 * m + 1) / m) < _
  rw [this]; omega

example : (grid 5).1 * (grid 5).2 < 5 := C94_grid_false 2 (by decide)

end Verif.Props

#print axioms Verif.Props.C94_interpolate
#print axioms Verif.Props.C94_above
#print axioms Verif.Props.C94_below_false
#print axioms Verif.Props.C94_empty_false
#print axioms Verif.Props.C94_integral
#print axioms Verif.Props.C94_affine
#print axioms Verif.Props.C94_integral_false
#print axioms Verif.Props.C94_inverse_false
#print axioms Verif.Props.C94_negative_false
#print axioms Verif.Props.C94_pulse
#print axioms Verif.Props.C94_chirp
#print axioms Verif.Props.C94_chirp_false
#print axioms Verif.Props.C94_tone_partial
#print axioms Verif.Props.C94_tone_false
#print axioms Verif.Props.C94_noise_partial
#print axioms Verif.Props.C94_noise_false
#print axioms Verif.Props.C94_grid_partial
#print axioms Verif.Props.C94_grid_false
