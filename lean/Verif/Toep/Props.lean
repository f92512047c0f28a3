import Verif.Toep.Model
import Verif.Signal.Lemmas
import Mathlib.Algebra.Star.BigOperators
import Mathlib.Algebra.BigOperators.Intervals
import Mathlib.Algebra.Star.Rat
import Mathlib.Tactic.Ring
import Mathlib.Tactic.FieldSimp
import Mathlib.Tactic.LinearCombination
import Mathlib.Tactic.NormNum

/-!
# C62: the Toeplitz solver solves its system
-/

namespace Verif.Toep

open Verif.Sig Finset

section
variable {K : Type} [Field K] [StarRing K]

/-- The Hermitian Toeplitz matrix with first row `d, t 1, t 2, …`. -/
def toeplitz (d : K) (t : Nat → K) (i j : Nat) : K :=
  if i = j then d else if i < j then t (j - i) else star (t (i - j))

/-- Row `i` of the leading `k` by `k` block applied to `x`. -/
def row (d : K) (t : Nat → K) (k i : Nat) (x : Nat → K) : K := ∑ j ∈ range k, toeplitz d t i j * x j

theorem map_loop {T : Type} (k : Nat) (v : Vec T) (hk : k ≤ v.n) (body : Vec T → Nat → Option (Vec T)) (h : Nat → T → T)
    (hb : ∀ i < k, ∀ w : Vec T, w.n = v.n → w.f i = v.f i → body w i = w.put i (h i (v.f i))) :
    ∃ w, loop k v body = some w ∧ w.n = v.n ∧ ∀ j, w.f j = if j < k then h j (v.f j) else v.f j := by
  have := loop_inv (fun i (w : Vec T) => w.n = v.n ∧ ∀ j, w.f j = if j < i then h j (v.f j) else v.f j) k v body
    ⟨rfl, fun j => by simp⟩ (by
      intro i w hi ⟨hn, hf⟩
      have hfi : w.f i = v.f i := by rw [hf i, if_neg (by omega)]
      rw [hb i hi w hn hfi]
      refine ⟨⟨w.n, fun j => if j = i then h i (v.f i) else w.f j⟩, by simp [Vec.put, hn, show i < v.n by omega], hn, fun j => ?_⟩
      by_cases hji : j = i
      · subst hji; simp
      · simp only [if_neg hji]
        rw [hf j]
        by_cases hj : j < i
        · rw [if_pos hj, if_pos (by omega)]
        · rw [if_neg hj, if_neg (by omega)])
  exact this

theorem rget_eq (t : Vec K) (i : Nat) (h : i + 1 < t.n) : rget t i = some (t.f (i + 1)) := by
  simp [rget, Vec.get, h, show i < t.n - 1 by omega]

theorem get_eq {T : Type} (v : Vec T) (i : Nat) (h : i < v.n) : v.get i = some (v.f i) := by simp [Vec.get, h]

theorem dotRev_eq (t v : Vec K) (k : Nat) (h : k < t.n) (hv : k ≤ v.n) :
    dotRev t v k = some (∑ i ∈ range k, star (t.f (i + 1)) * v.f (k - 1 - i)) := by
  unfold dotRev
  rw [loop_sum k 0 _ (fun i => star (t.f (i + 1)) * v.f (k - 1 - i)) (by
    intro i s hi
    rw [rget_eq t i (by omega), get_eq v _ (by omega)]; rfl), zero_add]

theorem sum_rev (k : Nat) (f : Nat → K) : ∑ i ∈ range k, f (k - 1 - i) = ∑ i ∈ range k, f i := Finset.sum_range_reflect f k

theorem addRev_eq (mu : K) (y x : Vec K) (k : Nat) (hx : k ≤ x.n) (hy : k ≤ y.n) :
    ∃ w, addRev mu y x k = some w ∧ w.n = x.n ∧ ∀ j, w.f j = if j < k then mu * star (y.f (k - 1 - j)) + x.f j else x.f j := by
  unfold addRev
  refine map_loop k x hx _ (fun i a => mu * star (y.f (k - 1 - i)) + a) ?_
  intro i hi w hn hf
  rw [get_eq y _ (by omega), get_eq w i (by omega), hf]; rfl

theorem tmpRev_eq (a : K) (y tv : Vec K) (k : Nat) (ht : k ≤ tv.n) (hy : k ≤ y.n) :
    ∃ w, tmpRev a y tv k = some w ∧ w.n = tv.n ∧ ∀ j, w.f j = if j < k then a * star (y.f (k - 1 - j)) + y.f j else tv.f j := by
  unfold tmpRev
  refine map_loop k tv ht _ (fun i _ => a * star (y.f (k - 1 - i)) + y.f i) ?_
  intro i hi w hn hf
  rw [get_eq y _ (by omega), get_eq y i (by omega)]; rfl

theorem copyTo_eq (tv y : Vec K) (k : Nat) (ht : k ≤ tv.n) (hy : k ≤ y.n) :
    ∃ w, copyTo tv y k = some w ∧ w.n = y.n ∧ ∀ j, w.f j = if j < k then tv.f j else y.f j := by
  unfold copyTo
  refine map_loop k y hy _ (fun i _ => tv.f i) ?_
  intro i hi w hn hf
  rw [get_eq tv _ (by omega)]; rfl

/-- The invariant of the recursion before step `k`. -/
structure Inv (d : K) (t b : Vec K) (k : Nat) (st : St K) : Prop where
  xn : st.x.n = t.n
  yn : st.y.n = t.n
  vn : st.tmpv.n = t.n
  sol : ∀ i < k, row d t.f k i st.x.f = b.f i
  yule : k < t.n → ∀ i < k, row d t.f k i st.y.f = -star (t.f (i + 1))
  den : k < t.n → d * (st.beta * (1 - st.alpha * star st.alpha)) = d + ∑ j ∈ range k, star (t.f (j + 1) * st.y.f j)

/-- The reversed conjugate of a solution of the Yule-Walker equations solves the reversed equations. -/
theorem row_rev (d : K) (hd : star d = d) (t y : Nat → K) (k : Nat) (h : ∀ i < k, row d t k i y = -star (t (i + 1))) (i : Nat) (hi : i < k) :
    row d t k i (fun j => star (y (k - 1 - j))) = -t (k - i) := by
  have h1 := congrArg star (h (k - 1 - i) (by omega))
  unfold row at h1 ⊢
  rw [star_sum, ← sum_rev] at h1
  rw [show k - 1 - i + 1 = k - i by omega, star_neg, star_star] at h1
  rw [← h1]
  refine Finset.sum_congr rfl fun j hj => ?_
  have hj' := mem_range.1 hj
  rw [star_mul']
  congr 1
  unfold toeplitz
  rcases Nat.lt_trichotomy i j with h2 | h2 | h2
  · rw [if_neg (by omega), if_pos h2, if_neg (by omega), if_neg (by omega), star_star]
    congr 1; omega
  · rw [if_pos h2, if_pos (by omega), hd]
  · rw [if_neg (by omega), if_neg (by omega), if_neg (by omega), if_pos (by omega)]
    congr 2; omega

theorem row_succ (d : K) (t x : Nat → K) (k i : Nat) : row d t (k + 1) i x = row d t k i x + toeplitz d t i k * x k := by
  unfold row; rw [sum_range_succ]

theorem row_congr (d : K) (t x y : Nat → K) (k i : Nat) (h : ∀ j < k, x j = y j) : row d t k i x = row d t k i y :=
  Finset.sum_congr rfl fun j hj => by rw [h j (mem_range.1 hj)]

theorem row_lin (d : K) (t x y : Nat → K) (c : K) (k i : Nat) : row d t k i (fun j => c * x j + y j) = c * row d t k i x + row d t k i y := by
  unfold row
  rw [Finset.mul_sum, ← Finset.sum_add_distrib]
  exact Finset.sum_congr rfl fun j _ => by ring

/-- The last row of the next block. -/
theorem row_last (d : K) (t x : Nat → K) (k : Nat) : row d t k k x = ∑ i ∈ range k, star (t (i + 1)) * x (k - 1 - i) := by
  unfold row
  rw [← sum_rev]
  refine Finset.sum_congr rfl fun j hj => ?_
  have hj' := mem_range.1 hj
  unfold toeplitz
  rw [if_neg (by omega), if_neg (by omega)]
  congr 3; omega

theorem top_up (d : K) (t : Nat → K) (k i : Nat) (h : i < k) : toeplitz d t i k = t (k - i) := by
  unfold toeplitz; rw [if_neg (by omega), if_pos h]

theorem top_dia (d : K) (t : Nat → K) (k : Nat) : toeplitz d t k k = d := by unfold toeplitz; rw [if_pos rfl]

/-- Row `k` times the reversed conjugate of `y`. -/
theorem row_last_rev (d : K) (t y : Nat → K) (k : Nat) :
    row d t k k (fun j => star (y (k - 1 - j))) = ∑ j ∈ range k, star (t (j + 1) * y j) := by
  rw [row_last]
  refine Finset.sum_congr rfl fun j hj => ?_
  have hj' := mem_range.1 hj
  rw [star_mul', show k - 1 - (k - 1 - j) = j by omega]

variable [DecidableEq K]

/-- One step keeps the invariant, or the block is singular and the step throws. -/
theorem step_inv (d : K) (hd : star d = d) (hd0 : d ≠ 0) (t b : Vec K) (hb : b.n = t.n) (k : Nat) (hk : k < t.n) (st : St K)
    (h : Inv d t b k st) :
    (∃ st', step d t b st k = some (.ok st') ∧ Inv d t b (k + 1) st') ∨
    (step d t b st k = some (.error ()) ∧ ∃ w : Nat → K, w k = 1 ∧ ∀ i ≤ k, row d t.f (k + 1) i w = 0) := by
  obtain ⟨hxn, hyn, hvn, hsol, hyule, hden⟩ := h
  have hyu := hyule hk
  have hde := hden hk
  have hrev := row_rev d hd t.f st.y.f k hyu
  unfold step
  simp only []
  set beta := st.beta * (1 - st.alpha * star st.alpha) with hbe
  by_cases h0 : beta = 0
  · right
    rw [if_pos h0]
    refine ⟨rfl, fun j => if j < k then star (st.y.f (k - 1 - j)) else 1, by simp, fun i hi => ?_⟩
    rw [row_succ, row_congr d t.f _ (fun j => star (st.y.f (k - 1 - j))) k i (fun j hj => if_pos hj)]
    rw [if_neg (by omega), mul_one]
    rcases Nat.lt_or_ge i k with h1 | h1
    · rw [hrev i h1, top_up d t.f k i h1]; ring
    · obtain rfl : i = k := by omega
      rw [row_last_rev, top_dia]
      rw [h0, mul_zero] at hde
      rw [hde]; ring
  · left
    rw [if_neg h0]
    have hdb : d * beta ≠ 0 := mul_ne_zero hd0 h0
    rw [dotRev_eq t st.x k hk (by omega), get_eq b k (by omega)]
    simp only [Option.bind_eq_bind, Option.bind_some, div?, if_neg hdb]
    set mu := (b.f k - ∑ i ∈ range k, star (t.f (i + 1)) * st.x.f (k - 1 - i)) / (d * beta) with hmu
    have hmu' : mu * (d * beta) = b.f k - row d t.f k k st.x.f := by
      rw [row_last, hmu]; field_simp
    obtain ⟨x1, e1, n1, f1⟩ := addRev_eq mu st.y st.x k (by omega) (by omega)
    rw [e1]
    simp only [Option.bind_some]
    have hp : x1.put k mu = some ⟨x1.n, fun j => if j = k then mu else x1.f j⟩ := by simp [Vec.put, n1, hxn, hk]
    rw [hp]
    simp only [Option.bind_some]
    have hsol' : ∀ i < k + 1, row d t.f (k + 1) i (fun j => if j = k then mu else x1.f j) = b.f i := by
      intro i hi
      rw [row_succ, if_pos rfl, row_congr d t.f _ (fun j => mu * star (st.y.f (k - 1 - j)) + st.x.f j) k i (fun j hj => by
        rw [if_neg (by omega), f1 j, if_pos hj]), row_lin]
      rcases Nat.lt_or_ge i k with h1 | h1
      · rw [hrev i h1, top_up d t.f k i h1, hsol i h1]; ring
      · obtain rfl : i = k := by omega
        rw [row_last_rev, top_dia]
        linear_combination mu * hde.symm + hmu'
    by_cases hlast : k < t.n - 1
    · rw [if_pos hlast, dotRev_eq t st.y k hk (by omega)]
      simp only [Option.bind_some]
      rw [rget_eq t k (by omega)]
      simp only [Option.bind_some]
      set alpha := -(∑ i ∈ range k, star (t.f (i + 1)) * st.y.f (k - 1 - i) + star (t.f (k + 1))) / (d * beta) with hal
      have hal' : alpha * (d * beta) = -(row d t.f k k st.y.f + star (t.f (k + 1))) := by
        rw [row_last, hal]; field_simp
      obtain ⟨v1, e2, n2, f2⟩ := tmpRev_eq alpha st.y st.tmpv k (by omega) (by omega)
      rw [e2]
      simp only [Option.bind_some]
      obtain ⟨y1, e3, n3, f3⟩ := copyTo_eq v1 st.y k (by omega) (by omega)
      rw [e3]
      simp only [Option.bind_some]
      have hp2 : y1.put k alpha = some ⟨y1.n, fun j => if j = k then alpha else y1.f j⟩ := by simp [Vec.put, n3, hyn, hk]
      rw [hp2]
      simp only [Option.bind_some]
      have hyf : ∀ j < k, (fun j => if j = k then alpha else y1.f j) j = alpha * star (st.y.f (k - 1 - j)) + st.y.f j := by
        intro j hj
        show (if j = k then alpha else y1.f j) = _
        rw [if_neg (by omega), f3 j, if_pos hj, f2 j, if_pos hj]
      refine ⟨_, rfl, ⟨by simpa [n1] using hxn, by simpa [n3] using hyn, by simpa [n2] using hvn, hsol', fun _ i hi => ?_, fun _ => ?_⟩⟩
      · show row d t.f (k + 1) i (fun j => if j = k then alpha else y1.f j) = _
        rw [row_succ, if_pos rfl, row_congr d t.f _ _ k i hyf, row_lin]
        rcases Nat.lt_or_ge i k with h1 | h1
        · rw [hrev i h1, top_up d t.f k i h1, hyu i h1]; ring
        · obtain rfl : i = k := by omega
          rw [row_last_rev, top_dia]
          linear_combination alpha * hde.symm + hal'
      · show d * (beta * (1 - alpha * star alpha)) = d + ∑ j ∈ range (k + 1), star (t.f (j + 1) * (if j = k then alpha else y1.f j))
        rw [sum_range_succ, if_pos rfl]
        have e4 : ∑ j ∈ range k, star (t.f (j + 1) * (if j = k then alpha else y1.f j))
            = ∑ j ∈ range k, star (t.f (j + 1) * st.y.f j) + star alpha * row d t.f k k st.y.f := by
          rw [row_last, Finset.mul_sum, ← Finset.sum_add_distrib]
          refine Finset.sum_congr rfl fun j hj => ?_
          have := hyf j (mem_range.1 hj)
          simp only [] at this
          rw [this]
          simp only [star_mul', star_add, star_star]
          ring
        rw [e4, star_mul']
        linear_combination hde - star alpha * hal'
    · rw [if_neg hlast]
      refine ⟨_, rfl, ⟨by simpa [n1] using hxn, hyn, hvn, hsol', fun h => ?_, fun h => ?_⟩⟩
      · omega
      · omega

/-- The state after the loop, or the failure. -/
theorem toepsol_main (re : K → K) (hre : ∀ z, star (re z) = re z) (t b y x : Vec K) (hn : 2 ≤ t.n) (hb : b.n = t.n) (hy : y.n = t.n)
    (hx : x.n = t.n) (h0 : re (t.f 0) ≠ 0) :
    (∃ z, toepsol re t b y x = some (.ok z) ∧ z.n = t.n ∧ ∀ i < t.n, row (re (t.f 0)) t.f t.n i z.f = b.f i) ∨
    (toepsol re t b y x = some (.error ()) ∧ ∃ k < t.n, ∃ w : Nat → K, w k = 1 ∧ ∀ i ≤ k, row (re (t.f 0)) t.f (k + 1) i w = 0) := by
  set d := re (t.f 0) with hd
  unfold toepsol
  rw [if_pos ⟨hb.symm, hy.symm, hx.symm⟩, get_eq t 0 (by omega)]
  simp only [Option.bind_eq_bind, Option.bind_some]
  rw [rget_eq t 0 (by omega)]
  simp only [Option.bind_some, div?, ← hd, if_neg h0]
  have hp : y.put 0 (star (-t.f (0 + 1) / d)) = some ⟨y.n, fun j => if j = 0 then star (-t.f (0 + 1) / d) else y.f j⟩ := by
    simp [Vec.put, hy, show 0 < t.n by omega]
  rw [hp, get_eq b 0 (by omega)]
  simp only [Option.bind_some]
  have hp2 : x.put 0 (b.f 0 / d) = some ⟨x.n, fun j => if j = 0 then b.f 0 / d else x.f j⟩ := by
    simp [Vec.put, hx, show 0 < t.n by omega]
  rw [hp2]
  simp only [Option.bind_some]
  set a0 := star (-t.f (0 + 1) / d) with ha0
  have ha : a0 * d = -star (t.f 1) := by
    rw [ha0, star_div₀, star_neg, hd, hre, ← hd]; field_simp
  clear_value a0
  have hinit : Inv d t b 1 ⟨1, a0, ⟨x.n, fun j => if j = 0 then b.f 0 / d else x.f j⟩, ⟨y.n, fun j => if j = 0 then a0 else y.f j⟩, ⟨t.n, fun _ => 0⟩⟩ := by
    refine ⟨hx, hy, rfl, fun i hi => ?_, fun _ i hi => ?_, fun _ => ?_⟩
    · obtain rfl : i = 0 := by omega
      simp [row, toeplitz]; field_simp
    · obtain rfl : i = 0 := by omega
      simp [row, toeplitz]; rw [mul_comm]; exact ha
    · simp
      linear_combination (-star a0) * ha
  obtain ⟨s', e, hI⟩ := loop_inv (fun i (s : Except Unit (St K)) =>
      match s with
      | .ok st => Inv d t b (i + 1) st
      | .error _ => ∃ k < t.n, ∃ w : Nat → K, w k = 1 ∧ ∀ i ≤ k, row d t.f (k + 1) i w = 0) (t.n - 1)
    (Except.ok ⟨1, a0, ⟨x.n, fun j => if j = 0 then b.f 0 / d else x.f j⟩, ⟨y.n, fun j => if j = 0 then a0 else y.f j⟩, ⟨t.n, fun _ => 0⟩⟩)
    (turn d t b) hinit (by
      intro i s hi hs
      match s, hs with
      | .error e, hs => exact ⟨.error e, rfl, hs⟩
      | .ok st, hs =>
        rcases step_inv d (by rw [hd, hre]) h0 t b hb (i + 1) (by omega) st hs with ⟨st', e, h'⟩ | ⟨e, w, hw⟩
        · exact ⟨.ok st', e, h'⟩
        · exact ⟨.error (), e, i + 1, by omega, w, hw⟩)
  rw [e]
  match s', hI with
  | .error (), hI => exact Or.inr ⟨rfl, hI⟩
  | .ok st, hI =>
    refine Or.inl ⟨st.x, rfl, hI.xn, fun i hi => ?_⟩
    have := hI.sol i (by omega)
    rwa [show t.n - 1 + 1 = t.n by omega] at this

end

end Verif.Toep

namespace Verif.Props

open Verif.Sig Verif.Toep Finset

section
variable {K : Type} [Field K] [StarRing K] [DecidableEq K]

/-- For two or more unknowns and a first entry whose real part is not zero, `toepsol` stays inside its vectors and either returns a solution of
the system, or throws and then a leading block of the matrix is singular (`w` is a nonzero vector it sends to zero).
Partial: one unknown, and a zero first entry, are excluded (see the two theorems below). -/
theorem C62_solves_partial (re : K → K) (hre : ∀ z, star (re z) = re z) (t b y x : Vec K) (hn : 2 ≤ t.n) (hb : b.n = t.n) (hy : y.n = t.n)
    (hx : x.n = t.n) (h0 : re (t.f 0) ≠ 0) :
    (∃ z, toepsol re t b y x = some (.ok z) ∧ z.n = t.n ∧
      ∀ i < t.n, ∑ j ∈ range t.n, toeplitz (re (t.f 0)) t.f i j * z.f j = b.f i) ∨
    (toepsol re t b y x = some (.error ()) ∧
      ∃ k < t.n, ∃ w : Nat → K, w k = 1 ∧ ∀ i ≤ k, ∑ j ∈ range (k + 1), toeplitz (re (t.f 0)) t.f i j * w j = 0) :=
  toepsol_main re hre t b y x hn hb hy hx h0

/-- A definite matrix (the quadratic form of every leading block vanishes at zero only) is never refused: the solution is returned.
Missing: one unknown and a zero first entry, see `C62_one_false`, `C62_zero_false`. -/
theorem C62_definite_partial (re : K → K) (hre : ∀ z, star (re z) = re z) (t b y x : Vec K) (hn : 2 ≤ t.n) (hb : b.n = t.n) (hy : y.n = t.n)
    (hx : x.n = t.n)
    (hpd : ∀ k ≤ t.n, ∀ w : Nat → K, (∑ i ∈ range k, ∑ j ∈ range k, star (w i) * (toeplitz (re (t.f 0)) t.f i j * w j)) = 0 → ∀ i < k, w i = 0) :
    ∃ z, toepsol re t b y x = some (.ok z) ∧ z.n = t.n ∧ ∀ i < t.n, ∑ j ∈ range t.n, toeplitz (re (t.f 0)) t.f i j * z.f j = b.f i := by
  have h0 : re (t.f 0) ≠ 0 := by
    intro h
    have := hpd 1 (by omega) (fun _ => 1) (by simp [toeplitz, h]) 0 (by omega)
    exact one_ne_zero this
  rcases C62_solves_partial re hre t b y x hn hb hy hx h0 with h | ⟨_, k, hk, w, hw, hz⟩
  · exact h
  · exfalso
    have := hpd (k + 1) (by omega) w (by
      refine Finset.sum_eq_zero fun i hi => ?_
      rw [← Finset.mul_sum, hz i (by have := mem_range.1 hi; omega), mul_zero]) k (by omega)
    rw [hw] at this
    exact one_ne_zero this

/-- With one unknown the code reads the first element of an empty view (l.66), whatever the input. -/
theorem C62_one_false (re : K → K) (t b y x : Vec K) (h : t.n = 1) : toepsol re t b y x = none := by
  unfold toepsol
  split
  · simp [Vec.get, h, rget]
  · rfl

/-- A regular matrix with a zero in the corner: the code divides by zero (l.66) and does not throw.  The system has the solution (2, 1). -/
theorem C62_zero_false :
    toepsol (K := ℚ) id ⟨2, fun i => i⟩ ⟨2, fun i => i + 1⟩ ⟨2, fun _ => 0⟩ ⟨2, fun _ => 0⟩ = none ∧
    ∃ z : Nat → ℚ, ∀ i < 2, ∑ j ∈ range 2, toeplitz (0 : ℚ) (fun i => i) i j * z j = i + 1 := by
  refine ⟨by simp [toepsol, Vec.get, rget, div?], fun j => if j = 0 then 2 else 1, fun i hi => ?_⟩
  match i, hi with
  | 0, _ => simp [Finset.sum_range_succ, toeplitz]
  | 1, _ => simp [Finset.sum_range_succ, toeplitz]; norm_num
  | _ + 2, h => omega

end

/-- A system of three equations: rows (4 1 2), (1 4 1), (2 1 4), right hand side (12 12 16), solution (1 2 3). -/
example : ((toepsol (K := ℚ) id ⟨3, fun i => if i = 0 then 4 else i⟩ ⟨3, fun i => if i = 0 then 12 else if i = 1 then 12 else 16⟩
    ⟨3, fun _ => 0⟩ ⟨3, fun _ => 0⟩).map (fun r => r.toOption.map (fun z => (z.f 0, z.f 1, z.f 2)))) = some (some (1, 2, 3)) := by
  decide +kernel

/-- A singular system is refused. -/
example : ((toepsol (K := ℚ) id ⟨2, fun _ => 1⟩ ⟨2, fun i => i⟩ ⟨2, fun _ => 0⟩ ⟨2, fun _ => 0⟩).map (fun r => r.isOk)) = some false := by
  decide +kernel

end Verif.Props
