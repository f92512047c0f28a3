import Verif.Bench.Spec
import Mathlib.Tactic.Ring
import Mathlib.Tactic.Linarith
import Mathlib.Tactic.Positivity
import Mathlib.Tactic.FieldSimp
/-!
Lemmas about the driver of the benchmarks: numbers in text, sorting, calibration.
-/
namespace Verif.Bench
open Verif

/-! ### Numbers -/

theorem digitChar_spec : ∀ d < 10, (digitChar d).isDigit = true ∧ (digitChar d).toNat = 48 + d ∧ (digitChar d).isWhitespace = false ∧ digitChar d ≠ '-' ∧ digitChar d ≠ '+' := by
  decide +kernel

theorem decimal_isDigit (n : Nat) : ∀ x ∈ decimal n, x.isDigit = true := by
  induction n using Nat.strongRecOn with
  | _ n ih =>
    intro x hx
    rw [decimal] at hx
    split at hx
    · next h => simp only [List.mem_singleton] at hx; subst hx; exact (digitChar_spec n h).1
    · next h =>
      rcases List.mem_append.1 hx with h1 | h1
      · exact ih (n / 10) (by omega) x h1
      · simp only [List.mem_singleton] at h1; subst h1; exact (digitChar_spec (n % 10) (by omega)).1

theorem decimal_fold (n : Nat) : (decimal n).foldl (fun a c => (10 * a.1 + (c.toNat - 48), a.2 + 1)) ((0, 0) : Nat × Nat) = (n, (decimal n).length) := by
  induction n using Nat.strongRecOn with
  | _ n ih =>
    rw [decimal]
    split
    · next h => simp [(digitChar_spec n h).2.1]
    · next h =>
      rw [List.foldl_append, ih (n / 10) (by omega)]
      simp only [List.foldl_cons, List.foldl_nil, (digitChar_spec (n % 10) (by omega)).2.1, List.length_append, List.length_singleton, Prod.mk.injEq, and_true]
      omega

theorem takeWhile_all {p : Char → Bool} : ∀ {l : List Char}, (∀ x ∈ l, p x = true) → l.takeWhile p = l
  | [], _ => rfl
  | a :: l, h => by rw [List.takeWhile_cons, if_pos (h a (by simp)), takeWhile_all fun x hx => h x (by simp [hx])]

theorem digits_decimal (n : Nat) : digits (decimal n) = (n, (decimal n).length) := by
  rw [digits, takeWhile_all (decimal_isDigit n), decimal_fold]

theorem decimal_head (n : Nat) : ∃ d < 10, ∃ l, decimal n = digitChar d :: l := by
  induction n using Nat.strongRecOn with
  | _ n ih =>
    rw [decimal]
    split
    · next h => exact ⟨n, h, [], rfl⟩
    · next h =>
      obtain ⟨d, hd, l, e⟩ := ih (n / 10) (by omega)
      exact ⟨d, hd, l ++ [digitChar (n % 10)], by rw [e]; rfl⟩

theorem sign_other {a : Char} {l : List Char} (h1 : a ≠ '-') (h2 : a ≠ '+') : sign (a :: l) = (false, a :: l) := by
  unfold sign
  split
  · next h => simp_all
  · next h => simp_all
  · rfl

theorem number_showInt (z : Int) : number (showInt z) = some z := by
  have hl : (decimal z.natAbs).length ≠ 0 := by
    obtain ⟨d, hd, l, e⟩ := decimal_head z.natAbs
    rw [e]; simp
  unfold showInt
  by_cases h : z < 0
  · rw [if_pos h]
    have e1 : skipSpace ('-' :: decimal z.natAbs) = '-' :: decimal z.natAbs := by
      rw [skipSpace, List.dropWhile_cons, if_neg (by decide)]
    simp only [number, e1, sign, digits_decimal, if_neg hl, if_true]
    congr 1; omega
  · rw [if_neg h]
    obtain ⟨d, hd, l, e⟩ := decimal_head z.natAbs
    have hs := digitChar_spec d hd
    have e1 : skipSpace (decimal z.natAbs) = decimal z.natAbs := by
      rw [e, skipSpace, List.dropWhile_cons, if_neg (by simp [hs.2.2.1])]
    have e2 : sign (decimal z.natAbs) = (false, decimal z.natAbs) := by rw [e]; exact sign_other hs.2.2.2.1 hs.2.2.2.2
    simp only [number, e1, e2, digits_decimal, if_neg hl]
    congr 1; simp; omega

theorem atoi_showInt {z : Int} (h : -2147483648 ≤ z ∧ z < 2147483648) : atoi (String.ofList (showInt z)) = some z := by
  simp only [atoi, String.toList_ofList, number_showInt, Option.getD_some, if_pos h]

theorem scan_showInt (z : Int) : scan (String.ofList ('-' :: showInt z)) = .value z := by
  have h : skipSpace (showInt z) ≠ [] := by
    intro h
    have := number_showInt z
    rw [number, h] at this
    simp [sign, digits] at this
  simp only [scan, String.toList_ofList, if_neg h, number_showInt]

theorem toU32_of {v : Int} (h : 0 ≤ v ∧ v < 2147483648) : toU32 v = v.toNat := by
  unfold toU32; omega

/-! ### Sorting -/

theorem insertT_perm (x : ℚ) : ∀ l, (insertT x l).Perm (x :: l)
  | [] => List.Perm.refl _
  | y :: l => by
    rw [insertT]
    split
    · exact List.Perm.refl _
    · exact ((insertT_perm x l).cons y).trans (List.Perm.swap x y l)

theorem sortT_perm : ∀ l, (sortT l).Perm l
  | [] => List.Perm.refl _
  | x :: l => by rw [sortT]; exact (insertT_perm x _).trans ((sortT_perm l).cons x)

theorem insertT_sorted (x : ℚ) : ∀ l : List ℚ, l.Pairwise (· ≤ ·) → (insertT x l).Pairwise (· ≤ ·)
  | [], _ => by simp [insertT]
  | y :: l, h => by
    rw [insertT]
    have hy := List.pairwise_cons.1 h
    split
    · next hxy =>
      refine List.pairwise_cons.2 ⟨fun a ha => ?_, h⟩
      rcases List.mem_cons.1 ha with rfl | ha
      · exact hxy
      · exact le_trans hxy (hy.1 a ha)
    · next hxy =>
      refine List.pairwise_cons.2 ⟨fun a ha => ?_, insertT_sorted x l hy.2⟩
      rcases List.mem_cons.1 ((insertT_perm x l).mem_iff.1 ha) with rfl | ha
      · exact le_of_lt (not_le.1 hxy)
      · exact hy.1 a ha

theorem sortT_sorted : ∀ l : List ℚ, (sortT l).Pairwise (· ≤ ·)
  | [] => by simp [sortT]
  | x :: l => by rw [sortT]; exact insertT_sorted x _ (sortT_sorted l)

theorem sorted_le {l : List ℚ} (h : l.Pairwise (· ≤ ·)) {i j : Nat} (hij : i ≤ j) (hj : j < l.length) : l[i] ≤ l[j] := by
  rcases Nat.lt_or_ge i j with h1 | h1
  · exact List.pairwise_iff_getElem.1 h i j (by omega) hj h1
  · have : i = j := by omega
    subst this; exact le_refl _

theorem countP_ge_of {l : List ℚ} {p : ℚ → Bool} {a n : Nat} (h : ∀ i (hi : i < l.length), a ≤ i → i < a + n → p l[i] = true) (hn : a + n ≤ l.length) : n ≤ l.countP p := by
  have e : l.countP p = (l.take a).countP p + (((l.drop a).take n).countP p + ((l.drop a).drop n).countP p) := by
    rw [← List.countP_append, List.take_append_drop, ← List.countP_append, List.take_append_drop]
  have e2 : ((l.drop a).take n).countP p = ((l.drop a).take n).length := by
    rw [List.countP_eq_length]
    intro x hx
    obtain ⟨i, hi, rfl⟩ := List.getElem_of_mem hx
    simp only [List.length_take, List.length_drop] at hi
    simp only [List.getElem_take, List.getElem_drop]
    exact h (a + i) (by omega) (by omega) (by omega)
  simp only [List.length_take, List.length_drop] at e2
  omega

theorem median_sorted {l : List ℚ} (h : 0 < l.length) : IsMedian ((sortT l)[(l.length - 1) / 2]'(by rw [(sortT_perm l).length_eq]; omega)) l := by
  have hp := sortT_perm l
  have hs := sortT_sorted l
  have hlen := hp.length_eq
  refine ⟨hp.mem_iff.1 (List.getElem_mem _), ?_, ?_⟩
  · rw [← hp.countP_eq]
    have := countP_ge_of (l := sortT l) (p := fun x => decide (x ≤ (sortT l)[(l.length - 1) / 2]'(by omega))) (a := 0) (n := (l.length - 1) / 2 + 1)
      (fun i hi _ h2 => by simpa using sorted_le hs (by omega) (by omega)) (by omega)
    omega
  · rw [← hp.countP_eq]
    have := countP_ge_of (l := sortT l) (p := fun x => decide ((sortT l)[(l.length - 1) / 2]'(by omega) ≤ x)) (a := (l.length - 1) / 2) (n := l.length - (l.length - 1) / 2)
      (fun i hi h1 _ => by simpa using sorted_le hs h1 hi) (by omega)
    omega

theorem min_sorted {l : List ℚ} (h : 0 < l.length) : IsMin ((sortT l)[0]'(by rw [(sortT_perm l).length_eq]; omega)) l := by
  have hp := sortT_perm l
  refine ⟨hp.mem_iff.1 (List.getElem_mem _), fun x hx => ?_⟩
  obtain ⟨i, hi, rfl⟩ := List.getElem_of_mem (hp.mem_iff.2 hx)
  exact sorted_le (sortT_sorted l) (Nat.zero_le _) hi

theorem max_sorted {l : List ℚ} (h : 0 < l.length) : IsMax ((sortT l)[l.length - 1]'(by rw [(sortT_perm l).length_eq]; omega)) l := by
  have hp := sortT_perm l
  have := hp.length_eq
  refine ⟨hp.mem_iff.1 (List.getElem_mem _), fun x hx => ?_⟩
  obtain ⟨i, hi, rfl⟩ := List.getElem_of_mem (hp.mem_iff.2 hx)
  exact sorted_le (sortT_sorted l) (by omega) (by omega)

/-! ### Calibration -/

theorem floor_lt_nat {v : ℚ} {n : Nat} (h : v < n) (hn : 0 < n) : ⌊v⌋.toNat < n := by
  have : ⌊v⌋ < (n : Int) := Int.floor_lt.2 (by exact_mod_cast h)
  omega

theorem calStep_lt {goal t : ℚ} {loop l : Nat} {b : Bool} (h : calStep goal t loop = .ok (l, b)) : 1 ≤ l ∧ l < W₆₄ ∧ (b = true → loop < l) := by
  unfold calStep at h
  simp only at h
  generalize (if t ≤ 1 / 100 then 1 / 100 else t) = t' at h
  split at h
  · cases h
  · next hv =>
    have hv2 := (not_or.1 hv).2
    have hf := floor_lt_nat (n := W₆₄) (by simpa using hv2) (by omega)
    simp only [Out.ok.injEq, Prod.mk.injEq] at h
    obtain ⟨h1, h2⟩ := h
    rw [h1] at h2
    refine ⟨?_, ?_, fun hb => ?_⟩
    · split at h1 <;> omega
    · split at h1 <;> omega
    · rw [hb] at h2; exact (of_decide_eq_true h2).2

theorem calStep_ne {goal t : ℚ} {loop : Nat} : calStep goal t loop ≠ .forever := by
  intro e
  unfold calStep at e
  simp only at e
  generalize (if t ≤ 1 / 100 then 1 / 100 else t) = t' at e
  split at e <;> cases e

theorem calib_ends {goal : ℚ} {time : Nat → Nat → ℚ} : ∀ fuel k loop, loop < W₆₄ → W₆₄ ≤ fuel + loop → calib goal time fuel k loop ≠ .forever
  | 0, _, loop, h1, h2 => by omega
  | fuel + 1, k, loop, h1, h2 => by
    rw [calib]
    cases e : calStep goal (time k loop) loop with
    | ub => simp
    | forever => exact absurd e calStep_ne
    | ok x =>
      obtain ⟨l, b⟩ := x
      cases b with
      | false => simp
      | true =>
        have := calStep_lt e
        have h3 := this.2.2 rfl
        exact calib_ends fuel (k + 1) l this.2.1 (by omega)

/-- a call that takes more than 1/100 s: the next loop count is the ideal one -/
theorem calStep_slow {goal c : ℚ} {l : Nat} (hc : 0 < c) (hg : 0 ≤ goal) (hl : 1 ≤ l) (h : 1 / 100 < c * l) (hG : goal / c < 18446744073709551616) :
    ∃ b, calStep goal (c * l) l = .ok (ideal goal c, b) := by
  have hl' : (0 : ℚ) < l := by exact_mod_cast hl
  have e : goal / (c * l) * l = goal / c := by field_simp
  have hp : 0 ≤ goal / c := div_nonneg hg hc.le
  have ht : (if c * (l : ℚ) ≤ 1 / 100 then 1 / 100 else c * (l : ℚ)) = c * l := if_neg (not_le.2 h)
  unfold calStep
  simp only [ht, e]
  rw [if_neg (by rintro (h1 | h1) <;> linarith)]
  have : (if ⌊goal / c⌋.toNat = 0 then 1 else ⌊goal / c⌋.toNat) = ideal goal c := by unfold ideal; split <;> omega
  rw [this]
  exact ⟨_, rfl⟩

/-- a shorter call: the loop count at least doubles -/
theorem calStep_fast {goal c : ℚ} {l : Nat} (hc : 0 < c) (hg : 1 / 50 ≤ goal) (hl : 1 ≤ l) (h : c * l ≤ 1 / 100) (hG : goal / c < 18446744073709551616) :
    ∃ l', calStep goal (c * l) l = .ok (l', true) ∧ l < l' := by
  have hl' : (1 : ℚ) ≤ l := by exact_mod_cast hl
  have h2 : goal / (1 / 100) * l ≤ goal / c := by
    rw [le_div_iff₀ hc]
    calc goal / (1 / 100) * l * c = goal * (100 * (c * l)) := by ring
      _ ≤ goal * 1 := mul_le_mul_of_nonneg_left (by linarith) (by linarith)
      _ = goal := mul_one _
  have h3 : (2 : ℚ) * l ≤ goal / (1 / 100) * l := mul_le_mul_of_nonneg_right (by rw [le_div_iff₀ (by norm_num)]; linarith) (by linarith)
  have hfl : (2 * l : Int) ≤ ⌊goal / (1 / 100) * (l : ℚ)⌋ := Int.le_floor.2 (by push_cast; exact h3)
  unfold calStep
  simp only [if_pos h]
  rw [if_neg (by rintro (h1 | h1) <;> linarith), if_neg (by omega)]
  refine ⟨⌊goal / (1 / 100) * (l : ℚ)⌋.toNat, ?_, ?_⟩
  · congr 2
    simp only [decide_eq_true_eq]
    refine ⟨?_, by omega⟩
    rw [le_div_iff₀ (by norm_num)]; linarith
  · omega

theorem ideal_slow {goal c : ℚ} (hc : 0 < c) (hg : 1 / 50 ≤ goal) : 1 / 100 < c * ideal goal c := by
  have hfl := Int.lt_floor_add_one (goal / c)
  have hge : 0 ≤ ⌊goal / c⌋ := Int.floor_nonneg.2 (div_nonneg (by linarith) hc.le)
  have h1 : ((ideal goal c : Nat) : ℚ) ≥ 1 := by unfold ideal; exact_mod_cast le_max_left _ _
  have h2 : ((ideal goal c : Nat) : ℚ) ≥ (⌊goal / c⌋ : ℚ) := by
    have : (⌊goal / c⌋ : Int) ≤ (ideal goal c : Int) := by unfold ideal; omega
    exact_mod_cast this
  have h3 : goal / c < 2 * ideal goal c := by linarith
  rw [div_lt_iff₀ hc] at h3
  linarith

theorem ideal_lt {goal c : ℚ} (hG : goal / c < 18446744073709551616) : ideal goal c < W₆₄ := by
  have := floor_lt_nat (v := goal / c) (n := W₆₄) (by simpa using hG) (by omega)
  unfold ideal; omega

theorem calib_ideal {goal c : ℚ} {time : Nat → Nat → ℚ} (hc : 0 < c) (hg : 1 / 50 ≤ goal) (hG : goal / c < 18446744073709551616) (ht : ∀ k l, time k l = c * l) :
    ∀ fuel k loop, 1 ≤ loop → loop < W₆₄ → W₆₄ ≤ fuel + loop → ∃ n, calib goal time fuel k loop = .ok (ideal goal c, n)
  | 0, _, loop, _, h1, h2 => by omega
  | fuel + 1, k, loop, h0, h1, h2 => by
    rw [calib, ht]
    rcases lt_or_ge (1 / 100) (c * (loop : ℚ)) with h | h
    · obtain ⟨b, e⟩ := calStep_slow hc (by linarith) h0 h hG
      rw [e]
      cases b with
      | false => exact ⟨_, rfl⟩
      | true =>
        have := calStep_lt e
        have h3 := this.2.2 rfl
        exact calib_ideal hc hg hG ht fuel (k + 1) _ this.1 this.2.1 (by omega)
    · obtain ⟨l', e, hl'⟩ := calStep_fast hc hg h0 h hG
      rw [e]
      have := calStep_lt e
      exact calib_ideal hc hg hG ht fuel (k + 1) _ this.1 this.2.1 (by omega)

theorem calib_zero {goal : ℚ} {time : Nat → Nat → ℚ} (hg : 1 / 50 ≤ goal) (ht : ∀ k l, time k l = 0) :
    ∀ fuel k loop, 1 ≤ loop → loop < W₆₄ → W₆₄ ≤ fuel + loop → calib goal time fuel k loop = .ub
  | 0, _, loop, _, h1, h2 => by omega
  | fuel + 1, k, loop, h0, h1, h2 => by
    rw [calib, ht]
    have hl' : (1 : ℚ) ≤ loop := by exact_mod_cast h0
    have h3 : (2 : ℚ) * loop ≤ goal / (1 / 100) * loop := mul_le_mul_of_nonneg_right (by rw [le_div_iff₀ (by norm_num)]; linarith) (by linarith)
    have hfl : (2 * loop : Int) ≤ ⌊goal / (1 / 100) * (loop : ℚ)⌋ := Int.le_floor.2 (by push_cast; exact h3)
    cases e : calStep goal 0 loop with
    | ub => rfl
    | forever => exact absurd e calStep_ne
    | ok x =>
      obtain ⟨l, b⟩ := x
      have hlt := calStep_lt e
      unfold calStep at e
      simp only [show ((0 : ℚ) ≤ 1 / 100) from by norm_num, if_true] at e
      split at e
      · cases e
      · rw [if_neg (by omega)] at e
        simp only [Out.ok.injEq, Prod.mk.injEq] at e
        obtain ⟨e1, e2⟩ := e
        have hb : b = true := by
          rw [← e2, decide_eq_true_eq]
          refine ⟨?_, by omega⟩
          rw [le_div_iff₀ (by norm_num)]; linarith
        subst hb
        exact calib_zero hg ht fuel (k + 1) l hlt.1 hlt.2.1 (by omega)

/-! ### Adaptation -/

/-- the number of calls before rounding when `l` calls of `c` seconds were measured -/
def target (G : ℚ) (l : Nat) : ℚ := if G < l then 9 / 10 * G + 1 / 10 * l else G

theorem adapt_linear {goal c : ℚ} {l : Nat} (hc : 0 < c) (hg : 0 ≤ goal) (hl : 1 ≤ l) (hl2 : l < 2147483648) (hG : goal / c < 2147483648) :
    adapt goal (c * l) l = some (max 1 ⌊target (goal / c) l⌋.toNat) := by
  have hl' : (0 : ℚ) < l := by exact_mod_cast hl
  have hl2' : (l : ℚ) < 2147483648 := by exact_mod_cast hl2
  have hcl : c * (l : ℚ) ≠ 0 := (mul_pos hc hl').ne'
  have hp : 0 ≤ goal / c := div_nonneg hg hc.le
  have e : goal / (c * l) = goal / c / l := by rw [div_div]
  have hlt : goal / (c * l) < 1 ↔ goal / c < l := by rw [e, div_lt_one hl']
  have ev : (if goal / (c * l) < 1 then goal / (c * l) + 1 / 10 * (1 - goal / (c * l)) else goal / (c * l)) * (l : ℚ) = target (goal / c) l := by
    unfold target
    by_cases h : goal / c < l
    · rw [if_pos (hlt.2 h), if_pos h, e]
      have : goal / c / l * l = goal / c := div_mul_cancel₀ _ hl'.ne'
      calc (goal / c / l + 1 / 10 * (1 - goal / c / l)) * l = 9 / 10 * (goal / c / l * l) + 1 / 10 * l := by ring
        _ = _ := by rw [this]
    · rw [if_neg (fun h1 => h (hlt.1 h1)), if_neg h, e, div_mul_cancel₀ _ hl'.ne']
  have h0 : 0 ≤ target (goal / c) l := by unfold target; split <;> linarith
  have h1 : target (goal / c) l < 2147483648 := by unfold target; split <;> linarith
  have hfl := floor_lt_nat (n := 2147483648) (by simpa using h1) (by omega)
  have hfn : 0 ≤ ⌊target (goal / c) l⌋ := Int.floor_nonneg.2 h0
  unfold adapt
  simp only [if_neg hcl, ev]
  unfold toLoop
  rw [if_neg (by rintro (h | h) <;> linarith)]
  simp only [if_pos h0]
  have ei : toIdx ⌊target (goal / c) l⌋ = ⌊target (goal / c) l⌋.toNat := by unfold toIdx; omega
  rw [ei]
  congr 1
  split <;> omega

end Verif.Bench
