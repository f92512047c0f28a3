import Verif.Ssar.Lemmas
import Mathlib.Tactic.Positivity

/-!
The grid, the range loop, the final transforms.
-/

namespace Verif.Ssar

open Finset Verif.Dft

/-! ## Least and greatest values -/

theorem min_fold (m : ℕ) (f : ℕ → ℝ) (v : ℝ) :
    (List.range m).foldl (fun v j => if f j < v then f j else v) v ≤ v ∧
    ∀ j < m, (List.range m).foldl (fun v j => if f j < v then f j else v) v ≤ f j := by
  induction m with
  | zero => exact ⟨le_rfl, by intro j hj; omega⟩
  | succ m ih =>
    rw [List.range_succ, List.foldl_append, List.foldl_cons, List.foldl_nil]
    generalize (List.range m).foldl (fun v j => if f j < v then f j else v) v = w at ih ⊢
    by_cases h : f m < w
    · rw [if_pos h]
      refine ⟨by linarith [ih.1], fun j hj => ?_⟩
      rcases Nat.lt_or_ge j m with h1 | h1
      · linarith [ih.2 j h1]
      · rw [show j = m by omega]
    · rw [if_neg h]
      refine ⟨ih.1, fun j hj => ?_⟩
      rcases Nat.lt_or_ge j m with h1 | h1
      · exact ih.2 j h1
      · rw [show j = m by omega]; linarith

theorem minval_le (n m : ℕ) (f : ℕ → ℕ → ℝ) {i j : ℕ} (hi : i < n) (hj : j < m) : minval n m f ≤ f i j := by
  have : ∀ n, ∀ i < n, (List.range n).foldl (fun v i => (List.range m).foldl (fun v j => if f i j < v then f i j else v) v) (f 0 0) ≤ f i j := by
    intro n
    induction n with
    | zero => intro i hi; omega
    | succ n ih =>
      intro i hi
      rw [List.range_succ, List.foldl_append, List.foldl_cons, List.foldl_nil]
      generalize (List.range n).foldl (fun v i => (List.range m).foldl (fun v j => if f i j < v then f i j else v) v) (f 0 0) = w at ih ⊢
      have := min_fold m (f n) w
      rcases Nat.lt_or_ge i n with h1 | h1
      · exact this.1.trans (ih i h1)
      · rw [show i = n by omega]; exact this.2 j hj
  exact this n i hi

theorem max_fold (m : ℕ) (f : ℕ → ℝ) (v : ℝ) :
    v ≤ (List.range m).foldl (fun v j => if f j > v then f j else v) v ∧
    ∀ j < m, f j ≤ (List.range m).foldl (fun v j => if f j > v then f j else v) v := by
  induction m with
  | zero => exact ⟨le_rfl, by intro j hj; omega⟩
  | succ m ih =>
    rw [List.range_succ, List.foldl_append, List.foldl_cons, List.foldl_nil]
    generalize (List.range m).foldl (fun v j => if f j > v then f j else v) v = w at ih ⊢
    by_cases h : f m > w
    · rw [if_pos h]
      refine ⟨by linarith [ih.1], fun j hj => ?_⟩
      rcases Nat.lt_or_ge j m with h1 | h1
      · linarith [ih.2 j h1]
      · rw [show j = m by omega]
    · rw [if_neg h]
      refine ⟨ih.1, fun j hj => ?_⟩
      rcases Nat.lt_or_ge j m with h1 | h1
      · exact ih.2 j h1
      · rw [show j = m by omega]; linarith

theorem le_maxval (n m : ℕ) (f : ℕ → ℕ → ℝ) {i j : ℕ} (hi : i < n) (hj : j < m) : f i j ≤ maxval n m f := by
  have : ∀ n, ∀ i < n, f i j ≤ (List.range n).foldl (fun v i => (List.range m).foldl (fun v j => if f i j > v then f i j else v) v) (f 0 0) := by
    intro n
    induction n with
    | zero => intro i hi; omega
    | succ n ih =>
      intro i hi
      rw [List.range_succ, List.foldl_append, List.foldl_cons, List.foldl_nil]
      generalize (List.range n).foldl (fun v i => (List.range m).foldl (fun v j => if f i j > v then f i j else v) v) (f 0 0) = w at ih ⊢
      have := max_fold m (f n) w
      rcases Nat.lt_or_ge i n with h1 | h1
      · exact (ih i h1).trans this.1
      · rw [show i = n by omega]; exact this.2 j hj
  exact this n i hi

/-! ## The grid -/

/-- What is known of a grid made by the set-up. -/
structure Made (g : Grid) : Prop where
  pos : 0 < g.dk
  small : g.nx < 2 ^ 32
  even : g.nx % 2 = 0
  size : 20 ≤ g.nx
  lo : ∀ i < g.n, ∀ j < g.m, g.kmin ≤ g.kx i j
  hi : ∀ i < g.n, ∀ j < g.m, g.kx i j ≤ g.kmin + ((g.nx - 20 : ℕ) : ℝ) * g.dk

theorem mkGrid_made {n m : ℕ} {kx : ℕ → ℕ → ℝ} {X0 : ℝ} (hX : 0 < X0) (hn : 0 < n) (hm : 0 < m)
    (hs : maxval n m kx - minval n m kx ≤ 2 ^ 31 * (Real.pi / X0)) :
    ∃ g, mkGrid n m kx X0 = some g ∧ Made g ∧ g.n = n ∧ g.m = m ∧ g.kx = kx ∧ g.kmin = minval n m kx ∧ g.dk = Real.pi / X0 ∧
      (g.nx : ℤ) = 2 * ⌈(maxval n m kx - minval n m kx) / (2 * (Real.pi / X0))⌉ + 20 := by
  have hdk : 0 < Real.pi / X0 := div_pos Real.pi_pos hX
  set dk := Real.pi / X0 with hd
  set R := maxval n m kx - minval n m kx with hR
  have hR0 : 0 ≤ R := by
    have h1 := minval_le n m kx hn hm
    have h2 := le_maxval n m kx hn hm
    linarith
  obtain ⟨c, hc⟩ : ∃ c : ℕ, ⌈R / (2 * dk)⌉ = c := ⟨_, (Int.toNat_of_nonneg (Int.ceil_nonneg (by positivity))).symm⟩
  have hc1 : R / (2 * dk) ≤ c := by have := Int.le_ceil (R / (2 * dk)); rw [hc] at this; exact_mod_cast this
  have hc2 : c ≤ 2 ^ 30 := by
    have : ⌈R / (2 * dk)⌉ ≤ (2 ^ 30 : ℤ) := by
      rw [Int.ceil_le]
      rw [div_le_iff₀ (by positivity)]
      push_cast
      linarith
    rw [hc] at this; exact_mod_cast this
  have hcr : (c : ℝ) ≤ 2 ^ 30 := by exact_mod_cast hc2
  have hcast : toIndex (2 * ((⌈R / (2 * dk)⌉ : ℤ) : ℝ)) = some (2 * c) := by
    rw [hc, toIndex, if_pos ⟨by push_cast; linarith [(Nat.cast_nonneg c : (0 : ℝ) ≤ c)], by push_cast; linarith⟩]
    congr 1
    rw [show (2 : ℝ) * ((c : ℤ) : ℝ) = ((2 * c : ℕ) : ℝ) by push_cast; ring, Nat.floor_natCast]
  refine ⟨⟨n, m, 2 * c + 2 * 8 + 4, kx, minval n m kx, dk⟩, ?_, ?_, rfl, rfl, rfl, rfl, rfl, ?_⟩
  · simp only [mkGrid, ← hd, ← hR, hcast, Option.map_some]
  · refine ⟨hdk, by dsimp only; omega, by dsimp only; omega, by dsimp only; omega, fun i hi j hj => minval_le n m kx hi hj, fun i hi j hj => ?_⟩
    have h2 := le_maxval n m kx hi hj
    have h3 : R ≤ c * (2 * dk) := by rwa [div_le_iff₀ (by positivity)] at hc1
    dsimp only
    rw [show 2 * c + 2 * 8 + 4 - 20 = 2 * c by omega]
    push_cast
    rw [hR] at h3
    linarith
  · rw [hc]; push_cast; ring

theorem kx0_line (g : Grid) (r : ℕ) : kx0 g r = line g r := by rw [kx0, line]; ring

/-- The nearest line: within the grid, with 8 lines and more on either side. -/
theorem icKX_spec {g : Grid} (h : Made g) {i j : ℕ} (hi : i < g.n) (hj : j < g.m) :
    ∃ c, icKX g i j = some c ∧ 2 ≤ c ∧ c + 17 < g.nx ∧ Near g (g.kx i j) (c + 8) := by
  have hlo := h.lo i hi j hj
  have hhi := h.hi i hi j hj
  have hdk := h.pos
  set x := g.kx i j with hx
  have e0 : (x - kx0 g 0) / g.dk = (x - g.kmin) / g.dk + 10 := by
    rw [kx0]; push_cast; field_simp; ring
  set y := (x - g.kmin) / g.dk with hy
  have hy0 : 0 ≤ y := div_nonneg (by linarith) hdk.le
  have hy1 : y ≤ ((g.nx - 20 : ℕ) : ℝ) := by
    rw [hy, div_le_iff₀ hdk]; linarith
  have hxy : x = g.kmin + y * g.dk := by rw [hy]; field_simp; ring
  set z := y + 10 + 0.5 with hz
  have hz0 : 0 ≤ z := by rw [hz]; norm_num; linarith
  obtain ⟨c, hc⟩ : ∃ c, ⌊z⌋₊ = c := ⟨_, rfl⟩
  have hc1 : (c : ℝ) ≤ z := by rw [← hc]; exact Nat.floor_le hz0
  have hc2 : z < c + 1 := by rw [← hc]; exact Nat.lt_floor_add_one z
  have h10 : 10 ≤ c := by
    rw [← hc]; exact Nat.le_floor (by rw [hz]; push_cast; norm_num; linarith)
  have hsz := h.size
  have hsm := h.small
  have hub : c < g.nx - 20 + 11 := by
    have : (c : ℝ) < ((g.nx - 20 + 11 : ℕ) : ℝ) := by
      push_cast
      rw [hz] at hc1
      norm_num at hc1
      linarith
    exact_mod_cast this
  have hzub : z < 2 ^ 64 := by
    have h1 : (c : ℝ) + 1 ≤ 2 ^ 33 := by
      have : c + 1 ≤ 2 ^ 33 := by omega
      exact_mod_cast this
    have : (2 : ℝ) ^ 33 ≤ 2 ^ 64 := by norm_num
    linarith
  refine ⟨c - 8, ?_, by omega, by omega, ?_⟩
  · rw [icKX, ← hx, e0, toIndex, if_pos ⟨by linarith, hzub⟩, Option.map_some, ← hz, hc]
    have : (c + 2 ^ 64 - 8) % 2 ^ 64 % 2 ^ 32 = c - 8 := by omega
    rw [this]
  · rw [Near, line]
    rw [show c - 8 + 8 = c by omega, hxy]
    have a1 : (c : ℝ) - 10 - 1 / 2 ≤ y := by rw [hz] at hc1; norm_num at hc1; linarith
    have a2 : y < (c : ℝ) - 10 + 1 / 2 := by rw [hz] at hc2; norm_num at hc2; linarith
    constructor
    · have := mul_le_mul_of_nonneg_right a1 hdk.le; linarith
    · have := mul_lt_mul_of_pos_right a2 hdk; linarith

/-! ## The range loop -/

theorem sincHam_kern (g : Grid) (i j c h : ℕ) : sincHam g i j c h = kern g.dk (line g (c + h) - g.kx i j) := by
  simp only [sincHam, kern, kx0_line]
  congr 1
  by_cases e : Real.pi * (line g (c + h) - g.kx i j) / g.dk = 0
  · rw [if_neg (not_not.mpr e), if_pos e]
  · rw [if_pos e, if_neg e]

/-- The contribution of sample `i` to line `r`. -/
noncomputable def contrib (g : Grid) (c : ℕ → ℕ → ℕ) (fsm : ℕ → ℕ → ℂ) (i j r : ℕ) : ℂ :=
  if c i j ≤ r + 8 ∧ r ≤ c i j + 8 then fsm i j * (kern g.dk (line g r - g.kx i j) : ℝ) else 0

theorem spreadOne_spec {g : Grid} {i j k : ℕ} (hk : icKX g i j = some k) (hb : k + 17 < g.nx) (fsm : ℕ → ℕ → ℂ) (i' : ℕ) (F : ℕ → ℕ → ℂ) :
    ∃ F', spreadOne g fsm i' i j F = some F' ∧ ∀ a b, F' a b = F a b + if b = j then
      (if k ≤ a ∧ a < k + 17 then fsm i' j * (kern g.dk (line g a - g.kx i j) : ℝ) else 0) else 0 := by
  rw [spreadOne, hk, Option.bind_some]
  refine Sig.loop_inv (fun t F' => ∀ a b, F' a b = F a b + if b = j then
      (if k ≤ a ∧ a < k + t then fsm i' j * (kern g.dk (line g a - g.kx i j) : ℝ) else 0) else 0) 17 F _
    (by intro a b; rw [if_neg (show ¬ (k ≤ a ∧ a < k + 0) by omega)]; simp) ?_
  · intro t s ht hs
    refine ⟨_, if_pos (show k + t < g.nx by omega), fun a b => ?_⟩
    · rw [hs a b]
      by_cases hbj : b = j
      · rw [if_pos hbj, if_pos hbj]
        by_cases ha : a = k + t
        · rw [if_pos ⟨ha, hbj⟩, if_neg (by omega), if_pos (by omega), sincHam_kern, ha]; ring
        · rw [if_neg (fun h => ha h.1)]
          by_cases h : k ≤ a ∧ a < k + t
          · rw [if_pos h, if_pos (by omega)]
          · rw [if_neg h, if_neg (by omega)]
      · rw [if_neg (fun h => hbj h.2), if_neg hbj, if_neg hbj]

theorem rangeLoop_spec {g : Grid} (h : Made g) (turn : ℕ → ℕ) (fsm : ℕ → ℕ → ℂ) :
    ∃ (c : ℕ → ℕ → ℕ) (F : ℕ → ℕ → ℂ), (∀ i < g.n, ∀ j < g.m, Near g (g.kx i j) (c i j)) ∧ rangeLoop g turn fsm = some F ∧
      ∀ a < g.nx, ∀ b < g.m, F a b = -(sgn a * sgn b) * spread g c (fun i j => fsm (turn i) j) a b := by
  have hk : ∀ i j, ∃ k, i < g.n → j < g.m → icKX g i j = some k ∧ k + 17 < g.nx ∧ Near g (g.kx i j) (k + 8) := by
    intro i j
    by_cases hi : i < g.n
    · by_cases hj : j < g.m
      · obtain ⟨k, h1, _, h3, h4⟩ := icKX_spec h hi hj
        exact ⟨k, fun _ _ => ⟨h1, h3, h4⟩⟩
      · exact ⟨0, fun _ h => absurd h hj⟩
    · exact ⟨0, fun h => absurd h hi⟩
  choose k hk using hk
  refine ⟨fun i j => k i j + 8, ?_⟩
  set fs : ℕ → ℕ → ℂ := fun i j => fsm (turn i) j with hfs
  set S : ℕ → ℕ → ℕ → ℂ := fun t a b => ∑ i ∈ range t, contrib g (fun i j => k i j + 8) fs i b a with hS
  obtain ⟨F, e, hF⟩ := Sig.loop_inv (fun j F => ∀ a b, F a b = if b < j then (if a < g.nx then -(sgn a * sgn b) else 1) * S g.n a b else 0) g.m
    (fun _ _ => (0 : ℂ)) (fun F j => (Sig.loop g.n F fun F i => spreadOne g fsm (turn i) i j F).bind fun F => some (negAlt g j F))
    (by intro a b; simp) (by
      intro j F hj hF
      obtain ⟨F1, e1, h1⟩ := Sig.loop_inv (fun i F1 => ∀ a b, F1 a b = F a b + if b = j then S i a b else 0) g.n F
        (fun F i => spreadOne g fsm (turn i) i j F) (by intro a b; simp [hS]) (by
          intro i F1 hi h1
          obtain ⟨h2, h3, _⟩ := hk i j hi hj
          obtain ⟨F2, e2, h4⟩ := spreadOne_spec h2 h3 fsm (turn i) F1
          refine ⟨F2, e2, fun a b => ?_⟩
          rw [h4, h1]
          by_cases hb : b = j
          · rw [if_pos hb, if_pos hb, if_pos hb, hb, hS]
            dsimp only
            rw [sum_range_succ, add_assoc]
            congr 2
            rw [contrib]
            by_cases hc : k i j ≤ a ∧ a < k i j + 17
            · rw [if_pos hc, if_pos (by omega)]
            · rw [if_neg hc, if_neg (by omega)]
          · rw [if_neg hb, if_neg hb, if_neg hb]; ring)
      refine ⟨negAlt g j F1, by rw [e1]; rfl, fun a b => ?_⟩
      rw [negAlt]
      have hev := h.even
      by_cases hb : b = j
      · subst hb
        have e3 : F1 a b = S g.n a b := by rw [h1, hF, if_neg (by omega), if_pos rfl, zero_add]
        rw [e3, if_pos (show b < b + 1 by omega)]
        by_cases ha : a < g.nx
        · rw [if_pos ha]
          by_cases hp : a % 2 = b % 2
          · rw [if_pos ⟨rfl, hp, by omega⟩, sgn_congr hp, sgn_sq]; ring
          · rw [if_neg (fun h => hp h.2.1)]
            have : sgn a * sgn b = -1 := by
              rw [sgn, sgn, ← pow_add]
              exact Odd.neg_one_pow (Nat.odd_iff.mpr (by omega))
            rw [this]; ring
        · rw [if_neg ha]
          by_cases hp : a % 2 = b % 2
          · rw [if_neg (by omega)]; ring
          · rw [if_neg (fun h => hp h.2.1)]; ring
      · rw [if_neg (fun h => hb h.1), h1, hF, if_neg hb, add_zero]
        by_cases hlt : b < j
        · rw [if_pos hlt, if_pos (show b < j + 1 by omega)]
        · rw [if_neg hlt, if_neg (show ¬ b < j + 1 by omega)])
  refine ⟨F, fun i hi j hj => (hk i j hi hj).2.2, e, fun a ha b hb => ?_⟩
  rw [hF, if_pos hb, if_pos ha]
  rfl

/-! ## The image -/

theorem toImage_spec {g : Grid} (hx : g.nx % 2 = 0) (hm : g.m % 2 = 0) (F G : ℕ → ℕ → ℂ)
    (h : ∀ a < g.nx, ∀ b < g.m, F a b = -(sgn a * sgn b) * G a b) {i j : ℕ} (hi : i < g.nx) (hj : j < g.m) :
    toImage g F j i = picture g.nx g.m G j i := by
  have e : 1 / (g.m : ℂ) * dft1 false g.m (fun b => 1 / (g.nx : ℂ) * dft1 false g.nx (fun a => F a b) i) j =
      -(sgn (sw g.nx i) * sgn (sw g.m j)) * ((1 / ((g.nx : ℂ) * g.m)) * ∑ a ∈ range g.nx, ∑ b ∈ range g.m, G a b * (cunit false g.nx a i * cunit false g.m b j)) := by
    have step : ∑ a ∈ range g.nx, ∑ b ∈ range g.m, G a b * (cunit false g.nx a i * cunit false g.m b j) =
        -(sgn (sw g.nx i) * sgn (sw g.m j)) * ∑ b ∈ range g.m, (∑ a ∈ range g.nx, F a b * unit false g.nx a i) * unit false g.m b j := by
      rw [sum_comm, mul_sum]
      refine sum_congr rfl fun b hb => ?_
      rw [sum_mul, mul_sum]
      refine sum_congr rfl fun a ha => ?_
      rw [mem_range] at ha hb
      rw [h a ha b hb, cunit_eq false hx ha hi, cunit_eq false hm hb hj, unit_sw false (by omega) hx, unit_sw false (by omega) hm,
        unit_comm false g.nx a (sw g.nx i), unit_comm false g.m b (sw g.m j), unit_sw false (by omega) hx, unit_sw false (by omega) hm,
        unit_comm false g.nx i a, unit_comm false g.m j b]
      ring
    rw [step, dft1]
    simp only [dft1]
    have q1 := sgn_sq (sw g.nx i)
    have q2 := sgn_sq (sw g.m j)
    have pull : ∑ b ∈ range g.m, 1 / (g.nx : ℂ) * (∑ a ∈ range g.nx, F a b * unit false g.nx a i) * unit false g.m b j =
        1 / (g.nx : ℂ) * ∑ b ∈ range g.m, (∑ a ∈ range g.nx, F a b * unit false g.nx a i) * unit false g.m b j := by
      rw [mul_sum]; exact sum_congr rfl fun b _ => by ring
    rw [pull]
    generalize ∑ b ∈ range g.m, (∑ a ∈ range g.nx, F a b * unit false g.nx a i) * unit false g.m b j = T
    have : 1 / ((g.nx : ℂ) * g.m) = 1 / (g.m : ℂ) * (1 / (g.nx : ℂ)) := by rw [one_div_mul_one_div, mul_comm]
    rw [this]
    linear_combination (-(1 / (g.m : ℂ) * (1 / (g.nx : ℂ)) * T)) * (sgn (sw g.m j) * sgn (sw g.m j) * q1 + q2)
  rw [toImage, e, picture, norm_mul, norm_neg, norm_mul, norm_sgn, norm_sgn, one_mul, one_mul]

end Verif.Ssar
