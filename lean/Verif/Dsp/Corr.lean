import Verif.Dsp.Lemmas
namespace Verif.Dsp
open Verif Finset

/-! ### Correlation -/

theorem corr_circ (N : ℕ) (x r : ℕ → ℂ) (n : ℕ) : corr N x r n = Hpec.circ N (fun k => (starRingEnd ℂ) (x (Dft.opp N k))) r n := by
  unfold corr Hpec.circ
  rw [← Dft.sum_opp]
  refine Finset.sum_congr rfl fun k hk => ?_
  have hk := mem_range.1 hk
  congr 2
  unfold Dft.opp
  rw [Nat.mod_add_mod, show N - k + n = n + N - k by omega]

theorem dft_conj_opp (N : ℕ) (x : ℕ → ℂ) (w : ℕ) :
    Dft.dft1 true N (fun k => (starRingEnd ℂ) (x (Dft.opp N k))) w = (starRingEnd ℂ) (Dft.dft1 true N x w) := by
  unfold Dft.dft1
  rw [map_sum, ← Dft.sum_opp]
  refine Finset.sum_congr rfl fun k hk => ?_
  have hk := mem_range.1 hk
  show (starRingEnd ℂ) (x (Dft.opp N (Dft.opp N k))) * _ = _
  rw [Dft.opp_opp N k hk, map_mul, Dft.unit_conj, Dft.unit_opp _ _ _ _ hk]

theorem product_eq (N : ℕ) (t f : ℕ → ℝ) (ref x v : ℕ → ℂ) (hv : ∀ w, w < N → v w = (starRingEnd ℂ) (Dft.dft1 true N x w)) (i n : ℕ) (hn : n < N) :
    product N t f ref v i n = corr N x (refRow t f ref i) n := by
  rw [corr_circ, ← Hpec.inv_fwd N _ _ n hn]
  unfold product Hpec.inv Hpec.fwd coeffs
  congr 1
  refine Dft.dft1_congr _ _ _ _ (fun w hw => ?_) n
  rw [hv w hw, dft_conj_opp]

theorem corr_norm_le (N : ℕ) (x r : ℕ → ℂ) (n : ℕ) : ‖corr N x r n‖ ≤ ∑ m ∈ range N, ‖x m‖ * ‖r ((m + n) % N)‖ := by
  unfold corr
  refine (norm_sum_le _ _).trans (le_of_eq ?_)
  refine Finset.sum_congr rfl fun m _ => ?_
  rw [norm_mul, RCLike.norm_conj]

theorem sum_rot (N n : ℕ) (f : ℕ → ℝ) : ∑ m ∈ range N, f ((m + n) % N) = ∑ m ∈ range N, f m := by
  rcases Nat.eq_zero_or_pos N with rfl | hN
  · simp
  have hn := Nat.mod_lt n hN
  have e : ∀ m, m + n + (N - n % N) = m + N * (n / N + 1) := by
    intro m
    have := Nat.div_add_mod n N
    rw [Nat.mul_add]
    omega
  refine Finset.sum_nbij' (fun m => (m + n) % N) (fun m => (m + (N - n % N)) % N) ?_ ?_ ?_ ?_ ?_
  · intro n _; exact mem_range.2 (Nat.mod_lt _ hN)
  · intro n _; exact mem_range.2 (Nat.mod_lt _ hN)
  · intro m hm
    have hm := mem_range.1 hm
    show ((m + n) % N + (N - n % N)) % N = m
    rw [Nat.mod_add_mod, e m, Nat.add_mul_mod_self_left, Nat.mod_eq_of_lt hm]
  · intro m hm
    have hm := mem_range.1 hm
    show ((m + (N - n % N)) % N + n) % N = m
    rw [Nat.mod_add_mod, show m + (N - n % N) + n = m + n + (N - n % N) by omega, e m, Nat.add_mul_mod_self_left, Nat.mod_eq_of_lt hm]
  · intro n _; rfl

/-! ### The spectrum of a real signal -/

theorem toIdx_nat (n : ℕ) (h : n < 2 ^ 64) : toIdx (n : ℤ) = n := by
  unfold toIdx
  omega

/-- `temp` after `n` steps of the loop -/
theorem temp_steps (N : ℕ) (hN : 2 ≤ N) (hb : N < 2 ^ 64) (X : ℕ → ℂ) (n : ℕ) (hn : n ≤ N / 2 - 1) :
    (List.range n).foldlM (fun (v : ℕ → Option ℂ) i =>
      if i + N / 2 + 1 < N ∧ toIdx ((N / 2 : ℕ) - (i : ℤ) - 1) < N then
        some (Function.update v (i + N / 2 + 1) ((v (toIdx ((N / 2 : ℕ) - (i : ℤ) - 1))).map (starRingEnd ℂ)))
      else none) (fun w => if w < N / 2 + 1 then some ((starRingEnd ℂ) (X w)) else none) =
    some fun w => if w < N / 2 + 1 then some ((starRingEnd ℂ) (X w)) else if w < N / 2 + 1 + n then some (X (2 * (N / 2) - w)) else none := by
  induction n with
  | zero =>
    simp only [List.range_zero, List.foldlM_nil]
    show some _ = some _
    congr 1
    funext w
    split <;> rfl
  | succ n ih =>
    rw [List.range_succ, List.foldlM_append, ih (by omega)]
    have e : toIdx ((N / 2 : ℕ) - (n : ℤ) - 1) = N / 2 - n - 1 := by
      rw [← toIdx_nat (N / 2 - n - 1) (by omega)]
      congr 1
      omega
    simp only [List.foldlM_cons, List.foldlM_nil, Option.bind_eq_bind, Option.bind_some, e]
    rw [if_pos ⟨by omega, by omega⟩]
    show some _ = some _
    congr 1
    funext w
    by_cases hw : w = n + N / 2 + 1
    · subst hw
      rw [Function.update_self, if_pos (by omega), if_neg (by omega), if_pos (by omega)]
      simp only [Option.map_some, Complex.conj_conj]
      congr 2
      omega
    · rw [Function.update_of_ne hw]
      split
      · rfl
      · by_cases c : w < N / 2 + 1 + n
        · rw [if_pos c, if_pos (by omega)]
        · rw [if_neg c, if_neg (by omega)]

theorem temp_eq (N : ℕ) (hN : 2 ≤ N) (hb : N < 2 ^ 64) (x : ℕ → ℝ) :
    temp N x = some fun w => if w < N / 2 + 1 then some ((starRingEnd ℂ) (Dft.dft1 true N (fun k => (x k : ℂ)) w)) else
      if w < 2 * (N / 2) then some (Dft.dft1 true N (fun k => (x k : ℂ)) (2 * (N / 2) - w)) else none := by
  unfold temp
  rw [if_pos (by omega)]
  have e : toIdx ((N / 2 : ℕ) - 1 : ℤ) = N / 2 - 1 := by
    rw [← toIdx_nat (N / 2 - 1) (by omega)]
    congr 1
    omega
  rw [e]
  simp only
  rw [temp_steps N hN hb _ (N / 2 - 1) le_rfl]
  congr 1
  funext w
  rw [show N / 2 + 1 + (N / 2 - 1) = 2 * (N / 2) by omega]

/-! ### Halves -/

theorem swapped_steps (H : ℕ) (out : ℕ → ℕ → ℂ) (n : ℕ) (hn : n ≤ H) :
    (List.range n).foldl (fun (c : ℕ → Option (ℕ → ℝ)) i =>
      Function.update (Function.update c (i + H) (some fun r => ‖out r i‖)) i (some fun r => ‖out r (i + H)‖)) (fun _ => none) =
    fun c => if c < n then some fun r => ‖out r (c + H)‖ else if H ≤ c ∧ c < H + n then some fun r => ‖out r (c - H)‖ else none := by
  induction n with
  | zero =>
    funext c
    simp only [List.range_zero, List.foldl_nil]
    rw [if_neg (by omega), if_neg (by omega)]
  | succ n ih =>
    rw [List.range_succ, List.foldl_append, ih (by omega), List.foldl_cons, List.foldl_nil]
    funext c
    by_cases h1 : c = n
    · subst h1
      rw [Function.update_self, if_pos (by omega)]
    · rw [Function.update_of_ne h1]
      by_cases h2 : c = n + H
      · subst h2
        rw [Function.update_self, if_neg (by omega), if_pos (by omega), Nat.add_sub_cancel]
      · rw [Function.update_of_ne h2]
        by_cases h3 : c < n
        · rw [if_pos h3, if_pos (by omega)]
        · rw [if_neg h3, if_neg (by omega : ¬c < n + 1)]
          by_cases h4 : H ≤ c ∧ c < H + n
          · rw [if_pos h4, if_pos (by omega)]
          · rw [if_neg h4, if_neg (by omega)]

theorem swapped_eq (N : ℕ) (out : ℕ → ℕ → ℂ) (c : ℕ) :
    swapped N out c = if c < N / 2 then some fun r => ‖out r (c + N / 2)‖ else if c < 2 * (N / 2) then some fun r => ‖out r (c - N / 2)‖ else none := by
  unfold swapped
  rw [swapped_steps (N / 2) out (N / 2) le_rfl]
  show (if _ then _ else _) = _
  split
  · rfl
  · by_cases h : c < 2 * (N / 2)
    · rw [if_pos h, if_pos (by omega)]
    · rw [if_neg h, if_neg (by omega)]

/-- with the greatest value in column `n0` only, the estimate is that of this column -/
theorem estimate_peak (Nf H : ℕ) (hH : 0 < H) (out : ℕ → ℕ → ℂ) (r0 n0 : ℕ) (hr : r0 < Nf) (h0 : n0 < 2 * H)
    (hs : ∀ r, r < Nf → ∀ n, n < 2 * H → n ≠ n0 → ‖out r n‖ < ‖out r0 n0‖) :
    estimate Nf (2 * H) out = some (toIdx ((H : ℤ) - ((if n0 < H then n0 + H else n0 - H : ℕ) : ℤ))) := by
  have h2 : 2 * H / 2 = H := by omega
  have hc : ∀ c, c < 2 * H → swapped (2 * H) out c = some fun r => ‖out r (if c < H then c + H else c - H)‖ := by
    intro c hc
    rw [swapped_eq, h2]
    by_cases h : c < H
    · simp only [if_pos h]
    · simp only [if_neg h, if_pos hc]
  unfold estimate
  simp only [h2]
  rw [if_pos fun n hn => by rw [hc n hn]; rfl]
  obtain ⟨v, idx, e, hi, hv, hmax, -⟩ := Props.C49_extremum true (id : ℝ → ℝ)
    ⟨[Nf, 2 * H], fun i => (swapped (2 * H) out (i.getD 1 0)).elim 0 fun col => col (i.getD 0 0)⟩ [0, 1] (Ex.visit2row Nf (2 * H)) (Ex.Loop.row _ _)
    ⟨[r0, n0], by simp [InRange, hr, h0]⟩
  rw [e]
  simp only [Option.bind_eq_bind, Option.bind_some]
  have : ∃ r c, idx = [r, c] ∧ r < Nf ∧ c < 2 * H := by
    match idx, hi with
    | [r, c], hi => exact ⟨r, c, rfl, by simpa [InRange] using hi⟩
  obtain ⟨r, c, rfl, hr', hc'⟩ := this
  have hval := hmax [r0, if n0 < H then n0 + H else n0 - H] (by simp only [InRange]; split <;> simp <;> omega)
  have hn0 : (if (if n0 < H then n0 + H else n0 - H) < H then (if n0 < H then n0 + H else n0 - H) + H else (if n0 < H then n0 + H else n0 - H) - H) = n0 := by
    split <;> split <;> omega
  have hlt : (if n0 < H then n0 + H else n0 - H) < 2 * H := by split <;> omega
  simp only [Props.AtLeast, if_true, id_eq, List.getD_cons_zero, List.getD_cons_succ] at hval hv
  rw [hc _ hlt] at hval
  rw [hc c hc'] at hv
  simp only [Option.elim_some, hn0] at hval hv
  have hcc : (if c < H then c + H else c - H) = n0 := by
    by_contra hne
    have := hs r hr' (if c < H then c + H else c - H) (by split <;> omega) hne
    rw [hv] at this
    exact absurd hval (not_le.mpr this)
  simp only [List.getD_cons_zero, List.getD_cons_succ]
  congr 3
  rw [← hcc]
  split <;> split <;> omega

end Verif.Dsp
