import Mathlib.Tactic.NormNum
import Mathlib.Data.Rat.Floor
import Mathlib.Algebra.BigOperators.Ring.Finset
import Verif.Hpec.Lemmas

/-!
# C77: the HPEC kernels and fast convolution
-/

namespace Verif.Props

open Verif Verif.Hpec Verif.Sig Finset

/-! ### Detection -/

/-- **C77, partial (sums and counts).** For every gate the loops reach it once, in order, read inside of the data only, and have the sum of the cells in its window;
`gates_used` is the number of these cells for gates that have a full window on both sides, and for those within the guard distance of an end.  Missing: the count for
gates with part of a window on one side, see `C77_counts_false`. -/
theorem C77_sums_partial {T : Type} [AddCommGroup T] (p : Vec T) (g c : ℕ) (h : 2 * (c + g) < p.n) :
    ∃ u : ℕ → ℕ, trace p g c = some ((List.range p.n).map fun k => (k, u k, ∑ i ∈ window g c p.n k, p.f i)) ∧
      ∀ k < p.n, (k ≤ g ∨ (g + c < k ∧ k + g + c < p.n) ∨ p.n ≤ k + g) → u k = (window g c p.n k).card := by
  refine ⟨used g c p.n, trace_eq p g c h, fun k hk hc => ?_⟩
  rw [window_card g c p.n k hk]
  unfold used
  split_ifs <;> omega

/-- Nine gates, two cells on each side, one guard cell. -/
example : 2 * (2 + 1) < (⟨9, fun k => (k : ℚ)⟩ : Vec ℚ).n := by decide

/-- **C77 is false (counts).** Wherever the window is cut on the left, `gates_used` is one less than the number of cells summed; where it is cut on the right, one more. -/
theorem C77_counts_false {T : Type} [AddCommGroup T] (p : Vec T) (g c : ℕ) (h : 2 * (c + g) < p.n) :
    ∃ u : ℕ → ℕ, trace p g c = some ((List.range p.n).map fun k => (k, u k, ∑ i ∈ window g c p.n k, p.f i)) ∧
      (∀ k, g < k → k ≤ g + c → u k + 1 = (window g c p.n k).card) ∧
      ∀ k, p.n ≤ k + g + c → k + g < p.n → u k = (window g c p.n k).card + 1 := by
  refine ⟨used g c p.n, trace_eq p g c h, fun k h1 h2 => ?_, fun k h1 h2 => ?_⟩
  · rw [window_card g c p.n k (by omega)]
    unfold used
    split_ifs <;> omega
  · rw [window_card g c p.n k (by omega)]
    unfold used
    split_ifs <;> omega

/-- A cube with one beam and one bin. -/
def hpCube (x : List ℚ) : Cube := ⟨1, 1, x.length, fun _ _ k => x.getD k 0⟩

/-- **C77 is false (targets).** Three gates, one cell on each side: 12, between cells of 1, is 144 times the mean of the squares and not found; 8 after a 1 is 64 times
the square before it and is reported, with the threshold 100. -/
theorem C77_targets_false :
    (detectVector (1 / 1000) 100 0 1 30 (hpCube [1, 12, 1])).map (· 1) = some [] ∧ Exceeds (1 / 1000) 100 0 1 3 (fun k => if k = 1 then 144 else 1) 1 ∧
    (detectVector (1 / 1000) 100 0 1 30 (hpCube [1, 1, 8])).map (· 2) = some [(0, 0)] ∧ ¬ Exceeds (1 / 1000) 100 0 1 3 (fun k => if k = 2 then 64 else 1) 2 := by
  refine ⟨by decide +kernel, by decide +kernel, by decide +kernel, by decide +kernel⟩

section
variable (eps mu : ℚ) (g c cap : ℕ) (q : Cube)

/-- the comparison for a cell of the cube -/
def hpHit (i j k : ℕ) : Bool :=
  hit eps mu (q.x i j k * q.x i j k) (used g c q.gates k) (∑ l ∈ window g c q.gates k, q.x i j l * q.x i j l)

theorem hp_vector (h : 2 * (c + g) < q.gates) :
    detectVector eps mu g c cap q = ((List.range q.beams).flatMap fun i => (List.range q.dbins).flatMap fun j =>
      ((List.range q.gates).filter (hpHit eps mu g c q i j)).map fun k => (k, i, j)).foldlM (put cap) fun _ => [] := by
  have e : ∀ i j (st : Loc), ((trace (⟨q.gates, fun k => q.x i j k * q.x i j k⟩ : Vec ℚ) g c).bind fun tr =>
      tr.foldlM (fun st t => if hit eps mu (q.x i j t.1 * q.x i j t.1) t.2.1 t.2.2 then put cap st (t.1, i, j) else some st) st) =
      (((List.range q.gates).filter (hpHit eps mu g c q i j)).map fun k => (k, i, j)).foldlM (put cap) st := by
    intro i j st
    rw [trace_eq _ g c h]
    show (tr _ g c q.gates).foldlM _ st = _
    rw [tr, List.foldlM_map, ← foldlM_if]
    rfl
  unfold detectVector loop
  simp only [e, foldlM_flat]

theorem hp_at_vector (k : ℕ) :
    at_ k ((List.range q.beams).flatMap fun i => (List.range q.dbins).flatMap fun j =>
      ((List.range q.gates).filter (hpHit eps mu g c q i j)).map fun k => (k, i, j)) =
    if k < q.gates then cells q.beams q.dbins (fun i j => hpHit eps mu g c q i j k) else [] := by
  rw [at_flat]
  simp only [at_flat, at_row]
  by_cases hk : k < q.gates
  · simp only [hk, true_and, if_true, cells, flat_if]
  · simp [hk]

theorem hp_hybrid (h : 2 * (c + g) < q.gates) (m : ℕ) (hm : q.dbins = 4 * m) :
    detectHybrid eps mu g c cap q = ((List.range q.beams).flatMap fun i => (List.range m).flatMap fun t => (List.range q.gates).flatMap fun k =>
      ((List.finRange 4).filter fun a : Fin 4 => hpHit eps mu g c q i (4 * t + a) k).map fun a : Fin 4 => (k, i, 4 * t + (a : ℕ))).foldlM (put cap) fun _ => [] := by
  have e : ∀ i t (st : Loc), ((trace (⟨q.gates, fun k a => q.x i (4 * t + a) k * q.x i (4 * t + a) k⟩ : Vec (Fin 4 → ℚ)) g c).bind fun tr =>
        tr.foldlM (fun st r => (List.finRange 4).foldlM (fun st (a : Fin 4) =>
          if hit eps mu (q.x i (4 * t + a) r.1 * q.x i (4 * t + a) r.1) r.2.1 (r.2.2 a) then put cap st (r.1, i, 4 * t + a) else some st) st) st) =
      ((List.range q.gates).flatMap fun k => ((List.finRange 4).filter fun a : Fin 4 => hpHit eps mu g c q i (4 * t + a) k).map
        fun a : Fin 4 => (k, i, 4 * t + (a : ℕ))).foldlM (put cap) st := by
    intro i t st
    rw [trace_eq _ g c h, ← foldlM_flat]
    show (tr _ g c q.gates).foldlM _ st = _
    rw [tr, List.foldlM_map]
    congr 1
    funext st k
    rw [← foldlM_if]
    simp only [hpHit, Finset.sum_apply]
    rfl
  have e' : ∀ i (st : Loc), (loop ((q.dbins + 3) / 4) st fun st t =>
      if 4 * t + 3 < q.dbins ∨ q.gates = 0 then
        (trace (⟨q.gates, fun k a => q.x i (4 * t + a) k * q.x i (4 * t + a) k⟩ : Vec (Fin 4 → ℚ)) g c).bind fun tr =>
          tr.foldlM (fun st r => (List.finRange 4).foldlM (fun st (a : Fin 4) =>
            if hit eps mu (q.x i (4 * t + a) r.1 * q.x i (4 * t + a) r.1) r.2.1 (r.2.2 a) then put cap st (r.1, i, 4 * t + a) else some st) st) st
      else none) = ((List.range m).flatMap fun t => (List.range q.gates).flatMap fun k => ((List.finRange 4).filter fun a : Fin 4 => hpHit eps mu g c q i (4 * t + a) k).map
        fun a : Fin 4 => (k, i, 4 * t + (a : ℕ))).foldlM (put cap) st := by
    intro i st
    rw [← foldlM_flat, hm, show (4 * m + 3) / 4 = m by omega]
    unfold loop
    refine foldlM_congr _ _ _ ?_ st
    intro st t ht
    have := List.mem_range.1 ht
    rw [if_pos (.inl (by omega)), e]
  unfold detectHybrid
  simp only [e']
  unfold loop
  rw [foldlM_flat]

theorem hp_at_hybrid (m : ℕ) (hm : q.dbins = 4 * m) (k : ℕ) :
    at_ k ((List.range q.beams).flatMap fun i => (List.range m).flatMap fun t => (List.range q.gates).flatMap fun k =>
      ((List.finRange 4).filter fun a : Fin 4 => hpHit eps mu g c q i (4 * t + a) k).map fun a : Fin 4 => (k, i, 4 * t + (a : ℕ))) =
    if k < q.gates then cells q.beams q.dbins (fun i j => hpHit eps mu g c q i j k) else [] := by
  rw [at_flat]
  have e : ∀ i t, at_ k ((List.range q.gates).flatMap fun k =>
      ((List.finRange 4).filter fun a : Fin 4 => hpHit eps mu g c q i (4 * t + a) k).map fun a : Fin 4 => (k, i, 4 * t + (a : ℕ))) =
      if k < q.gates then ((List.finRange 4).filter fun a : Fin 4 => hpHit eps mu g c q i (4 * t + a) k).map (fun a : Fin 4 => (i, 4 * t + (a : ℕ))) else [] :=
    fun i t => at_row4 q.gates k (fun k a => hpHit eps mu g c q i (4 * t + a) k) (fun a => (i, 4 * t + (a : ℕ)))
  simp only [at_flat, e]
  by_cases hk : k < q.gates
  · simp only [hk, if_true, cells, hm]
    congr 1
    funext i
    exact (range_four m (fun j => hpHit eps mu g c q i j k) i).symm
  · simp [hk]

theorem hp_slice (h : 2 * (c + g) < q.gates) :
    detectSlice eps mu g c cap q = some ((List.range q.gates).map fun k =>
      ((cells q.beams q.dbins fun i j => hpHit eps mu g c q i j k).length, (cells q.beams q.dbins fun i j => hpHit eps mu g c q i j k).take cap)) := by
  unfold detectSlice
  rw [trace_eq _ g c h]
  simp only [Option.map_some, tr, List.map_map]
  congr 2
  funext k
  have e : (List.range q.beams).flatMap (fun i => (List.range q.dbins).flatMap fun j =>
      if hit eps mu (q.x i j k * q.x i j k) (used g c q.gates k) ((∑ l ∈ window g c q.gates k, fun i j => q.x i j l * q.x i j l) i j) then [(i, j)] else []) =
      cells q.beams q.dbins fun i j => hpHit eps mu g c q i j k := by
    unfold cells
    congr 1
    funext i
    rw [← flat_if]
    congr 1
    funext j
    simp only [hpHit, Finset.sum_apply]
    rfl
  simp only [Function.comp, e]

/-- **C77, partial (the three versions).** There is a list of places for every gate such that: `ImplSlice` counts all of them and stores as many as there is room for;
`ImplVector`, and `ImplHybrid` if the number of doppler bins is a multiple of four, store all if there is room for all, and write outside of the rows of `located` if not;
and for gates without a cut window the places are the cells that exceed the threshold, in order.  Missing: cut windows, see `C77_targets_false`; other numbers of bins, see
`C77_bins_false`; room, see `C77_room_false`. -/
theorem C77_detect_partial (h : 2 * (c + g) < q.gates) :
    ∃ D : ℕ → List (ℕ × ℕ),
      detectSlice eps mu g c cap q = some ((List.range q.gates).map fun k => ((D k).length, (D k).take cap)) ∧
      ((∀ k < q.gates, (D k).length ≤ cap) → detectVector eps mu g c cap q = some (fun k => if k < q.gates then D k else []) ∧
        (4 ∣ q.dbins → detectHybrid eps mu g c cap q = some (fun k => if k < q.gates then D k else []))) ∧
      ((∃ k < q.gates, cap < (D k).length) → detectVector eps mu g c cap q = none ∧ (4 ∣ q.dbins → detectHybrid eps mu g c cap q = none)) ∧
      ∀ k < q.gates, (k ≤ g ∨ (g + c < k ∧ k + g + c < q.gates) ∨ q.gates ≤ k + g) →
        D k = cells q.beams q.dbins fun i j => decide (Exceeds eps mu g c q.gates (fun l => q.x i j l * q.x i j l) k) := by
  have len : (∀ k < q.gates, (cells q.beams q.dbins fun i j => hpHit eps mu g c q i j k).length ≤ cap) → ∀ k,
      ([] ++ if k < q.gates then cells q.beams q.dbins (fun i j => hpHit eps mu g c q i j k) else []).length ≤ cap := by
    intro hl k
    split_ifs with hk
    · simpa using hl k hk
    · simp
  have big : (∃ k < q.gates, cap < (cells q.beams q.dbins fun i j => hpHit eps mu g c q i j k).length) → ∃ k,
      cap < ([] ++ if k < q.gates then cells q.beams q.dbins (fun i j => hpHit eps mu g c q i j k) else []).length := by
    rintro ⟨k, hk, hl⟩
    exact ⟨k, by rw [if_pos hk]; simpa using hl⟩
  refine ⟨fun k => cells q.beams q.dbins fun i j => hpHit eps mu g c q i j k, hp_slice eps mu g c cap q h, fun hl => ⟨?_, ?_⟩, fun hl => ⟨?_, ?_⟩, fun k hk hc => ?_⟩
  · rw [hp_vector eps mu g c cap q h, puts_some cap _ _ (fun k => by rw [hp_at_vector]; exact len hl k)]
    congr 1
    funext k
    rw [hp_at_vector]; rfl
  · rintro ⟨m, hm⟩
    rw [hp_hybrid eps mu g c cap q h m hm, puts_some cap _ _ (fun k => by rw [hp_at_hybrid eps mu g c q m hm]; exact len hl k)]
    congr 1
    funext k
    rw [hp_at_hybrid eps mu g c q m hm]; rfl
  · rw [hp_vector eps mu g c cap q h, puts_none cap _ _ (fun k => by simp)]
    obtain ⟨k, hk⟩ := big hl
    exact ⟨k, by rw [hp_at_vector]; exact hk⟩
  · rintro ⟨m, hm⟩
    rw [hp_hybrid eps mu g c cap q h m hm, puts_none cap _ _ (fun k => by simp)]
    obtain ⟨k, hk⟩ := big hl
    exact ⟨k, by rw [hp_at_hybrid eps mu g c q m hm]; exact hk⟩
  · have e : used g c q.gates k = (window g c q.gates k).card := by
      rw [window_card g c q.gates k hk]
      unfold used
      split_ifs <;> omega
    simp only [hpHit, hit, e, Exceeds, div_eq_mul_inv, one_mul]

/-- **C77 is false (doppler bins).** If their number is not a multiple of four, `ImplHybrid` reads outside of the cube, whatever it contains. -/
theorem C77_bins_false (hb : 0 < q.beams) (hg : 0 < q.gates) (hd : ¬ 4 ∣ q.dbins) : detectHybrid eps mu g c cap q = none := by
  refine loop_none _ _ _ 0 hb fun st => loop_none _ _ _ (q.dbins / 4) (by omega) fun st => ?_
  exact if_neg (by omega)
end

/-- Two beams, six bins. -/
example : 0 < (⟨2, 6, 9, fun _ _ _ => 1⟩ : Cube).beams ∧ ¬ 4 ∣ (⟨2, 6, 9, fun _ _ _ => 1⟩ : Cube).dbins := by decide

/-- Eight bins, in each of them a strong first gate: `ImplVector` and `ImplHybrid` find all. -/
example : (detectVector (1 / 1000) 100 0 1 30 ⟨1, 8, 3, fun _ _ k => if k = 0 then 20 else 1⟩).map (fun l => (l 0).length) = some 8 ∧
    (detectHybrid (1 / 1000) 100 0 1 30 ⟨1, 8, 3, fun _ _ k => if k = 0 then 20 else 1⟩).map (fun l => (l 0).length) = some 8 := by
  constructor <;> decide +kernel

/-- **C77 is false (room).** `located` has 30 columns: with 32 bins, in each of them a strong first gate, `ImplVector` writes outside of it; `ImplSlice` counts 32, and
the check of the results that follows reads as many. -/
theorem C77_room_false :
    detectVector (1 / 1000) 100 0 1 30 ⟨1, 32, 3, fun _ _ k => if k = 0 then 20 else 1⟩ = none ∧
    (detectSlice (1 / 1000) 100 0 1 30 ⟨1, 32, 3, fun _ _ k => if k = 0 then 20 else 1⟩).map (fun l => l.map fun r => (r.1, r.2.length)) =
      some [(32, 30), (0, 0), (0, 0)] := by
  have hs : (detectSlice (1 / 1000) 100 0 1 30 ⟨1, 32, 3, fun _ _ k => if k = 0 then 20 else 1⟩).map (fun l => l.map fun r => (r.1, r.2.length)) =
      some [(32, 30), (0, 0), (0, 0)] := by decide +kernel
  refine ⟨?_, hs⟩
  obtain ⟨D, e, -, hn, -⟩ := C77_detect_partial (1 / 1000) 100 0 1 30 ⟨1, 32, 3, fun _ _ k => if k = 0 then 20 else 1⟩ (by decide)
  refine (hn ⟨0, by decide, ?_⟩).1
  rw [e] at hs
  simp only [Option.map_some, List.map_map, Option.some.injEq] at hs
  have := congrArg (fun l => l.head?) hs
  simp [List.range_succ] at this
  omega

/-! ### Filter banks -/

/-- **C77, partial (filter bank by one expression).** Row `i` of the result is the circular convolution of row `i` of the inputs with filter `i`; from the `K - 1`st value
on it is the output of the filter, before it contains the last values of the input too.  Missing: the first values, see `C77_wrap_false`. -/
theorem C77_bank_partial (M N K : ℕ) (hK : K ≤ N) (filters inputs outputs : ℕ → ℕ → ℂ) :
    ∃ o, bankExpr M N K filters inputs outputs = some o ∧ (∀ i < M, ∀ n < N, K ≤ n + 1 → o i n = fir K (filters i) (inputs i) n) ∧
      (∀ i < M, ∀ n < N, o i n = fir K (filters i) (inputs i) n + ∑ k ∈ range K, if n < k then filters i k * inputs i (n + N - k) else 0) ∧
      ∀ i, M ≤ i → o i = outputs i := by
  have key : ∀ i n, n < N → circ N (fun k => if k < K then filters i k else 0) (inputs i) n =
      fir K (filters i) (inputs i) n + ∑ k ∈ range K, if n < k then filters i k * inputs i (n + N - k) else 0 := by
    intro i n hn
    rw [circ_fir N K _ _ n hK hn (fun k h _ => if_neg (by omega))]
    unfold fir
    congr 1 <;> exact Finset.sum_congr rfl fun k hk => by simp only [if_pos (mem_range.1 hk)]
  have val : ∀ i < M, ∀ n < N, rows M (fun i _ => inv N fun w =>
      rows M (fun _ r => fwd N r) (fun i k => if k < K then filters i k else 0) i w * fwd N (inputs i) w) outputs i n =
      fir K (filters i) (inputs i) n + ∑ k ∈ range K, if n < k then filters i k * inputs i (n + N - k) else 0 := by
    intro i hi n hn
    rw [rows_eq, if_pos hi]
    simp only [rows_eq, if_pos hi]
    rw [inv_fwd N _ _ n hn, key i n hn]
  refine ⟨_, by unfold bankExpr padded; rw [if_pos hK]; rfl, fun i hi n hn hn' => ?_, val, fun i hi => ?_⟩
  · rw [val i hi n hn, Finset.sum_eq_zero (fun k hk => if_neg (by have := mem_range.1 hk; omega)), add_zero]
  · rw [rows_eq, if_neg (by omega)]

/-- **C77, partial (filter bank row by row).** The same for `ImplFast` if all filters are equal.  Missing: different filters, see `C77_bank_false`. -/
theorem C77_bankFast_partial (M N K : ℕ) (hK : K ≤ N) (filters inputs outputs : ℕ → ℕ → ℂ) (heq : ∀ i < M, filters i = filters 0) :
    bankFast M N K filters inputs outputs = bankExpr M N K filters inputs outputs := by
  unfold bankFast bankExpr padded
  rw [if_pos hK]
  simp only [Option.map_some, Option.some.injEq]
  funext i
  simp only [rows_eq]
  by_cases hi : i < M
  · simp only [if_pos hi, if_pos (show 0 < M by omega), heq i hi]
    congr 1
    funext w
    rw [mul_comm]
  · simp only [if_neg hi]

/-- Two equal filters; two coefficients on four points. -/
example : 2 ≤ 4 ∧ ∀ i < 2, (fun _ k => if k = 0 then 1 else 2 : ℕ → ℕ → ℂ) i = (fun _ k => if k = 0 then 1 else 2 : ℕ → ℕ → ℂ) 0 := ⟨by omega, fun _ _ => rfl⟩

/-- **C77 is false (filter bank).** `ImplFast` uses the first filter for all rows: with the filters 1 and 2 of one coefficient, the second row of the result is that of the
filter 1. -/
theorem C77_bank_false (N : ℕ) (hN : 0 < N) (inputs outputs : ℕ → ℕ → ℂ) :
    ∃ o, bankFast 2 N 1 (fun i _ => (i : ℂ) + 1) inputs outputs = some o ∧
      ∀ n < N, o 1 n = inputs 1 n ∧ fir 1 (fun _ => ((1 : ℕ) : ℂ) + 1) (inputs 1) n = 2 * inputs 1 n := by
  refine ⟨_, by unfold bankFast padded; rw [if_pos (show 1 ≤ N by omega)]; rfl, fun n hn => ⟨?_, ?_⟩⟩
  · dsimp only
    rw [rows_eq, if_pos (by omega)]
    simp only [rows_eq, if_pos (show 0 < 2 by omega)]
    have : (fun w => fwd N (inputs 1) w * fwd N (fun k => if k < 1 then ((0 : ℕ) : ℂ) + 1 else 0) w) =
        fun w => fwd N (fun k => if k < 1 then ((0 : ℕ) : ℂ) + 1 else 0) w * fwd N (inputs 1) w := by funext w; ring
    rw [this, inv_fwd N _ _ n hn, circ_fir N 1 _ _ n (by omega) hn (fun k h _ => if_neg (by omega))]
    simp [fir]
  · simp [fir]
    norm_num

/-- **C77 is false (first values).** With the filter 1, 1 on three points 1, 2, 3 the first value is 4, though the output of the filter is 1. -/
theorem C77_wrap_false (outputs : ℕ → ℕ → ℂ) :
    ∃ o, bankExpr 1 3 2 (fun _ _ => 1) (fun _ n => (n : ℂ) + 1) outputs = some o ∧ o 0 0 = 4 ∧ fir 2 (fun _ => 1) (fun n => (n : ℂ) + 1) 0 = 1 := by
  obtain ⟨o, e, -, h, -⟩ := C77_bank_partial 1 3 2 (by omega) (fun _ _ => 1) (fun _ n => (n : ℂ) + 1) outputs
  refine ⟨o, e, ?_, ?_⟩
  · rw [h 0 (by omega) 0 (by omega)]
    simp [fir, Finset.sum_range_succ]
    norm_num
  · simp [fir, Finset.sum_range_succ]

/-- **C77 is false (more coefficients than points).** The filters are copied to columns that do not exist. -/
theorem C77_coefficients_false (M N K : ℕ) (hK : N < K) (filters inputs outputs : ℕ → ℕ → ℂ) :
    bankFast M N K filters inputs outputs = none ∧ bankExpr M N K filters inputs outputs = none := by
  unfold bankFast bankExpr padded
  rw [if_neg (by omega)]
  exact ⟨rfl, rfl⟩

/-! ### Fast convolution -/

/-- **C77, fast convolution.** With the transform of `r` as replica, all versions make every row its circular convolution with `r`. -/
theorem C77_fastconv (M N : ℕ) (r : ℕ → ℂ) (data tmp : ℕ → ℕ → ℂ) (p : ℕ) (hp : p < M) (n : ℕ) (hn : n < N) :
    conv1op M N (fwd N r) data tmp p n = circ N r (data p) n ∧ conv1ip M N (fwd N r) data p n = circ N r (data p) n ∧
      conv2 M N (fwd N r) data p n = circ N r (data p) n ∧ ∀ R : ℕ → ℕ → ℂ, conv4mc M N (fun p => fwd N (R p)) data p n = circ N (R p) (data p) n := by
  refine ⟨?_, ?_, ?_, fun R => ?_⟩
  · simp only [conv1op, rows_eq, if_pos hp]
    exact inv_fwd N r (data p) n hn
  · simp only [conv1ip, rows_eq, if_pos hp]
    exact inv_fwd N r (data p) n hn
  · simp only [conv2, rows_eq, if_pos hp]
    rw [← inv_fwd N r (data p) n hn]
    congr 1
    funext w
    ring
  · simp only [conv4mc, rows_eq, if_pos hp]
    exact inv_fwd N (R p) (data p) n hn

/-- **C77, the check of fast convolution.** The transform of the unit pulse as replica leaves the data as they are (the check at l.436-450, 532-545, 814-821). -/
theorem C77_pulse (M N : ℕ) (data : ℕ → ℕ → ℂ) (p : ℕ) (hp : p < M) (n : ℕ) (hn : n < N) :
    conv2 M N (fwd N fun k => if k = 0 then 1 else 0) data p n = data p n := by
  rw [(C77_fastconv M N _ data data p hp n hn).2.2.1, circ_fir N 1 _ _ n (by omega) hn (fun k h _ => if_neg (by omega))]
  simp [fir]

/-- **C77 is false (replica).** The timed loops run with a replica of zeros that is not transformed (l.92-97): the data become zero. -/
theorem C77_replica_false (M N : ℕ) (data : ℕ → ℕ → ℂ) (p : ℕ) (hp : p < M) (n : ℕ) : conv2 M N (fun _ => 0) data p n = 0 := by
  simp only [conv2, rows_eq, if_pos hp, inv, Dft.dft1, mul_zero, zero_mul, Finset.sum_const_zero]

end Verif.Props
