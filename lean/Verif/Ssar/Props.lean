import Verif.Ssar.Ref

/-!
# C71: the radar benchmark

Digital spotlighting, interpolation, image; the two variants of the code; the comparison of images.
-/

namespace Verif.Props

open Finset Verif.Ssar Verif.Dft

/-! ## Digital spotlighting -/

/-- **C71, partial (spotlighting).** The matched, spotlighted spectrum computed row by row, with swapped halves and two merged shifts, is that of the centred
transforms, for even sizes, whatever the buffers held before.  Missing: odd sizes, see `C71_odd_false`. -/
theorem C71_spotlight_partial {p : Data} (he : Ssar.Even p) (raw : ℕ → ℕ → ℂ) (buf : ℕ → ℂ) (fsm : ℕ → ℕ → ℂ) {a b : ℕ} (ha : a < p.n) (hb : b < p.m) :
    spotlight p raw buf fsm a b = matched p raw a b := spotlight_eq he raw buf fsm ha hb

/-- The sizes of the data set that comes with the benchmark. -/
noncomputable def ssarData : Data := ⟨1072, 480, 1144, fun i => i, fun i => i, fun i => i, fun _ => 1, 1000, fun _ _ => 1⟩

example : Ssar.Even ssarData := ⟨rfl, rfl, rfl, by decide⟩

/-- Sizes 2, 1, 2, and no phases. -/
noncomputable def ssarOdd : Data := ⟨2, 1, 2, fun _ => 0, fun _ => 0, fun _ => 0, fun _ => 1, 1, fun _ _ => 1⟩

theorem ssarOdd_row (raw : ℕ → ℕ → ℂ) (i : ℕ) (old : ℕ → ℂ) : spotRow ssarOdd raw i old 1 = old 1 := by
  have u : ∀ (neg : Bool) (w : ℕ), unit neg 2 1 w = sgn w := fun neg w => unit_half neg (N := 2) (by decide) (by decide) w
  have u0 : ∀ (neg : Bool) (w : ℕ), unit neg 2 0 w = 1 := fun neg w => by rw [unit_pow]; simp
  simp only [spotRow, ssarOdd, dft1, sum_range_succ, range_zero, sum_empty, u, u0, pad, assign, decomprFilt, sgn]
  norm_num
  ring

theorem ssarOdd_fsm (raw : ℕ → ℕ → ℂ) (buf : ℕ → ℂ) (fsm : ℕ → ℕ → ℂ) : spotlight ssarOdd raw buf fsm 0 0 = buf 1 := by
  have e : (List.range ssarOdd.n).foldl (spotStep ssarOdd raw) (buf, fsm) = spotStep ssarOdd raw (spotStep ssarOdd raw (buf, fsm) 0) 1 := rfl
  rw [spotlight, e]
  have h1 : ∀ s, (spotStep ssarOdd raw s 1).2 0 0 = spotRow ssarOdd raw 1 s.1 1 := by
    intro s
    have hx : xr ssarOdd 1 = 0 := rfl
    have hm : ssarOdd.m / 2 = 1 := rfl
    simp only [spotStep, fsmRow, hx, hm]
    rw [if_pos trivial]
    simp only [assign]
    rw [if_neg (show ¬ (1 ≤ 0 ∧ 0 < 1 + 1) by omega), if_pos (show 0 ≤ 0 ∧ 0 < 0 + 1 by omega)]
    exact mul_one _
  rw [h1, ssarOdd_row, spotStep]
  exact ssarOdd_row raw 0 buf

/-- **C71 is false (odd sizes).** With an odd number of pulses, the zero padding writes one element less than the row has, and leaves the last one as it was: here
the result is what the buffer held, whatever the echo. -/
theorem C71_odd_false :
    ¬ ∀ (p : Data) (raw : ℕ → ℕ → ℂ) (buf buf' : ℕ → ℂ) (fsm : ℕ → ℕ → ℂ), 0 < p.mc → p.mc ≤ p.m → p.n % 2 = 0 → p.m % 2 = 0 → ∀ a < p.n, ∀ b < p.m,
      spotlight p raw buf fsm a b = spotlight p raw buf' fsm a b := by
  intro h
  have := h ssarOdd (fun _ _ => 0) (fun _ => 0) (fun _ => 1) (fun _ _ => 0) (by decide) (by decide) (by decide) (by decide) 0 (by decide) 0 (by decide)
  rw [ssarOdd_fsm, ssarOdd_fsm] at this
  exact zero_ne_one this

/-- C71, wavenumbers: along the range, the wavenumber is not negative; with that across, it makes up twice the wavenumber of the pulse, and it is zero where there is none. -/
theorem C71_wavenumber (k ku : ℕ → ℝ) (i j : ℕ) :
    0 ≤ wavenumber k ku i j ∧ (|ku j| ≤ 2 * |k i| → wavenumber k ku i j ^ 2 + ku j ^ 2 = (2 * k i) ^ 2) ∧
    (2 * |k i| ≤ |ku j| → wavenumber k ku i j = 0) := by
  have e : ∀ a b : ℝ, |b| ≤ 2 * |a| → b ^ 2 ≤ 4 * a ^ 2 := by
    intro a b h
    have h1 := mul_self_le_mul_self (abs_nonneg b) h
    have h2 := abs_mul_abs_self b
    have h3 := abs_mul_abs_self a
    nlinarith
  have e' : ∀ a b : ℝ, 2 * |a| ≤ |b| → 4 * a ^ 2 ≤ b ^ 2 := by
    intro a b h
    have h1 := mul_self_le_mul_self (by have := abs_nonneg a; linarith) h
    have h2 := abs_mul_abs_self b
    have h3 := abs_mul_abs_self a
    nlinarith
  refine ⟨Real.sqrt_nonneg _, fun h => ?_, fun h => ?_⟩
  · have := e _ _ h
    rw [wavenumber, Real.sq_sqrt (le_max_left _ _), max_eq_right (by linarith)]
    ring
  · have := e' _ _ h
    rw [wavenumber, max_eq_left (by linarith), Real.sqrt_zero]

example : wavenumber (fun _ => 5 / 2) (fun _ => 3) 0 0 ^ 2 + 3 ^ 2 = 25 := by
  have := (C71_wavenumber (fun _ => 5 / 2) (fun _ => 3) 0 0).2.1 (by norm_num [abs_of_pos])
  norm_num at this ⊢
  linarith

/-! ## The grid -/

/-- **C71 (grid).** The set-up makes a grid of an even number of lines, at least 20, that reaches from 10 spacings below the least wavenumber to at least 9 above
the greatest. -/
theorem C71_grid {n m : ℕ} {kx : ℕ → ℕ → ℝ} {X0 : ℝ} (hX : 0 < X0) (hn : 0 < n) (hm : 0 < m)
    (hs : maxval n m kx - minval n m kx ≤ 2 ^ 31 * (Real.pi / X0)) :
    ∃ g, mkGrid n m kx X0 = some g ∧ g.n = n ∧ g.m = m ∧ g.kx = kx ∧ g.dk = Real.pi / X0 ∧ g.nx % 2 = 0 ∧ 20 ≤ g.nx ∧
      (∀ i < n, ∀ j < m, line g 10 ≤ kx i j ∧ kx i j + 9 * g.dk ≤ line g (g.nx - 1)) ∧ Made g := by
  obtain ⟨g, e, h, h1, h2, h3, _, h5, _⟩ := mkGrid_made hX hn hm hs
  refine ⟨g, e, h1, h2, h3, h5, h.even, h.size, fun i hi j hj => ⟨?_, ?_⟩, h⟩
  · rw [line]; have := h.lo i (by omega) j (by omega); rw [← h3]; push_cast; linarith
  · have h6 := h.hi i (by omega) j (by omega)
    have hsz := h.size
    rw [line, ← h3]
    have e1 : ((g.nx - 1 : ℕ) : ℝ) = (g.nx : ℝ) - 1 := by rw [Nat.cast_sub (by omega)]; push_cast; ring
    have e2 : ((g.nx - 20 : ℕ) : ℝ) = (g.nx : ℝ) - 20 := by rw [Nat.cast_sub (by omega)]; push_cast; ring
    rw [e1]; rw [e2] at h6
    linarith

/-- Two wavenumbers 3 spacings apart: 24 lines. -/
example : maxval 1 2 (fun _ j => if j = 0 then 0 else 3 * Real.pi) - minval 1 2 (fun _ j => if j = 0 then 0 else 3 * Real.pi) ≤ 2 ^ 31 * (Real.pi / 1) := by
  have hp := Real.pi_pos
  have h1 : (3 * Real.pi > 0) := by linarith
  have h2 : ¬ (3 * Real.pi < 0) := by linarith
  simp [maxval, minval, h1, h2, List.range_succ]
  linarith

/-- **C71 (indices).** For every sample the interpolation finds the line nearest to its wavenumber, and the 17 lines around it are in the grid: none of the loops
leaves the arrays. -/
theorem C71_index {g : Grid} (h : Made g) {i j : ℕ} (hi : i < g.n) (hj : j < g.m) :
    ∃ c, icKX g i j = some c ∧ Near g (g.kx i j) (c + 8) ∧ (∀ d, Near g (g.kx i j) d → d = c + 8) ∧ ∀ t < 17, 0 < c + t ∧ c + t < g.nx := by
  obtain ⟨c, h1, h2, h3, h4⟩ := icKX_spec h hi hj
  exact ⟨c, h1, h4, fun d hd => near_unique h.pos hd h4, fun t ht => ⟨by omega, by omega⟩⟩

/-- A grid of 24 lines, and two samples. -/
noncomputable def ssarGrid (n m : ℕ) : Grid := ⟨n, m, 24, fun i _ => if i = 0 then 5 else 8, 5, 1⟩

theorem ssarGrid_made (n m : ℕ) : Made (ssarGrid n m) := by
  refine ⟨by norm_num [ssarGrid], by norm_num [ssarGrid], by norm_num [ssarGrid], by norm_num [ssarGrid], fun i _ j _ => ?_, fun i _ j _ => ?_⟩
  · simp only [ssarGrid]; by_cases h : i = 0
    · rw [if_pos h]
    · rw [if_neg h]; norm_num
  · simp only [ssarGrid]; by_cases h : i = 0
    · rw [if_pos h]; norm_num
    · rw [if_neg h]; norm_num

example : ∃ c, icKX (ssarGrid 2 2) 1 0 = some c ∧ Near (ssarGrid 2 2) 8 (c + 8) := by
  obtain ⟨c, h1, h2, _⟩ := C71_index (ssarGrid_made 2 2) (i := 1) (j := 0) (by decide) (by decide)
  exact ⟨c, h1, h2⟩

/-! ## The image -/

/-- **C71, partial (image).** The image is the magnitude of the centred inverse transform of the matched spectrum, interpolated to the grid; the shifts made by
changing signs, and the one left out, do not matter.  For even sizes; the buffers may hold anything.  Missing: odd sizes, see `C71_odd_false`; rounding. -/
theorem C71_image_partial {p : Data} {g : Grid} (he : Ssar.Even p) (hg : Made g) (hn : g.n = p.n) (hm : g.m = p.m) (raw : ℕ → ℕ → ℂ) (buf : ℕ → ℂ)
    (fsm : ℕ → ℕ → ℂ) (c : ℕ → ℕ → ℕ) (hc : ∀ i < g.n, ∀ j < g.m, Near g (g.kx i j) (c i j)) :
    ∃ img, process p g raw buf fsm = some img ∧ ∀ j < g.m, ∀ i < g.nx, img j i = picture g.nx g.m (spread g c (matched p raw)) j i := by
  obtain ⟨img, e, h⟩ := interpolation_spec hg (by rw [hm]; exact he.m) id (spotlight p raw buf fsm) c hc
  refine ⟨img, e, fun j hj i hi => ?_⟩
  rw [h j hj i hi]
  refine picture_congr (fun a _ b hb => ?_) j i
  exact spread_congr (fun _ _ => rfl) (fun i hi => spotlight_eq (a := i) (b := b) he raw buf fsm (by omega) (by omega)) a

/-- There is always such a `c`. -/
example : ∃ c : ℕ → ℕ → ℕ, ∀ i < 2, ∀ j < 2, Near (ssarGrid 2 2) ((ssarGrid 2 2).kx i j) (c i j) := by
  refine ⟨fun i _ => if i = 0 then 10 else 13, fun i _ j _ => ?_⟩
  simp only [Near, ssarGrid, line]
  by_cases h : i = 0
  · simp only [if_pos h]; norm_num
  · simp only [if_neg h]; norm_num

/-! ## The variant for graphics processors -/

/-- **C71, partial (variants).** The variant with whole matrices, which replaces every shift by changes of sign, gives the same image, for even sizes and as many
fast time samples as lines of output.  Missing: other sizes, see `C71_ref_false` and `C71_uninitialised_false`. -/
theorem C71_variants_partial {p : Data} {g : Grid} (he : Ssar.Even p) (hsq : p.n = p.m) (hpos : 0 < p.n) (hg : Made g) (hn : g.n = p.n) (hm : g.m = p.m)
    (raw out old : ℕ → ℕ → ℂ) (buf : ℕ → ℂ) (fsm : ℕ → ℕ → ℂ) :
    ∃ img img', process p g raw buf fsm = some img ∧ gProcess p g raw out old = some img' ∧ ∀ j < g.m, ∀ i < g.nx, img j i = img' j i := by
  obtain ⟨c, _, hc, _⟩ := rangeLoop_spec hg id (fun _ _ => 0)
  obtain ⟨img, e, h⟩ := C71_image_partial he hg hn hm raw buf fsm c hc
  obtain ⟨pre, e1, hpre⟩ := refPre_wide hpos (by omega) out
  obtain ⟨img', e2, h'⟩ := interpolation_spec hg (by rw [hm]; exact he.m) (fun i => (i + p.n / 2) % p.n) (gSpotlight p raw old pre) c hc
  refine ⟨img, img', e, by rw [gProcess, e1, Option.bind_some, e2], fun j hj i hi => ?_⟩
  rw [h j hj i hi, h' j hj i hi]
  refine (picture_smul (z := sgn (p.m / 2)) (norm_sgn _) (fun a _ b hb => ?_) j i).symm
  rw [← spread_smul]
  refine spread_congr (fun _ _ => rfl) (fun i hi => ?_) a
  have hi' : i < p.n := by omega
  have hb' : b < p.m := by omega
  rw [← sw_even he.n, gSpotlight, gSpot_eq he raw _ (sw_lt hpos i) hb', hpre _ (sw_lt hpos i) b hb', if_pos (by omega), sw_sw he.n hi', fdSign_eq hb', matched]
  have := sgn_sq b
  linear_combination (sgn (p.m / 2) * p.ref i b * cdft true p.m (decompr p raw i) b) * this

example : ∃ p : Data, Ssar.Even p ∧ p.n = p.m ∧ 0 < p.n ∧ p.mc < p.m :=
  ⟨⟨4, 2, 4, fun i => i, fun i => i, fun i => i, fun _ => 1, 1, fun _ _ => 1⟩, ⟨rfl, rfl, rfl, by decide⟩, rfl, by decide, by decide⟩

/-- **C71 is false (reference, tall).** With more fast time samples than lines of output, the constructor of both variants, which shifts the reference with
`freqswap<col>`, accesses columns outside the matrix. -/
theorem C71_ref_false : ∀ (p : Data) (out : ℕ → ℕ → ℂ), p.m < p.n → refPre p out = none := fun _ out h => refPre_tall h out

/-- **C71 is false (reference, wide).** With fewer fast time samples than lines of output, as in the data set that comes with the benchmark (1072 and 1144), the
columns of the shifted reference from 1072 on are never set, and the spectrum of the variant for graphics processors there is a multiple of what storage held. -/
theorem C71_uninitialised_false :
    ∀ (p : Data) (raw out old : ℕ → ℕ → ℂ), 0 < p.n → p.n < p.m → Ssar.Even p → ∃ pre, refPre p out = some pre ∧ ∀ i < p.n, ∀ j < p.m, p.n ≤ j →
      gSpotlight p raw old pre i j = out i j * (sgn (p.m / 2) * cdft true p.m (decompr p raw (sw p.n i)) j) := by
  intro p raw out old hn hlt he
  obtain ⟨pre, e, h⟩ := refPre_wide hn hlt.le out
  refine ⟨pre, e, fun i hi j hj hjn => ?_⟩
  rw [gSpotlight, h i hi j hj, if_neg (by omega), gSpot_eq he raw _ hi hj, fdSign_eq hj]
  have := sgn_sq j
  linear_combination (out i j * sgn (p.m / 2) * cdft true p.m (decompr p raw (sw p.n i)) j) * this

example : 0 < ssarData.n ∧ ssarData.n < ssarData.m := by decide

/-! ## Comparing images -/

theorem ssar_nextMax_fold (l : List ℝ) (v : ℝ) : ∃ w, (l.map some).foldl nextMax (some v) = some w ∧ (w = v ∨ w ∈ l) ∧ v ≤ w ∧ ∀ x ∈ l, x ≤ w := by
  induction l generalizing v with
  | nil => exact ⟨v, rfl, .inl rfl, le_rfl, by simp⟩
  | cons a l ih =>
    rw [List.map_cons, List.foldl_cons, nextMax]
    by_cases h : a > v
    · rw [if_pos h]
      obtain ⟨w, e, hm, hle, hx⟩ := ih a
      refine ⟨w, e, ?_, by linarith, ?_⟩
      · rcases hm with rfl | hm
        · exact .inr (by simp)
        · exact .inr (by simp [hm])
      · intro x hxm
        rcases List.mem_cons.mp hxm with rfl | h2
        · exact hle
        · exact hx x h2
    · rw [if_neg h]
      obtain ⟨w, e, hm, hle, hx⟩ := ih v
      refine ⟨w, e, ?_, hle, ?_⟩
      · rcases hm with rfl | hm
        · exact .inl rfl
        · exact .inr (by simp [hm])
      · intro x hxm
        rcases List.mem_cons.mp hxm with rfl | h2
        · linarith
        · exact hx x h2

/-- The error of one pixel, in decibels, given the squared magnitude of the difference. -/
noncomputable def ssarError (refmax d : ℝ) : ℝ := if d < 1e-20 then -201 else 10 * Real.logb 10 (d / (2 * refmax))

/-- **C71, partial (comparison).** The number printed by `diffview` is the greatest error of all pixels, if all pixels are numbers.  Missing: pixels that are not
numbers, see `C71_compare_false`. -/
theorem C71_compare_partial (refmax : ℝ) (d : List ℝ) (h : d ≠ []) :
    ∃ w, report refmax (d.map some) = some w ∧ (∃ x ∈ d, w = ssarError refmax x) ∧ ∀ x ∈ d, ssarError refmax x ≤ w := by
  have e : ∀ x, errorOf refmax (some x) = some (ssarError refmax x) := by
    intro x; rw [errorOf, ssarError]; by_cases h : x < 1e-20
    · rw [if_pos h, if_pos h]
    · rw [if_neg h, if_neg h]
  obtain ⟨a, l, rfl⟩ := List.exists_cons_of_ne_nil h
  have e2 : ((a :: l).map some).map (errorOf refmax) = some (ssarError refmax a) :: (l.map (ssarError refmax)).map some := by
    simp [e]
  obtain ⟨w, ew, hm, hle, hx⟩ := ssar_nextMax_fold (l.map (ssarError refmax)) (ssarError refmax a)
  refine ⟨w, ?_, ?_, ?_⟩
  · simp only [report]; rw [e2, maxError, ew]
  · rcases hm with rfl | hm
    · exact ⟨a, by simp, rfl⟩
    · obtain ⟨x, hx1, hx2⟩ := List.mem_map.mp hm
      exact ⟨x, by simp [hx1], hx2.symm⟩
  · intro x hxm
    rcases List.mem_cons.mp hxm with rfl | h2
    · exact hle
    · exact hx _ (List.mem_map.mpr ⟨x, h2, rfl⟩)

example : ([0, 1, 0.5] : List ℝ) ≠ [] := by simp

/-- **C71 is false (comparison).** If some pixel is not a number, `diffview` is to print 201.  That value is overwritten, and the maximum passes over pixels that
are not numbers: an image of which all pixels but the first are not numbers is reported as equal to the reference. -/
theorem C71_compare_false (refmax : ℝ) (n : ℕ) : report refmax (some 0 :: List.replicate n none) = some (-201) ∧ (0 < n → none ∈ some (0 : ℝ) :: List.replicate n none) := by
  refine ⟨?_, fun h => by simp; omega⟩
  simp only [report, List.map_cons, List.map_replicate]
  have e1 : errorOf refmax (some 0) = some (-201) := by rw [errorOf, if_pos (by norm_num)]
  have e2 : errorOf refmax none = none := rfl
  rw [e1, e2, maxError]
  induction n with
  | zero => rfl
  | succ n ih => rw [List.replicate_succ, List.foldl_cons]; exact ih

end Verif.Props
#print axioms Verif.Props.C71_wavenumber
