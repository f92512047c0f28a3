import Verif.Ssar.Spot
import Verif.Ssar.Interp

/-!
The shifted reference, the nearest line, both variants.
-/

namespace Verif.Ssar

open Finset Verif.Dft Verif.Props Verif.Sig

theorem sw_swapSrc (N i : ℕ) : sw N i = swapSrc N i := rfl

theorem refPre_wide {p : Data} (hn : 0 < p.n) (h : p.n ≤ p.m) (out : ℕ → ℕ → ℂ) :
    ∃ s, refPre p out = some s ∧ ∀ i < p.n, ∀ j < p.m, s i j = (if j < p.n then p.ref (sw p.n i) j else out i j) * fdSign p.m j := by
  obtain ⟨s1, e1, ok1, v1⟩ := loop_inv (σ := Mat ℂ) (fun k s => (s.rows = p.n ∧ s.cols = p.m) ∧
      ∀ r c, r < p.n → s.f r c = if c < k then p.ref (swapSrc p.n r) c else out r c) p.n ⟨p.n, p.m, out⟩
    (fun s c => if c < p.m then swapLine (fun _ i => (⟨p.n, p.m, p.ref⟩ : Mat ℂ).get i c) (fun s i t => s.put i c t) p.n s else none)
    ⟨⟨rfl, rfl⟩, by intro r c _; simp⟩ (by
      intro j s hj ⟨ok, hs⟩
      obtain ⟨s', e, ok', v', f'⟩ := swapLine_out (fun i => p.ref i j) (fun (_ : Mat ℂ) i => (⟨p.n, p.m, p.ref⟩ : Mat ℂ).get i j) (fun s i t => s.put i j t)
        p.n hn (fun s i => s.f i j) (fun s (q : { p : Nat × Nat // p.2 ≠ j }) => s.f q.1.1 q.1.2)
        (fun s => s.rows = p.n ∧ s.cols = p.m)
        (by intro s i hi; simp [Mat.get, hi]; omega) (fun s i t ok hi => col_put (by omega) s i t ok hi) s ok
      refine ⟨s', by rw [if_pos (by omega), e], ok', fun r c hr => ?_⟩
      by_cases hc' : c = j
      · rw [hc', v' r hr, if_pos (by omega)]
      · have := f' ⟨(r, c), hc'⟩
        simp only at this
        rw [this, hs r c hr]
        by_cases hlt : c < j
        · rw [if_pos hlt, if_pos (by omega)]
        · rw [if_neg hlt, if_neg (by omega)])
  refine ⟨fun i j => s1.f i j * fdSign p.m j, ?_, fun i hi j hj => ?_⟩
  · rw [refPre, freqswapAxis]
    simp only
    rw [e1]; rfl
  · dsimp only
    rw [v1 i j hi]; rfl

theorem loop_none {σ : Type} {n k : ℕ} (hk : k < n) (s : σ) (body : σ → ℕ → Option σ) (h : ∀ s, body s k = none) : loop n s body = none := by
  obtain ⟨m, rfl⟩ : ∃ m, n = k + 1 + m := ⟨n - (k + 1), by omega⟩
  rw [loop, List.range_add, List.foldlM_append, List.range_succ, List.foldlM_append]
  simp only [List.foldlM_cons, h]
  cases (List.range k).foldlM body s <;> rfl

theorem refPre_tall {p : Data} (h : p.m < p.n) (out : ℕ → ℕ → ℂ) : refPre p out = none := by
  rw [refPre, freqswapAxis]
  simp only
  rw [loop_none h _ _ (fun s => by simp)]; rfl

theorem near_unique {g : Grid} (h : 0 < g.dk) {x : ℝ} {c d : ℕ} (h1 : Near g x c) (h2 : Near g x d) : c = d := by
  have key : ∀ {c d : ℕ}, Near g x c → Near g x d → ¬ c < d := by
    intro c d h1 h2 hlt
    have h3 := h1.2
    have h4 := h2.1
    rw [line] at h3 h4
    have : (c : ℝ) + 1 ≤ d := by exact_mod_cast hlt
    have := mul_le_mul_of_nonneg_right this h.le
    linarith
  have a := key h1 h2
  have b := key h2 h1
  omega

theorem spread_congr {g : Grid} {c d : ℕ → ℕ → ℕ} {f f' : ℕ → ℕ → ℂ} {j : ℕ} (hc : ∀ i < g.n, c i j = d i j)
    (hf : ∀ i < g.n, f i j = f' i j) (r : ℕ) : spread g c f r j = spread g d f' r j := by
  rw [spread, spread]
  refine sum_congr rfl fun i hi => ?_
  rw [mem_range] at hi
  rw [hc i hi, hf i hi]

theorem spread_smul (g : Grid) (c : ℕ → ℕ → ℕ) (f : ℕ → ℕ → ℂ) (z : ℂ) (r j : ℕ) : spread g c (fun i j => z * f i j) r j = z * spread g c f r j := by
  rw [spread, spread, mul_sum]
  refine sum_congr rfl fun i _ => ?_
  by_cases h : c i j ≤ r + 8 ∧ r ≤ c i j + 8
  · rw [if_pos h, if_pos h]; ring
  · rw [if_neg h, if_neg h, mul_zero]

theorem picture_smul {nx m : ℕ} {F G : ℕ → ℕ → ℂ} {z : ℂ} (hz : ‖z‖ = 1) (h : ∀ a < nx, ∀ b < m, F a b = z * G a b) (j i : ℕ) :
    picture nx m F j i = picture nx m G j i := by
  rw [picture, picture]
  have : ∑ a ∈ range nx, ∑ b ∈ range m, F a b * (cunit false nx a i * cunit false m b j) =
      z * ∑ a ∈ range nx, ∑ b ∈ range m, G a b * (cunit false nx a i * cunit false m b j) := by
    rw [mul_sum]
    refine sum_congr rfl fun a ha => ?_
    rw [mul_sum]
    refine sum_congr rfl fun b hb => ?_
    rw [h a (mem_range.mp ha) b (mem_range.mp hb)]; ring
  rw [this, norm_mul, norm_mul, norm_mul, hz, one_mul]

theorem picture_congr {nx m : ℕ} {F G : ℕ → ℕ → ℂ} (h : ∀ a < nx, ∀ b < m, F a b = G a b) (j i : ℕ) : picture nx m F j i = picture nx m G j i :=
  picture_smul (z := 1) (by simp) (fun a ha b hb => by rw [h a ha b hb, one_mul]) j i

theorem interpolation_spec {g : Grid} (h : Made g) (hm : g.m % 2 = 0) (turn : ℕ → ℕ) (fsm : ℕ → ℕ → ℂ) (c : ℕ → ℕ → ℕ)
    (hc : ∀ i < g.n, ∀ j < g.m, Near g (g.kx i j) (c i j)) :
    ∃ img, interpolation g turn fsm = some img ∧ ∀ j < g.m, ∀ i < g.nx,
      img j i = picture g.nx g.m (spread g c (fun i j => fsm (turn i) j)) j i := by
  obtain ⟨d, F, hd, e, hF⟩ := rangeLoop_spec h turn fsm
  refine ⟨toImage g F, by rw [interpolation, e]; rfl, fun j hj i hi => ?_⟩
  refine toImage_spec h.even hm F _ (fun a ha b hb => ?_) hi hj
  rw [hF a ha b hb, spread_congr (fun i hi => near_unique h.pos (hd i hi b hb) (hc i hi b hb)) (fun _ _ => rfl)]

end Verif.Ssar
