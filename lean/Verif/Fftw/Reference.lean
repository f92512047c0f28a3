import Verif.Fftw.Model

/-!
# The promises made about FFTW can be kept

An executor that computes every transform by its definition.  It shows that the structure `Lib`, on which all theorems about the FFTW back end
depend, is not contradictory.
-/

namespace Verif.Fftw
open Classical

variable {D : ℕ}

/-- Two spectra of real data that agree on the half that is stored agree. -/
theorem herm_half {n : Fin D → ℕ} {X Y : (Fin D → ℕ) → ℂ} (hn : ∀ d, 0 < n d) (hX : Herm n X) (hY : Herm n Y)
    (h : ∀ k, Box (iosize n) k → X k = Y k) (k : Fin D → ℕ) (hk : Box n k) : X k = Y k := by
  cases D with
  | zero => exact h k hk
  | succ D =>
    by_cases hl : k (Fin.last D) ≤ n (Fin.last D) / 2
    · refine h k fun d => ?_
      simp only [iosize]
      by_cases hd : d = Fin.last D
      · subst hd; rw [Function.update_self]; omega
      · rw [Function.update_of_ne hd]; exact hk d
    · have hb : Box (iosize n) (refl n k) := by
        intro d
        simp only [iosize, refl]
        by_cases hd : d = Fin.last D
        · subst hd
          rw [Function.update_self]
          have := hk (Fin.last D)
          exact lt_of_le_of_lt (Nat.mod_le _ _) (by omega)
        · rw [Function.update_of_ne hd]
          exact Nat.mod_lt _ (hn d)
      have e := h _ hb
      rw [hX k hk, hY k hk] at e
      exact star_injective e

/-- What a transform is to put at index `k` of its output. -/
noncomputable def refVal (p : Plan D) (m : ℤ → ℂ) (k : Fin D → ℕ) : ℂ := match p.kind with
  | .c2c sgn => dft p.size sgn (fun j => m (addr p.is j)) k
  | .r2c => dft p.size (-1) (fun j => ((m (addr p.is j)).re : ℂ)) k
  | .c2r => if h : ∃ X, Herm p.size X ∧ ∀ k, Box (iosize p.size) k → m (addr p.is k) = X k then dft p.size 1 h.choose k else 0

/-- The values put in their places. -/
noncomputable def refOut (p : Plan D) (m out : ℤ → ℂ) : ℤ → ℂ := fun a =>
  if h : ∃ k, Box p.outSize k ∧ addr p.os k = a then refVal p m h.choose else out a

theorem refOut_at {p : Plan D} (hp : p.Ok) (m out : ℤ → ℂ) {k : Fin D → ℕ} (hk : Box p.outSize k) : refOut p m out (addr p.os k) = refVal p m k := by
  have h : ∃ k', Box p.outSize k' ∧ addr p.os k' = addr p.os k := ⟨k, hk, rfl⟩
  unfold refOut
  rw [dif_pos h, hp.inj _ _ h.choose_spec.1 hk h.choose_spec.2]

theorem refOut_frame (p : Plan D) (m out : ℤ → ℂ) (a : ℤ) (h : ∀ k, Box p.outSize k → addr p.os k ≠ a) : refOut p m out a = out a := by
  unfold refOut
  rw [dif_neg]
  rintro ⟨k, h1, h2⟩
  exact h k h1 h2

/-- The reference executor. -/
noncomputable def reference (simd : ℤ) : Lib simd where
  exec p _ _ m out := (m, refOut p m out)
  execIp p _ m := refOut p m m
  c2c p sgn _ _ m out hk hp _ k hb := by
    dsimp only
    rw [refOut_at hp m out (by unfold Plan.outSize; rw [hk]; exact hb)]
    unfold refVal; rw [hk]
  ip p sgn _ m hk hp _ _ := by
    have ho : p.outSize = p.size := by unfold Plan.outSize; rw [hk]
    refine ⟨fun k hb => ?_, fun a ha => refOut_frame p m m a (by rw [ho]; exact ha)⟩
    rw [refOut_at hp m m (by rw [ho]; exact hb)]
    unfold refVal; rw [hk]
  r2c p _ _ m out hk hp _ k hb := by
    dsimp only
    rw [refOut_at hp m out hb]
    unfold refVal; rw [hk]
  c2r p _ _ m out X hk hp _ hX hx j hb := by
    dsimp only
    rw [refOut_at hp m out (by unfold Plan.outSize; rw [hk]; exact hb)]
    have h : ∃ X, Herm p.size X ∧ ∀ k, Box (iosize p.size) k → m (addr p.is k) = X k := ⟨X, hX, hx⟩
    unfold refVal; rw [hk]
    simp only [dif_pos h]
    unfold dft
    refine Finset.sum_congr rfl fun i hi => ?_
    have hi' : Box p.size i := fun d => Finset.mem_range.1 (Fintype.mem_piFinset.1 hi d)
    rw [herm_half (fun d => by have := hp.pos d; unfold Plan.size; omega) h.choose_spec.1 hX (fun k hk => by rw [← h.choose_spec.2 k hk, hx k hk]) i hi']
  frame p _ _ m out a h := refOut_frame p m out a h
  keep _ _ _ _ _ _ := rfl

end Verif.Fftw
