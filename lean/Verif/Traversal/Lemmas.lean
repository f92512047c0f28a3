import Verif.Traversal.Model
import Mathlib.Tactic.Ring
import Mathlib.Tactic.Linarith
import Mathlib.Data.Fin.Basic
import Mathlib.Data.Fin.VecNotation
namespace Verif.Trav

/-- Generic traversal: if `next` is the successor function of a strict order `lt` on the valid
indices, the loop lists them in order, exactly once. -/
theorem loop_spec {I : Type} (valid : I → Bool) (next : I → I) (lt : I → I → Prop) (μ : I → Nat)
    (hμ : ∀ i, valid i = true → valid (next i) = true → μ (next i) < μ i)
    (hsucc : ∀ i j, valid i = true → valid j = true →
      (lt i j ↔ (valid (next i) = true ∧ (j = next i ∨ lt (next i) j)))) :
    ∀ n i, μ i ≤ n → valid i = true → ∃ L, loop valid next (n + 2) i = some L ∧
      L.Pairwise lt ∧ ∀ j, j ∈ L ↔ (valid j = true ∧ (j = i ∨ lt i j)) := by
  intro n
  induction n with
  | zero =>
    intro i hn hv
    have hnv : valid (next i) = false := by
      by_contra h
      have := hμ i hv (by simpa using h)
      omega
    refine ⟨[i], ?_, by simp, ?_⟩
    · simp [loop, hv, hnv]
    · intro j
      simp only [List.mem_singleton]
      constructor
      · rintro rfl; exact ⟨hv, Or.inl rfl⟩
      · rintro ⟨hj, h | h⟩
        · exact h
        · have := (hsucc i j hv hj).1 h
          simp [hnv] at this
  | succ n ih =>
    intro i hn hv
    by_cases hnv : valid (next i) = true
    · have := hμ i hv hnv
      obtain ⟨L, hL, hp, hm⟩ := ih (next i) (by omega) hnv
      refine ⟨i :: L, ?_, ?_, ?_⟩
      · rw [loop, if_pos hv, hL]; rfl
      · rw [List.pairwise_cons]
        refine ⟨?_, hp⟩
        intro j hj
        have := (hm j).1 hj
        exact (hsucc i j hv this.1).2 ⟨hnv, this.2⟩
      · intro j
        rw [List.mem_cons, hm]
        constructor
        · rintro (rfl | ⟨h1, h2⟩)
          · exact ⟨hv, Or.inl rfl⟩
          · exact ⟨h1, Or.inr ((hsucc i j hv h1).2 ⟨hnv, h2⟩)⟩
        · rintro ⟨h1, h | h⟩
          · exact Or.inl h
          · exact Or.inr ⟨h1, ((hsucc i j hv h1).1 h).2⟩
    · refine ⟨[i], ?_, by simp, ?_⟩
      · simp only [loop, hv, if_true]
        simp [hnv]
      · intro j
        simp only [List.mem_singleton]
        constructor
        · rintro rfl; exact ⟨hv, Or.inl rfl⟩
        · rintro ⟨hj, h | h⟩
          · exact h
          · exact absurd ((hsucc i j hv hj).1 h).1 hnv

theorem valid_iff {D : Nat} (ext idx : Idx D) : valid ext idx = true ↔ ∀ d, idx d < ext d := by
  simp [valid]

theorem loop_invalid {I : Type} (valid : I → Bool) (next : I → I) (n : Nat) (i : I)
    (h : valid i = false) : loop valid next (n + 1) i = some [] := by
  simp [loop, h]

end Verif.Trav
