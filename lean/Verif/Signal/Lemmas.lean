import Verif.Signal.Model
import Mathlib.Algebra.BigOperators.Group.Finset.Basic
import Mathlib.Algebra.BigOperators.Fin
/-!
Loop reasoning for the signal processing models.
-/
namespace Verif.Sig
open Finset

/-- invariant rule for a counting loop: the body never fails and keeps the invariant -/
theorem loop_inv {σ : Type} (I : Nat → σ → Prop) (n : Nat) (s : σ) (body : σ → Nat → Option σ) (h0 : I 0 s)
    (hb : ∀ k s, k < n → I k s → ∃ s', body s k = some s' ∧ I (k + 1) s') : ∃ s', loop n s body = some s' ∧ I n s' := by
  induction n with
  | zero => exact ⟨s, by simp [loop], h0⟩
  | succ n ih =>
    obtain ⟨s1, e1, i1⟩ := ih (fun k s hk => hb k s (by omega))
    obtain ⟨s2, e2, i2⟩ := hb n s1 (by omega) i1
    refine ⟨s2, ?_, i2⟩
    unfold loop at *
    rw [List.range_succ, List.foldlM_append, e1]
    simp [e2]

/-- a summing loop -/
theorem loop_sum {T : Type} [AddCommMonoid T] (n : Nat) (s : T) (body : T → Nat → Option T) (t : Nat → T)
    (hb : ∀ k s, k < n → body s k = some (s + t k)) : loop n s body = some (s + ∑ k ∈ range n, t k) := by
  obtain ⟨s', e, i⟩ := loop_inv (fun k s' => s' = s + ∑ j ∈ range k, t j) n s body (by simp) (by
    intro k s' hk h
    refine ⟨s' + t k, hb k s' hk, ?_⟩
    rw [h, sum_range_succ, add_assoc])
  rw [e, i]

/-- two nested summing loops -/
theorem loop_sum2 {T : Type} [AddCommMonoid T] (n m : Nat) (body : T → Nat → Nat → Option T) (t : Nat → Nat → T)
    (hb : ∀ i j s, i < n → j < m → body s i j = some (s + t i j)) :
    loop n (0 : T) (fun s i => loop m s fun s j => body s i j) = some (∑ i ∈ range n, ∑ j ∈ range m, t i j) := by
  rw [loop_sum n 0 _ (fun i => ∑ j ∈ range m, t i j) (fun i s hi => loop_sum m s _ (t i) (fun j s hj => hb i j s hi hj)), zero_add]

/-- a loop whose body fails at some turn that is reached from every state -/
theorem loop_none {σ : Type} (n : Nat) (s : σ) (body : σ → Nat → Option σ) (k : Nat) (hk : k < n)
    (hb : ∀ s, body s k = none) : loop n s body = none := by
  induction n with
  | zero => omega
  | succ n ih =>
    unfold loop at *
    rw [List.range_succ, List.foldlM_append]
    by_cases h : k < n
    · rw [ih h]; rfl
    · have : k = n := by omega
      subst this
      cases List.foldlM body s (List.range k) with
      | none => rfl
      | some s => simp [hb]

end Verif.Sig
