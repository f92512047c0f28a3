import Mathlib.Tactic.Ring
import Mathlib.Tactic.Linarith
import Mathlib.Tactic.NormNum
import Mathlib.Algebra.BigOperators.Group.Finset.Basic
import Mathlib.Algebra.BigOperators.Ring.Finset
import Verif.Cv.Model
import Verif.Signal.Lemmas

/-!
# Lemmas for the C-VSIPL back end
-/

namespace Verif.Cv

open Verif Verif.Sig Finset

theorem cv_toIdx {z : ℤ} (h0 : 0 ≤ z) (h1 : z < (W₆₄ : ℤ)) : toIdx z = z.toNat := by
  unfold toIdx
  rw [Int.emod_eq_of_lt h0 h1]

section
variable {T U : Type}

theorem writeRow_out (mem : ℤ → U) (off s : ℤ) (m : ℕ) (v : ℕ → U) (a : ℤ) (h : ∀ j < m, a ≠ off + j * s) : writeRow mem off s m v a = mem a := by
  induction m with
  | zero => rfl
  | succ m ih =>
    have e : writeRow mem off s (m + 1) v = Function.update (writeRow mem off s m v) (off + m * s) (v m) := by
      unfold writeRow; rw [List.range_succ, List.foldl_append]; rfl
    rw [e, Function.update_of_ne (h m (by omega)), ih fun j hj => h j (by omega)]

theorem writeRow_in (mem : ℤ → U) (off s : ℤ) (m : ℕ) (v : ℕ → U) (hs : ∀ j < m, ∀ j' < m, (j : ℤ) * s = j' * s → j = j') (j : ℕ) (hj : j < m) :
    writeRow mem off s m v (off + j * s) = v j := by
  induction m with
  | zero => omega
  | succ m ih =>
    have e : writeRow mem off s (m + 1) v = Function.update (writeRow mem off s m v) (off + m * s) (v m) := by
      unfold writeRow; rw [List.range_succ, List.foldl_append]; rfl
    rw [e]
    by_cases hjm : j = m
    · subst hjm; rw [Function.update_self]
    · have hne : off + (j : ℤ) * s ≠ off + m * s := by
        intro hh
        exact hjm (hs j hj m (by omega) (by linarith))
      rw [Function.update_of_ne hne]
      exact ih (fun a ha b hb => hs a (by omega) b (by omega)) (by omega)

/-- Rows written one after the other, each from what the memory holds at its turn. -/
theorem rows_fold (h : ℕ → (ℤ → U) → ℕ → U) (V E : ℤ) (m n : ℕ) (mem : ℤ → U)
    (hd : ∀ i < n, ∀ j < m, ∀ i' < n, ∀ j' < m, (i : ℤ) * V + j * E = i' * V + j' * E → i = i' ∧ j = j')
    (hl : ∀ i < n, ∀ mem', (∀ j < m, mem' (i * V + j * E) = mem (i * V + j * E)) → h i mem' = h i mem) (k : ℕ) (hk : k ≤ n) :
    (∀ i < n, ∀ j < m, (List.range k).foldl (fun mem (i : ℕ) => writeRow mem (i * V) E m (h i mem)) mem (i * V + j * E)
        = if i < k then h i mem j else mem (i * V + j * E)) ∧
      ∀ a, (∀ i < k, ∀ j < m, a ≠ (i : ℤ) * V + j * E) → (List.range k).foldl (fun mem (i : ℕ) => writeRow mem (i * V) E m (h i mem)) mem a = mem a := by
  induction k with
  | zero => exact ⟨fun i _ j _ => by simp, fun a _ => rfl⟩
  | succ k ih =>
    obtain ⟨h1, h2⟩ := ih (by omega)
    rw [List.range_succ, List.foldl_append]
    simp only [List.foldl_cons, List.foldl_nil]
    generalize (List.range k).foldl (fun mem (i : ℕ) => writeRow mem (i * V) E m (h i mem)) mem = st at h1 h2
    have hst : h k st = h k mem := hl k (by omega) st fun j hj => by rw [h1 k (by omega) j hj, if_neg (by omega)]
    refine ⟨fun i hi j hj => ?_, fun a ha => ?_⟩
    · by_cases hik : i = k
      · subst hik
        rw [if_pos (by omega), writeRow_in _ _ _ _ _ _ j hj, hst]
        intro a ha b hb e
        exact (hd i hi a ha i hi b hb (by linarith)).2
      · rw [writeRow_out _ _ _ _ _ _ fun j' hj' e => hik (hd i hi j hj k (by omega) j' hj' e).1, h1 i hi j hj]
        by_cases hlt : i < k
        · rw [if_pos hlt, if_pos (by omega)]
        · rw [if_neg hlt, if_neg (by omega)]
    · rw [writeRow_out _ _ _ _ _ _ fun j hj => ha k (by omega) j hj, h2 a fun i hi => ha i (by omega)]
end

/-! ### Convolution -/

section
variable {T : Type} [Semiring T]

theorem fixSum_eq (h : ℕ → T) (K : ℕ) (inp : Vec T) (base : ℕ) : fixSum h K inp base = some (Spec.convAt h K inp.f inp.n base) := by
  unfold fixSum Spec.convAt
  rw [loop_sum K 0 _ (fun k => h k * Spec.ext inp.f inp.n ((base : ℤ) - k)), zero_add]
  intro k s hk
  by_cases hc : k ≤ base ∧ base - k < inp.n
  · rw [if_pos hc]
    have e : ((base : ℤ) - k).toNat = base - k := by omega
    simp only [Vec.get, if_pos hc.2, Option.bind_some, Spec.ext]
    rw [if_pos (by omega), e]
  · rw [if_neg hc, Spec.ext, if_neg (by omega), mul_zero, add_zero]

theorem readEven_eq (c : ℕ → T) (M : ℕ) : readEven c M = Spec.evenKernel c M := by
  funext k
  unfold readEven Spec.evenKernel
  rw [show 2 * M - k - 1 = 2 * M - 1 - k by omega]

theorem fixFull_eq (h : ℕ → T) (K cnt D : ℕ) (inp out : Vec T) (hc : cnt ≤ out.n) (hw : out.n < W₆₄) :
    ∃ r, fixFull h K cnt D inp out = some r ∧ r.n = out.n ∧
      ∀ n, r.f n = if out.n - cnt ≤ n ∧ n < out.n then Spec.convAt h K inp.f inp.n ((n * D : ℕ) : ℤ) else out.f n := by
  obtain ⟨r, e, h1, h2⟩ := loop_inv (fun i (r : Vec T) => r.n = out.n ∧
      ∀ n, r.f n = if out.n - i ≤ n ∧ n < out.n then Spec.convAt h K inp.f inp.n ((n * D : ℕ) : ℤ) else out.f n) cnt out
    (fun out i =>
      let n := toIdx ((out.n : ℤ) - 1 - i)
      (fixSum h K inp (n * D)).bind fun s => out.put n s)
    ⟨rfl, fun n => by rw [if_neg (by omega)]⟩ (by
      intro i s hi ⟨hn, hf⟩
      have e : toIdx ((s.n : ℤ) - 1 - i) = out.n - 1 - i := by
        rw [cv_toIdx (by omega) (by omega)]; omega
      refine ⟨⟨s.n, fun k => if k = out.n - 1 - i then Spec.convAt h K inp.f inp.n (((out.n - 1 - i) * D : ℕ) : ℤ) else s.f k⟩, ?_, hn, fun n => ?_⟩
      · simp only [e, fixSum_eq, Option.bind_some, Vec.put]
        rw [if_pos (by omega)]
      · dsimp only
        by_cases hne : n = out.n - 1 - i
        · rw [if_pos hne, if_pos (by omega), hne]
        · rw [if_neg hne, hf n]
          by_cases hr : out.n - i ≤ n ∧ n < out.n
          · rw [if_pos hr, if_pos (by omega)]
          · rw [if_neg hr, if_neg (by omega)])
  exact ⟨r, e, h1, h2⟩
end

/-! ### Ownership -/

theorem count_set_false (l : List Bool) (i : ℕ) (o : Bool) (h : l[i]? = some o) : (l.set i false).count true + (if o then 1 else 0) = l.count true := by
  induction l generalizing i with
  | nil => simp at h
  | cons a l ih =>
    cases i with
    | zero =>
      simp only [List.getElem?_cons_zero, Option.some.injEq] at h
      subst h
      cases a <;> simp
    | succ i =>
      simp only [List.getElem?_cons_succ] at h
      have := ih i h
      cases a <;> simp <;> omega

theorem count_erase (l : List Bool) (i : ℕ) (o : Bool) (h : l[i]? = some o) : (l.eraseIdx i).count true + (if o then 1 else 0) = l.count true := by
  induction l generalizing i with
  | nil => simp at h
  | cons a l ih =>
    cases i with
    | zero =>
      simp only [List.getElem?_cons_zero, Option.some.injEq] at h
      subst h
      cases a <;> simp
    | succ i =>
      simp only [List.getElem?_cons_succ] at h
      have := ih i h
      cases a <;> simp <;> omega

end Verif.Cv
