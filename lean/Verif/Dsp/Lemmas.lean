import Verif.Dsp.Model
import Verif.Dsp.Spec
import Verif.Filter.Props
import Verif.Reduce.Props
import Verif.Dft.Math
import Verif.Hpec.Lemmas
import Mathlib.Algebra.Order.BigOperators.Ring.Finset
import Mathlib.Analysis.InnerProductSpace.Basic
import Mathlib.Data.Rat.Floor
namespace Verif.Dsp
open Verif Finset

section
variable {T : Type} [Semiring T]

theorem put_apply (s k : ℕ) (hk : 0 < k) (src dst : ℕ → T) (n i : ℕ) :
    put s k n src dst i = if s ≤ i ∧ (i - s) % k = 0 ∧ (i - s) / k < n then src ((i - s) / k) else dst i := by
  induction n with
  | zero => simp [put]
  | succ n ih =>
    have e : put s k (n + 1) src dst = Function.update (put s k n src dst) (s + k * n) (src n) := by
      simp only [put, List.range_succ, List.foldl_append, List.foldl_cons, List.foldl_nil]
    rw [e]
    by_cases h : i = s + k * n
    · subst h
      rw [Function.update_self, if_pos]
      · congr 1
        rw [Nat.add_sub_cancel_left, Nat.mul_div_cancel_left _ hk]
      · rw [Nat.add_sub_cancel_left, Nat.mul_div_cancel_left _ hk, Nat.mul_mod_right]
        omega
    · rw [Function.update_of_ne h, ih]
      have hne : s ≤ i → (i - s) % k = 0 → (i - s) / k ≠ n := by
        intro h1 h2 h3
        apply h
        have := Nat.div_add_mod (i - s) k
        rw [h2, h3] at this
        omega
      by_cases c : s ≤ i ∧ (i - s) % k = 0 ∧ (i - s) / k < n
      · rw [if_pos c, if_pos ⟨c.1, c.2.1, by omega⟩]
      · rw [if_neg c, if_neg]
        rintro ⟨h1, h2, h3⟩
        have := hne h1 h2
        exact c ⟨h1, h2, by omega⟩

theorem mapM_some {A B : Type} (f : A → Option B) (g : A → B) (l : List A) (h : ∀ a ∈ l, f a = some (g a)) : l.mapM f = some (l.map g) := by
  induction l with
  | nil => rfl
  | cons a l ih =>
    rw [List.mapM_cons, h a (by simp), ih fun b hb => h b (by simp [hb])]
    rfl

theorem pick_eq (size s k n : ℕ) (src : ℕ → T) (h : ∀ j, j < n → s + k * j < size) :
    pick size s k n src = some ((List.range n).map fun j => src (s + k * j)) :=
  mapM_some _ _ _ fun j hj => if_pos (h j (List.mem_range.mp hj))

theorem filled_eq (n : ℕ) (g : ℕ → T) : filled n ((List.range n).map g) = some ((List.range n).map g) := by
  simp [filled]

theorem getD_map (n : ℕ) (g : ℕ → T) (i : ℕ) (h : i < n) : ((List.range n).map g).getD i 0 = g i := by
  simp [List.getD_eq_getElem?_getD, h]

theorem fir_initial (h : ℕ → T) (k N d : ℕ) (F : Filt.Fir T) (hF : Filt.Fir.make .nonsym true h k N d = some F) (x : ℕ → T) (n : ℕ) (hn : ∀ q, q < n ↔ q * d < N) :
    (F.apply .initial x).1 = (List.range n).map (Props.decimated h k d x) := by
  obtain ⟨m, h1, h2⟩ := Props.C36_frames .nonsym h k N d F hF x 1
  have : m = n := by
    have a := h1 n
    have b := hn m
    have a' := h1 m
    have b' := hn n
    rw [one_mul] at *
    omega
  subst this
  have e : (F.run .initial (Props.frames x N 0 1)).1.flatten = (F.apply .initial x).1 := by
    simp [Props.frames, Filt.Fir.run]
  rw [← e, h2]
  rfl

theorem make_ok (h : ℕ → T) (k N d : ℕ) (c : 0 < d) (c1 : d < k) (c2 : 1 < k) (c3 : k ≤ N + 1) : ∃ F, Filt.Fir.make .nonsym true h k N d = some F := by
  unfold Filt.Fir.make
  refine ⟨_, if_pos ?_⟩
  simp only [Filt.order]
  simp
  omega

theorem put_stuffed (P M : ℕ) (hP : 0 < P) (x : ℕ → T) : put 0 P M x (fun _ => 0) = stuffed P M x := by
  funext i
  rw [put_apply 0 P hP]
  simp [stuffed]

/-- the values of all phases -/
theorem phases (P M : ℕ) (hP : 0 < P) (g : ℕ → ℕ → T) (n : ℕ) (hn : n ≤ P) (yy : ℕ → T) (i : ℕ) (hi : i < M * P) :
    ((List.range n).foldl (fun yy r => put r P M (g r) yy) yy) i = if i % P < n then g (i % P) (i / P) else yy i := by
  induction n with
  | zero => simp
  | succ n ih =>
    rw [List.range_succ, List.foldl_append, List.foldl_cons, List.foldl_nil, put_apply n P hP, ih (by omega)]
    have hd : i / P < M := by rw [Nat.div_lt_iff_lt_mul hP]; exact hi
    have hm := Nat.mod_lt i hP
    have e := Nat.div_add_mod i P
    by_cases c : i % P = n
    · have h0 : i - n = P * (i / P) := by omega
      have h1 : (i - n) % P = 0 := by rw [h0, Nat.mul_mod_right]
      have h2 : (i - n) / P = i / P := by rw [h0, Nat.mul_div_cancel_left _ hP]
      rw [if_pos ⟨by omega, h1, by omega⟩, if_pos (by omega), h2, c]
    · rw [if_neg]
      · by_cases c2 : i % P < n
        · rw [if_pos c2, if_pos (by omega)]
        · rw [if_neg c2, if_neg (by omega)]
      · rintro ⟨h1, h2, -⟩
        have e2 := Nat.div_add_mod (i - n) P
        rw [h2] at e2
        apply c
        have : i = n + P * ((i - n) / P) := by omega
        rw [this, Nat.add_mul_mod_self_left, Nat.mod_eq_of_lt (by omega)]

/-- the convolution of a stuffed signal is that of one phase -/
theorem polyphase (P M S : ℕ) (hP : 0 < P) (h x : ℕ → T) (i : ℕ) (hi : i < M * P) :
    ∑ j ∈ range (P * S), h j * (if j ≤ i then stuffed P M x (i - j) else 0) = ∑ j ∈ range S, h (i % P + P * j) * if j ≤ i / P then x (i / P - j) else 0 := by
  have hm := Nat.mod_lt i hP
  have hd : i / P < M := by rw [Nat.div_lt_iff_lt_mul hP]; exact hi
  have e := Nat.div_add_mod i P
  rw [← Finset.sum_filter_add_sum_filter_not (range (P * S)) fun j => j % P = i % P]
  rw [Finset.sum_eq_zero (s := (range (P * S)).filter fun j => ¬j % P = i % P), add_zero]
  · symm
    refine Finset.sum_bij' (fun j _ => i % P + P * j) (fun j _ => j / P) ?_ ?_ ?_ ?_ ?_
    · intro j hj
      rw [mem_range] at hj
      rw [mem_filter, mem_range]
      refine ⟨?_, ?_⟩
      · have : P * (j + 1) ≤ P * S := Nat.mul_le_mul_left _ hj
        rw [Nat.mul_add] at this
        omega
      · rw [Nat.add_mul_mod_self_left, Nat.mod_mod]
    · intro j hj
      rw [mem_filter, mem_range] at hj
      rw [mem_range]
      exact Nat.div_lt_of_lt_mul hj.1
    · intro j _
      show (i % P + P * j) / P = j
      rw [Nat.add_mul_div_left _ _ hP, Nat.div_eq_of_lt hm, Nat.zero_add]
    · intro j hj
      rw [mem_filter] at hj
      show i % P + P * (j / P) = j
      rw [← hj.2]
      exact Nat.mod_add_div j P
    · intro j _
      show _ = h (i % P + P * j) * if i % P + P * j ≤ i then stuffed P M x (i - (i % P + P * j)) else 0
      by_cases c : j ≤ i / P
      · have h1 : P * j ≤ P * (i / P) := Nat.mul_le_mul_left _ c
        have h2 : i - (i % P + P * j) = P * (i / P - j) := by
          rw [Nat.mul_sub]; omega
        rw [if_pos c, if_pos (by omega), h2]
        simp only [stuffed]
        rw [Nat.mul_mod_right, Nat.mul_div_cancel_left _ hP, if_pos ⟨rfl, by omega⟩]
      · rw [if_neg c, if_neg]
        have h1 : P * (i / P + 1) ≤ P * j := Nat.mul_le_mul_left _ (by omega)
        rw [Nat.mul_add] at h1
        omega
  · intro j hj
    rw [mem_filter, mem_range] at hj
    by_cases c : j ≤ i
    · rw [if_pos c]
      simp only [stuffed]
      rw [if_neg, mul_zero]
      rintro ⟨h1, -⟩
      apply hj.2
      have e2 := Nat.div_add_mod (i - j) P
      rw [h1] at e2
      have : i = j + P * ((i - j) / P) := by omega
      rw [this, Nat.add_mul_mod_self_left]
    · rw [if_neg c, mul_zero]

theorem foldlM_pure {A B : Type} (f : A → B → Option A) (g : A → B → A) (l : List B) (a : A) (h : ∀ b ∈ l, ∀ a, f a b = some (g a b)) : l.foldlM f a = some (l.foldl g a) := by
  induction l generalizing a with
  | nil => rfl
  | cons b l ih =>
    rw [List.foldlM_cons, h b (by simp)]
    exact ih _ fun b' hb => h b' (by simp [hb])

end
end Verif.Dsp
