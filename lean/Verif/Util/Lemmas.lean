import Verif.Util.Model
import Mathlib.Tactic.Ring
import Mathlib.Tactic.Linarith
import Mathlib.Tactic.NormNum
import Mathlib.Data.Int.ModEq

/-!
# Lemmas on the utilities
-/

namespace Verif.Utl

section equal

variable {F : Type} [Field F] [LinearOrder F] [IsStrictOrderedRing F]

theorem close_iff {re ae : F} (hae : 0 < ae) (a b : F) : almostEqual re ae a b = true ↔ Close re ae a b := by
  unfold almostEqual Close
  by_cases h : |a - b| < ae
  · simp [h]
  · rw [if_neg h]
    simp only [h, false_or]
    unfold relErr
    by_cases hab : |a| > |b|
    · rw [if_pos hab, min_eq_right hab.le]
      by_cases hb : b = 0
      · subst hb
        simp only [if_true, abs_zero, mul_zero, sub_zero] at hab ⊢
        simp only [Bool.false_eq_true, false_iff, not_le]
        exact hab
      · rw [if_neg hb]
        simp only [decide_eq_true_eq]
        rw [abs_div, div_le_iff₀ (abs_pos.2 hb)]
    · rw [if_neg hab, min_eq_left (not_lt.1 hab)]
      by_cases ha : a = 0
      · subst ha
        simp only [if_true, abs_zero, mul_zero, zero_sub, abs_neg] at hab h ⊢
        simp only [Bool.false_eq_true, false_iff, not_le]
        exact lt_of_lt_of_le hae (not_lt.1 h)
      · rw [if_neg ha]
        simp only [decide_eq_true_eq]
        rw [abs_div, div_le_iff₀ (abs_pos.2 ha), abs_sub_comm]

theorem close_symm {re ae : F} (a b : F) : Close re ae a b ↔ Close re ae b a := by
  unfold Close
  rw [abs_sub_comm a b, min_comm]

theorem close_refl {re ae : F} (hae : 0 < ae) (a : F) : Close re ae a a := Or.inl (by simpa using hae)

end equal

theorem scan_iff (p : ℕ → Bool) (i k : ℕ) : scan p i k = true ↔ ∀ j, i ≤ j → j < i + k → p j = true := by
  induction k generalizing i with
  | zero => simp only [scan, true_iff]; intro j h1 h2; omega
  | succ k ih =>
    simp only [scan]
    by_cases hp : p i = true
    · simp only [hp, Bool.not_true, Bool.false_eq_true, if_false, ih]
      constructor
      · intro h j h1 h2
        by_cases e : j = i
        · rw [e, hp]
        · exact h j (by omega) (by omega)
      · intro h j h1 h2
        exact h j (by omega) (by omega)
    · simp only [hp, Bool.not_false, if_true, Bool.false_eq_true, false_iff]
      intro h
      exact hp (h i le_rfl (by omega))

theorem scan0_iff (p : ℕ → Bool) (k : ℕ) : scan p 0 k = true ↔ ∀ j, j < k → p j = true := by
  rw [scan_iff]
  constructor
  · intro h j hj; exact h j (by omega) (by omega)
  · intro h j _ hj; exact h j (by omega)

section bits

variable {ι α : Type}

theorem sweep (l : List ι) (f : ι → ℕ) (G : ι → (ℕ → α) → α) (v : ι → α) (m : ℕ → α) (hv : ∀ i ∈ l, G i m = v i)
    (hd : l.Pairwise fun i j => f i ≠ f j ∧ ∀ m x, G j (Function.update m (f i) x) = G j m) :
    Updated l f v m (l.foldl (fun m i => Function.update m (f i) (G i m)) m) := by
  induction l generalizing m with
  | nil => exact ⟨by simp, fun a _ => rfl⟩
  | cons i l ih =>
    rw [List.pairwise_cons] at hd
    obtain ⟨h1, h2⟩ := hd
    have := ih (Function.update m (f i) (G i m)) (fun j hj => by rw [(h1 j hj).2]; exact hv j (List.mem_cons_of_mem _ hj)) h2
    rw [List.foldl_cons]
    refine ⟨fun j hj => ?_, fun a ha => ?_⟩
    · rcases List.mem_cons.1 hj with rfl | hj
      · rw [this.2 (f j) (fun k hk => (h1 k hk).1.symm), Function.update_self]
        exact hv j List.mem_cons_self
      · exact this.1 j hj
    · rw [this.2 a (fun k hk => ha k (List.mem_cons_of_mem _ hk)), Function.update_of_ne (ha i List.mem_cons_self).symm]

theorem range_pairwise (n : ℕ) (P : ℕ → ℕ → Prop) (h : ∀ i j, i < j → j < n → P i j) : (List.range n).Pairwise P := by
  refine List.Pairwise.imp_of_mem ?_ List.pairwise_lt_range
  intro a b _ hb hab
  exact h a b hab (List.mem_range.1 hb)

theorem foldl_flat {β : Type} (l : List ι) (k : ι → List β) (s : (ℕ → α) → β → (ℕ → α)) (m : ℕ → α) :
    l.foldl (fun m i => (k i).foldl s m) m = (l.flatMap k).foldl s m := by
  induction l generalizing m with
  | nil => rfl
  | cons i l ih => rw [List.foldl_cons, ih, List.flatMap_cons, List.foldl_append]

/-- The index pairs of a matrix, row by row. -/
theorem cells_pairwise (R C : ℕ) (P : ℕ × ℕ → ℕ × ℕ → Prop)
    (h : ∀ r c s d, (r < s ∨ r = s ∧ c < d) → r < R → s < R → c < C → d < C → P (r, c) (s, d)) :
    ((List.range R).flatMap fun r => (List.range C).map (Prod.mk r)).Pairwise P := by
  rw [List.pairwise_flatMap]
  constructor
  · intro r hr
    rw [List.pairwise_map]
    refine range_pairwise _ _ fun c d hcd hd => ?_
    have hr := List.mem_range.1 hr
    exact h r c r d (Or.inr ⟨rfl, hcd⟩) hr hr (by omega) hd
  · refine range_pairwise _ _ fun r s hrs hs x hx y hy => ?_
    obtain ⟨c, hc, rfl⟩ := List.mem_map.1 hx
    obtain ⟨d, hd, rfl⟩ := List.mem_map.1 hy
    exact h r c s d (Or.inl hrs) (by omega) hs (List.mem_range.1 hc) (List.mem_range.1 hd)

theorem polar_sweep (abs arg : α → α → α) (x y p q : ℕ → ℕ) (l : List ℕ) (m : ℕ → α)
    (hpq : ∀ i ∈ l, p i ≠ q i)
    (hd : l.Pairwise fun i j => (p i ≠ p j ∧ p i ≠ q j ∧ p i ≠ x j ∧ p i ≠ y j) ∧ (q i ≠ p j ∧ q i ≠ q j ∧ q i ≠ x j ∧ q i ≠ y j)) :
    let m' := l.foldl (fun m i => Function.update (Function.update m (p i) (abs (m (x i)) (m (y i)))) (q i) (arg (m (x i)) (m (y i)))) m
    (∀ i ∈ l, m' (p i) = abs (m (x i)) (m (y i)) ∧ m' (q i) = arg (m (x i)) (m (y i))) ∧
      ∀ a, (∀ i ∈ l, p i ≠ a ∧ q i ≠ a) → m' a = m a := by
  induction l generalizing m with
  | nil => exact ⟨by simp, fun a _ => rfl⟩
  | cons i l ih =>
    rw [List.pairwise_cons] at hd
    obtain ⟨h1, h2⟩ := hd
    have hi := hpq i List.mem_cons_self
    have key := ih (Function.update (Function.update m (p i) (abs (m (x i)) (m (y i)))) (q i) (arg (m (x i)) (m (y i))))
      (fun j hj => hpq j (List.mem_cons_of_mem _ hj)) h2
    simp only [List.foldl_cons] at key ⊢
    refine ⟨fun j hj => ?_, fun a ha => ?_⟩
    · rcases List.mem_cons.1 hj with rfl | hj
      · constructor
        · rw [key.2 (p j) (fun k hk => ⟨(h1 k hk).1.1.symm, (h1 k hk).1.2.1.symm⟩), Function.update_of_ne hi, Function.update_self]
        · rw [key.2 (q j) (fun k hk => ⟨(h1 k hk).2.1.symm, (h1 k hk).2.2.1.symm⟩), Function.update_self]
      · obtain ⟨⟨a1, a2, a3, a4⟩, b1, b2, b3, b4⟩ := h1 j hj
        have k1 := key.1 j hj
        rw [Function.update_of_ne b3.symm, Function.update_of_ne a3.symm, Function.update_of_ne b4.symm, Function.update_of_ne a4.symm] at k1
        exact k1
    · rw [key.2 a (fun k hk => ha k (List.mem_cons_of_mem _ hk)), Function.update_of_ne (ha i List.mem_cons_self).2.symm,
        Function.update_of_ne (ha i List.mem_cons_self).1.symm]

end bits

theorem u32_cast (z : ℤ) : ((u32 z : ℕ) : ℤ) = z % 2 ^ 32 := by
  unfold u32
  exact Int.toNat_of_nonneg (Int.emod_nonneg _ (by norm_num))

theorem u32_lt (z : ℤ) : u32 z < 2 ^ 32 := by
  have h := u32_cast z
  have := Int.emod_lt_of_pos z (show (0 : ℤ) < 2 ^ 32 by norm_num)
  omega

theorem u32_eq {z : ℤ} {n : ℕ} (h : z % 2 ^ 32 = n) : u32 z = n := by
  have := u32_cast z
  omega

theorem dist_plus (s : It) (dx : ℤ) (hc : s.cur < 2 ^ 32) : u32 (((s.plus dx).cur : ℤ) - s.cur) = u32 (dx * s.delta) := by
  apply u32_eq
  simp only [It.plus]
  rw [u32_cast, Int.emod_sub_emod]
  rw [show (s.cur : ℤ) + (u32 (dx * s.delta) : ℕ) - s.cur = (u32 (dx * s.delta) : ℕ) by ring]
  have := u32_lt (dx * s.delta)
  omega

theorem visit_eq (d : ℕ) (hd : 0 < d) (k v : ℕ) (h : v + k * d < 2 ^ 32) :
    It.visit k ⟨v, d⟩ ⟨v + k * d, d⟩ = some ((List.range k).map fun i => v + i * d) := by
  induction k generalizing v with
  | zero => simp [It.visit]
  | succ k ih =>
    have hk : (k + 1) * d = k * d + d := by ring
    rw [It.visit, if_neg (by intro e; rw [It.mk.injEq] at e; omega)]
    have e1 : (⟨v, d⟩ : It).inc = ⟨v + d, d⟩ := by
      simp only [It.inc, It.mk.injEq, and_true]
      apply u32_eq
      push_cast
      omega
    rw [e1, show v + (k + 1) * d = (v + d) + k * d by omega, ih (v + d) (by omega)]
    simp only [Option.map_some, List.range_succ_eq_map, List.map_cons, List.map_map, Nat.zero_mul, Nat.add_zero]
    congr 2
    apply List.map_congr_left
    intro i _
    simp only [Function.comp, Nat.succ_eq_add_one]
    ring

theorem inner_cost (cm ca n : ℕ) : (Tree.inner (n + 1)).cost cm ca = (n + 1) * cm + n * ca := by
  induction n with
  | zero => simp [Tree.inner, Tree.cost]
  | succ n ih => simp only [Tree.inner, Tree.cost, ih]; ring

theorem opsDot_eq (c : Bool) (n : ℕ) : opsDot c n = (Tree.inner n).cost (traitMul c) (traitAdd c) := by
  unfold opsDot
  rcases n with _ | _ | n
  · simp [Tree.inner, Tree.cost]
  · simp [Tree.inner, Tree.cost]
  · rw [inner_cost, if_pos (by omega)]
    simp only [Nat.add_sub_cancel]

theorem words_inj (P : Char → Prop) (sep : Char) (hs : ¬ P sep) (a b : List Char) (r t : List Char) (ha : ∀ c ∈ a, P c) (hb : ∀ c ∈ b, P c)
    (hr : r = [] ∨ ∃ r', r = sep :: r') (ht : t = [] ∨ ∃ t', t = sep :: t') (h : a ++ r = b ++ t) : a = b ∧ r = t := by
  induction a generalizing b with
  | nil =>
    rcases b with _ | ⟨c, b⟩
    · exact ⟨rfl, by simpa using h⟩
    · exfalso
      have hc := hb c List.mem_cons_self
      rcases hr with rfl | ⟨r', rfl⟩
      · simp at h
      · simp only [List.nil_append, List.cons_append, List.cons.injEq] at h
        exact hs (h.1 ▸ hc)
  | cons d a ih =>
    rcases b with _ | ⟨c, b⟩
    · exfalso
      have hc := ha d List.mem_cons_self
      rcases ht with rfl | ⟨t', rfl⟩
      · simp at h
      · simp only [List.nil_append, List.cons_append, List.cons.injEq] at h
        exact hs (h.1 ▸ hc)
    · simp only [List.cons_append, List.cons.injEq] at h
      obtain ⟨e1, e2⟩ := ih b (fun x hx => ha x (List.mem_cons_of_mem _ hx)) (fun x hx => hb x (List.mem_cons_of_mem _ hx)) h.2
      exact ⟨by rw [h.1, e1], e2⟩

theorem flat_head (w : List (List Char)) : (w.flatMap fun x => [' ', ' '] ++ x) = [] ∨ ∃ r, (w.flatMap fun x => [' ', ' '] ++ x) = ' ' :: r := by
  rcases w with _ | ⟨x, w⟩
  · exact Or.inl rfl
  · exact Or.inr ⟨_, rfl⟩

theorem flat_inj (v w : List (List Char)) (hv : ∀ x ∈ v, ∀ c ∈ x, c ≠ ' ') (hw : ∀ x ∈ w, ∀ c ∈ x, c ≠ ' ')
    (h : (v.flatMap fun x => [' ', ' '] ++ x) = w.flatMap fun x => [' ', ' '] ++ x) : v = w := by
  induction v generalizing w with
  | nil =>
    rcases w with _ | ⟨y, w⟩
    · rfl
    · simp at h
  | cons x v ih =>
    rcases w with _ | ⟨y, w⟩
    · simp at h
    · simp only [List.flatMap_cons, List.append_assoc, List.cons_append, List.nil_append, List.cons.injEq, true_and] at h
      obtain ⟨e1, e2⟩ := words_inj (fun c => c ≠ ' ') ' ' (by simp) x y _ _ (hv x List.mem_cons_self) (hw y List.mem_cons_self)
        (flat_head v) (flat_head w) h
      rw [e1, ih w (fun z hz => hv z (List.mem_cons_of_mem _ hz)) (fun z hz => hw z (List.mem_cons_of_mem _ hz)) e2]

/-- The lines of a vector from index `k` on. -/
def linesFrom (idx : ℕ → List Char) : ℕ → List (List Char) → List Char
  | _, [] => []
  | k, x :: v => idx k ++ [':', ' '] ++ x ++ ['\n'] ++ linesFrom idx (k + 1) v

theorem lines_eq (idx : ℕ → List Char) (v : List (List Char)) (k : ℕ) :
    ((List.range v.length).flatMap fun i => idx (k + i) ++ [':', ' '] ++ v.getD i [] ++ ['\n']) = linesFrom idx k v := by
  induction v generalizing k with
  | nil => rfl
  | cons x v ih =>
    rw [List.length_cons, List.range_succ_eq_map, List.flatMap_cons, List.flatMap_map, linesFrom, ← ih (k + 1)]
    simp only [List.getD_cons_zero, List.getD_cons_succ, Nat.add_zero, Nat.add_assoc, Nat.add_comm 1]

theorem lines_inj (idx : ℕ → List Char) (v w : List (List Char)) (k : ℕ) (hv : ∀ x ∈ v, ∀ c ∈ x, c ≠ '\n') (hw : ∀ x ∈ w, ∀ c ∈ x, c ≠ '\n')
    (h : linesFrom idx k v = linesFrom idx k w) : v = w := by
  induction v generalizing w k with
  | nil =>
    rcases w with _ | ⟨y, w⟩
    · rfl
    · simp [linesFrom] at h
  | cons x v ih =>
    rcases w with _ | ⟨y, w⟩
    · simp [linesFrom] at h
    · simp only [linesFrom, List.append_assoc, List.append_cancel_left_eq] at h
      simp only [List.cons_append, List.nil_append, List.cons.injEq, true_and] at h
      obtain ⟨e1, e2⟩ := words_inj (fun c => c ≠ '\n') '\n' (by simp) x y _ _ (hv x List.mem_cons_self) (hw y List.mem_cons_self)
        (Or.inr ⟨_, rfl⟩) (Or.inr ⟨_, rfl⟩) h
      rw [e1, ih w (k + 1) (fun z hz => hv z (List.mem_cons_of_mem _ hz)) (fun z hz => hw z (List.mem_cons_of_mem _ hz)) (List.cons.inj e2).2]

end Verif.Utl
