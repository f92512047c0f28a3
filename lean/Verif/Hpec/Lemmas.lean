import Mathlib.Algebra.BigOperators.Intervals
import Mathlib.Algebra.BigOperators.Pi
import Mathlib.Tactic.Abel
import Mathlib.Tactic.Ring
import Mathlib.Tactic.FieldSimp
import Mathlib.Data.List.FinRange
import Verif.Signal.Lemmas
import Verif.Dft.Math
import Verif.Hpec.Spec
import Verif.Hpec.Model

/-!
# Lemmas for the kernels
-/

namespace Verif.Hpec

open Finset Verif.Sig

/-! ### Sums over windows -/

section
variable {T : Type} [AddCommGroup T]

theorem window_eq (g c n k : ℕ) (hk : k < n) : window g c n k = Ico (k - g - c) (k - g) ∪ Ico (k + g + 1) (min n (k + g + c + 1)) := by
  ext i
  simp only [window, mem_filter, mem_range, mem_union, mem_Ico]
  omega

theorem window_disj (g c n k : ℕ) : Disjoint (Ico (k - g - c) (k - g)) (Ico (k + g + 1) (min n (k + g + c + 1))) := by
  rw [Finset.disjoint_left]
  intro i h1 h2
  simp only [mem_Ico] at h1 h2
  omega

theorem window_card (g c n k : ℕ) (hk : k < n) : (window g c n k).card = (k - g - (k - g - c)) + (min n (k + g + c + 1) - (k + g + 1)) := by
  rw [window_eq g c n k hk, card_union_of_disjoint (window_disj g c n k), Nat.card_Ico, Nat.card_Ico]

/-- sums of the first elements -/
def pre (f : ℕ → T) (m : ℕ) : T := ∑ i ∈ range m, f i

theorem pre_succ (f : ℕ → T) (m : ℕ) : pre f (m + 1) = pre f m + f m := sum_range_succ f m

theorem window_sum (f : ℕ → T) (g c n k a b d : ℕ) (hk : k < n) (ha : a = k - g - c) (hb : b = k - g) (hd : d = min n (k + g + c + 1)) :
    ∑ i ∈ window g c n k, f i = pre f b - pre f a + (pre f (max d (k + g + 1)) - pre f (k + g + 1)) := by
  subst ha hb hd
  rw [window_eq g c n k hk, sum_union (window_disj g c n k), sum_Ico_eq_sub f (by omega)]
  congr 1
  rcases le_total (min n (k + g + c + 1)) (k + g + 1) with h | h
  · rw [Ico_eq_empty_of_le h, max_eq_right h]; simp
  · rw [max_eq_left h, sum_Ico_eq_sub f h]; rfl

/-- `gates_used` -/
def used (g c n k : ℕ) : ℕ :=
  if k < g + 1 then c else if k < g + c + 1 then c + k - (g + 1) else if k < n - (g + c) then 2 * c else if k + g < n then c + n - (k + g) else c

variable (p : Vec T) (g c : ℕ)

/-- The list after `m` gates. -/
def tr (m : ℕ) : List (ℕ × ℕ × T) := (List.range m).map fun k => (k, used g c p.n k, ∑ i ∈ window g c p.n k, p.f i)

theorem tr_succ (m : ℕ) : tr p g c (m + 1) = tr p g c m ++ [(m, used g c p.n m, ∑ i ∈ window g c p.n m, p.f i)] := by
  simp [tr, List.range_succ]

theorem get_lt {i : ℕ} (h : i < p.n) : p.get i = some (p.f i) := if_pos h

/-- The state after `m` gates. -/
def At (m : ℕ) (st : Tr T) : Prop := (0 < m → st.1 = ∑ i ∈ window g c p.n (m - 1), p.f i) ∧ (m = 0 → st.1 = 0) ∧ st.2 = tr p g c m

theorem left_at (h : 2 * (c + g) < p.n) (k : ℕ) (st : Tr T) (hk : k < g + c + 1) (hst : At p g c k st) :
    ∃ st', left p g c st k = some st' ∧ At p g c (k + 1) st' := by
  obtain ⟨h1, h0, h2⟩ := hst
  unfold left
  by_cases e0 : k = 0
  · subst e0
    rw [if_pos rfl]
    have hl := loop_sum c st.1 (fun s l => (p.get (1 + (g + l))).map (s + ·)) (fun l => p.f (1 + (g + l))) (by
      intro l s hl
      rw [get_lt p (by omega)]; rfl)
    rw [hl, h0 rfl, zero_add]
    have e : ∑ l ∈ range c, p.f (1 + (g + l)) = ∑ i ∈ window g c p.n 0, p.f i := by
      rw [window_eq g c p.n 0 (by omega)]
      have : min p.n (0 + g + c + 1) = g + c + 1 := by omega
      rw [this, show Ico (0 - g - c) (0 - g) ∪ Ico (0 + g + 1) (g + c + 1) = Ico (g + 1) (g + c + 1) by simp, sum_Ico_eq_sum_range]
      refine sum_congr (by congr 1; omega) fun l _ => by congr 1; omega
    refine ⟨_, rfl, fun _ => e, fun h => absurd h (by omega), ?_⟩
    rw [tr_succ, h2, ← e]
    simp [used]
  · rw [if_neg e0]
    obtain ⟨k, rfl⟩ := Nat.exists_eq_succ_of_ne_zero e0
    simp only [Nat.succ_eq_add_one] at *
    have h1 := h1 (by omega)
    rw [Nat.add_sub_cancel] at h1
    rw [get_lt p (i := k + 1 + g + c) (by omega), get_lt p (i := k + 1 + g) (by omega)]
    have w0 := window_sum p.f g c p.n k 0 (k - g) (k + g + c + 1) (by omega) (by omega) rfl (by omega)
    have w1 := window_sum p.f g c p.n (k + 1) 0 (k + 1 - g) (k + g + c + 2) (by omega) (by omega) rfl (by omega)
    rw [max_eq_left (by omega), show k + g + 1 = k + 1 + g by omega, show k + g + c + 1 = k + 1 + g + c by omega] at w0
    rw [max_eq_left (by omega), show k + g + c + 2 = (k + 1 + g + c) + 1 by omega, pre_succ, pre_succ] at w1
    by_cases e1 : k + 1 < g + 1
    · rw [if_pos e1]
      have e : st.1 + (p.f (k + 1 + g + c) - p.f (k + 1 + g)) = ∑ i ∈ window g c p.n (k + 1), p.f i := by
        rw [h1, w0, w1, show k - g = 0 by omega, show k + 1 - g = 0 by omega]
        abel
      refine ⟨_, rfl, fun _ => e, fun h => absurd h (by omega), ?_⟩
      rw [tr_succ, h2, ← e]
      simp [used, show k < g by omega]
    · rw [if_neg e1, get_lt p (i := k + 1 - (g + 1)) (by omega)]
      have e : st.1 + (p.f (k + 1 + g + c) - p.f (k + 1 + g) + p.f (k + 1 - (g + 1))) = ∑ i ∈ window g c p.n (k + 1), p.f i := by
        rw [h1, w0, w1, show k + 1 - g = (k - g) + 1 by omega, pre_succ, show k + 1 - (g + 1) = k - g by omega]
        abel
      refine ⟨_, rfl, fun _ => e, fun h => absurd h (by omega), ?_⟩
      rw [tr_succ, h2, ← e]
      simp only [used, if_neg e1, if_pos hk]

theorem middle_at (h : 2 * (c + g) < p.n) (k : ℕ) (st : Tr T) (hk : g + c + 1 ≤ k) (hk' : k < p.n - (g + c)) (hst : At p g c k st) :
    ∃ st', middle p g c st k = some st' ∧ At p g c (k + 1) st' := by
  obtain ⟨h1, h0, h2⟩ := hst
  obtain ⟨k, rfl⟩ := Nat.exists_eq_succ_of_ne_zero (show k ≠ 0 by omega)
  simp only [Nat.succ_eq_add_one] at *
  have h1 := h1 (by omega)
  rw [Nat.add_sub_cancel] at h1
  unfold middle
  rw [get_lt p (i := k + 1 + g + c) (by omega), get_lt p (i := k + 1 + g) (by omega), get_lt p (i := k + 1 - (g + 1)) (by omega),
    get_lt p (i := k + 1 - (c + g + 1)) (by omega)]
  have w0 := window_sum p.f g c p.n k (k - g - c) (k - g) (k + g + c + 1) (by omega) rfl rfl (by omega)
  have w1 := window_sum p.f g c p.n (k + 1) (k - g - c + 1) (k - g + 1) (k + g + c + 2) (by omega) (by omega) (by omega) (by omega)
  rw [max_eq_left (by omega), show k + g + 1 = k + 1 + g by omega, show k + g + c + 1 = k + 1 + g + c by omega] at w0
  rw [max_eq_left (by omega), show k + g + c + 2 = (k + 1 + g + c) + 1 by omega, pre_succ, pre_succ, pre_succ, pre_succ] at w1
  have e : st.1 + (p.f (k + 1 + g + c) - p.f (k + 1 + g) + p.f (k + 1 - (g + 1)) - p.f (k + 1 - (c + g + 1))) = ∑ i ∈ window g c p.n (k + 1), p.f i := by
    rw [h1, w0, w1, show k + 1 - (g + 1) = k - g by omega, show k + 1 - (c + g + 1) = k - g - c by omega]
    abel
  refine ⟨_, rfl, fun _ => e, fun h => absurd h (by omega), ?_⟩
  rw [tr_succ, h2, ← e]
  simp only [used, if_neg (show ¬ k + 1 < g + 1 by omega), if_neg (show ¬ k + 1 < g + c + 1 by omega), if_pos hk']

theorem right_at (h : 2 * (c + g) < p.n) (k : ℕ) (st : Tr T) (hk : p.n - (g + c) ≤ k) (hk' : k < p.n) (hst : At p g c k st) :
    ∃ st', right p g c st k = some st' ∧ At p g c (k + 1) st' := by
  obtain ⟨h1, h0, h2⟩ := hst
  obtain ⟨k, rfl⟩ := Nat.exists_eq_succ_of_ne_zero (show k ≠ 0 by omega)
  simp only [Nat.succ_eq_add_one] at *
  have h1 := h1 (by omega)
  rw [Nat.add_sub_cancel] at h1
  unfold right
  rw [get_lt p (i := k + 1 - (g + 1)) (by omega), get_lt p (i := k + 1 - (c + g + 1)) (by omega)]
  have w0 := window_sum p.f g c p.n k (k - g - c) (k - g) (p.n) (by omega) rfl rfl (by omega)
  have w1 := window_sum p.f g c p.n (k + 1) (k - g - c + 1) (k - g + 1) (p.n) (by omega) (by omega) (by omega) (by omega)
  rw [pre_succ, pre_succ] at w1
  by_cases e1 : k + 1 + g < p.n
  · rw [if_pos e1, get_lt p e1]
    rw [max_eq_left (by omega), show k + g + 1 = k + 1 + g by omega] at w0
    rw [max_eq_left (by omega), pre_succ] at w1
    have e : st.1 + (-p.f (k + 1 + g) + p.f (k + 1 - (g + 1)) - p.f (k + 1 - (c + g + 1))) = ∑ i ∈ window g c p.n (k + 1), p.f i := by
      rw [h1, w0, w1, show k + 1 - (g + 1) = k - g by omega, show k + 1 - (c + g + 1) = k - g - c by omega]
      abel
    refine ⟨_, rfl, fun _ => e, fun h => absurd h (by omega), ?_⟩
    rw [tr_succ, h2, ← e]
    simp only [used, if_neg (show ¬ k + 1 < g + 1 by omega), if_neg (show ¬ k + 1 < g + c + 1 by omega), if_neg (show ¬ k + 1 < p.n - (g + c) by omega), if_pos e1]
  · rw [if_neg e1]
    rw [max_eq_right (by omega)] at w0 w1
    have e : st.1 + (p.f (k + 1 - (g + 1)) - p.f (k + 1 - (c + g + 1))) = ∑ i ∈ window g c p.n (k + 1), p.f i := by
      rw [h1, w0, w1, show k + 1 - (g + 1) = k - g by omega, show k + 1 - (c + g + 1) = k - g - c by omega]
      abel
    refine ⟨_, rfl, fun _ => e, fun h => absurd h (by omega), ?_⟩
    rw [tr_succ, h2, ← e]
    simp only [used, if_neg (show ¬ k + 1 < g + 1 by omega), if_neg (show ¬ k + 1 < g + c + 1 by omega), if_neg (show ¬ k + 1 < p.n - (g + c) by omega), if_neg e1]

theorem trace_eq (h : 2 * (c + g) < p.n) : trace p g c = some (tr p g c p.n) := by
  unfold trace
  rw [if_pos h]
  obtain ⟨s1, e1, i1⟩ := loop_inv (At p g c) (g + c + 1) ((0 : T), []) (fun st k => left p g c st k) ⟨fun h => absurd h (by omega), fun _ => rfl, rfl⟩
    (fun k st hk hst => left_at p g c h k st hk hst)
  obtain ⟨s2, e2, i2⟩ := loop_inv (fun k st => At p g c (g + c + 1 + k) st) (p.n - (g + c) - (g + c + 1)) s1 (fun st k => middle p g c st (g + c + 1 + k)) i1
    (fun k st hk hst => middle_at p g c h _ st (by omega) (by omega) hst)
  rw [show g + c + 1 + (p.n - (g + c) - (g + c + 1)) = p.n - (g + c) by omega] at i2
  obtain ⟨s3, e3, i3⟩ := loop_inv (fun k st => At p g c (p.n - (g + c) + k) st) (g + c) s2 (fun st k => right p g c st (p.n - (g + c) + k)) i2
    (fun k st hk hst => right_at p g c h _ st (by omega) (by omega) hst)
  rw [show p.n - (g + c) + (g + c) = p.n by omega] at i3
  rw [e1]
  show (loop _ s1 _).bind _ = _
  rw [e2]
  show (loop _ s2 _).bind _ = _
  rw [e3]
  exact congrArg some i3.2.2

end

/-! ### Lists of places -/

/-- what is written to row `k` -/
def at_ (k : ℕ) (W : List (ℕ × ℕ × ℕ)) : List (ℕ × ℕ) := (W.filter (·.1 == k)).map (·.2)

theorem at_cons (k : ℕ) (w : ℕ × ℕ × ℕ) (W) : at_ k (w :: W) = if w.1 = k then w.2 :: at_ k W else at_ k W := by
  by_cases h : w.1 = k <;> simp [at_, h]

theorem puts_some (cap : ℕ) (W : List (ℕ × ℕ × ℕ)) : ∀ st : Loc, (∀ k, (st k ++ at_ k W).length ≤ cap) → W.foldlM (put cap) st = some fun k => st k ++ at_ k W := by
  induction W with
  | nil => intro st _; simp [at_]
  | cons w W ih =>
    intro st h
    rw [List.foldlM_cons, put, if_pos (by have := h w.1; rw [at_cons, if_pos rfl] at this; simp at this; omega)]
    have key : ∀ k, Function.update st w.1 (st w.1 ++ [w.2]) k ++ at_ k W = st k ++ at_ k (w :: W) := by
      intro k
      rw [at_cons]
      by_cases hk : w.1 = k
      · subst hk; simp
      · rw [if_neg hk, Function.update_of_ne (Ne.symm hk)]
    show W.foldlM (put cap) (Function.update st w.1 (st w.1 ++ [w.2])) = _
    rw [ih _ (fun k => by rw [key]; exact h k)]
    congr 1
    funext k
    exact key k

theorem puts_none (cap : ℕ) (W : List (ℕ × ℕ × ℕ)) : ∀ st : Loc, (∀ k, (st k).length ≤ cap) → (∃ k, cap < (st k ++ at_ k W).length) → W.foldlM (put cap) st = none := by
  induction W with
  | nil => rintro st h0 ⟨k, hk⟩; have := h0 k; simp [at_] at hk; omega
  | cons w W ih =>
    rintro st h0 ⟨k, hk⟩
    rw [List.foldlM_cons, put]
    by_cases hc : (st w.1).length < cap
    · rw [if_pos hc]
      refine ih _ (fun k' => ?_) ⟨k, ?_⟩
      · by_cases h' : k' = w.1
        · subst h'; simp; omega
        · rw [Function.update_of_ne h']; exact h0 k'
      · rw [at_cons] at hk
        by_cases h' : w.1 = k
        · subst h'; simp at hk ⊢; omega
        · rw [if_neg h'] at hk; rwa [Function.update_of_ne (Ne.symm h')]
    · rw [if_neg hc]; rfl

theorem foldlM_flat {σ α β : Type} (f : σ → β → Option σ) (F : α → List β) (L : List α) (s : σ) :
    L.foldlM (fun s a => (F a).foldlM f s) s = (L.flatMap F).foldlM f s := by
  induction L generalizing s with
  | nil => rfl
  | cons a L ih =>
    rw [List.foldlM_cons, List.flatMap_cons, List.foldlM_append]
    congr 1
    funext s
    exact ih s

theorem foldlM_congr {σ β : Type} (f f' : σ → β → Option σ) (L : List β) (h : ∀ s, ∀ b ∈ L, f s b = f' s b) (s : σ) : L.foldlM f s = L.foldlM f' s := by
  induction L generalizing s with
  | nil => rfl
  | cons a L ih =>
    rw [List.foldlM_cons, List.foldlM_cons, h s a (by simp)]
    congr 1
    funext s
    exact ih (fun s b hb => h s b (by simp [hb])) s

theorem foldlM_if {σ α β : Type} (f : σ → β → Option σ) (h : α → Bool) (F : α → β) (L : List α) (s : σ) :
    L.foldlM (fun s a => if h a then f s (F a) else some s) s = ((L.filter h).map F).foldlM f s := by
  induction L generalizing s with
  | nil => rfl
  | cons a L ih =>
    rw [List.foldlM_cons, List.filter_cons]
    cases e : h a
    · simp only [Bool.false_eq_true, if_false]; exact ih s
    · simp only [if_true, List.map_cons, List.foldlM_cons]; congr 1; funext s; exact ih s

theorem at_flat {α : Type} (k : ℕ) (F : α → List (ℕ × ℕ × ℕ)) (L : List α) : at_ k (L.flatMap F) = L.flatMap fun a => at_ k (F a) := by
  simp only [at_, List.filter_flatMap, List.map_flatMap]

theorem flat_if {α β : Type} (h : α → Bool) (F : α → β) (L : List α) : (L.flatMap fun a => if h a then [F a] else []) = (L.filter h).map F := by
  induction L with
  | nil => rfl
  | cons a L ih => rw [List.flatMap_cons, ih, List.filter_cons]; cases h a <;> simp

/-- one gate of one cell -/
theorem at_row (n k : ℕ) (h : ℕ → Bool) (ij : ℕ × ℕ) : at_ k (((List.range n).filter h).map fun k => (k, ij)) = if k < n ∧ h k then [ij] else [] := by
  induction n with
  | zero => simp [at_]
  | succ n ih =>
    have e : at_ k (((List.range (n + 1)).filter h).map fun k => (k, ij)) =
        at_ k (((List.range n).filter h).map fun k => (k, ij)) ++ if n = k ∧ h n then [ij] else [] := by
      rw [List.range_succ, List.filter_append, List.map_append]
      unfold at_
      rw [List.filter_append, List.map_append]
      congr 1
      by_cases hn : h n
      · by_cases hk : n = k
        · subst hk; simp [hn]
        · simp [hn, hk]
      · simp [hn]
    rw [e, ih]
    by_cases hk : n = k
    · subst hk
      by_cases hn : h n <;> simp [hn]
    · have : k < n ↔ k < n + 1 := by omega
      simp [hk, this]

/-- one gate of four cells -/
theorem at_row4 (n k : ℕ) (h : ℕ → Fin 4 → Bool) (ij : Fin 4 → ℕ × ℕ) :
    at_ k ((List.range n).flatMap fun k => ((List.finRange 4).filter (h k)).map fun a => (k, ij a)) =
      if k < n then ((List.finRange 4).filter (h k)).map ij else [] := by
  induction n with
  | zero => simp [at_]
  | succ n ih =>
    rw [List.range_succ, List.flatMap_append, at_, List.filter_append, List.map_append]
    rw [at_] at ih
    rw [ih]
    have e : (List.flatMap (fun k => ((List.finRange 4).filter (h k)).map fun a => (k, ij a)) [n]).filter (·.1 == k) =
        if n = k then ((List.finRange 4).filter (h n)).map fun a => (n, ij a) else [] := by
      simp only [List.flatMap_cons, List.flatMap_nil, List.append_nil, List.filter_map]
      by_cases hk : n = k
      · simp [hk, Function.comp_def]
      · simp [hk, Function.comp_def]
    rw [e]
    by_cases hk : n = k
    · subst hk; simp [List.map_map, Function.comp_def]
    · have : k < n ↔ k < n + 1 := by omega
      simp [hk, this]

theorem range_four (q : ℕ) (h : ℕ → Bool) (i : ℕ) :
    ((List.range (4 * q)).filter h).map (Prod.mk i) =
      (List.range q).flatMap fun t => ((List.finRange 4).filter fun a : Fin 4 => h (4 * t + a)).map fun a : Fin 4 => (i, 4 * t + (a : ℕ)) := by
  induction q with
  | zero => rfl
  | succ q ih =>
    rw [List.range_succ, List.flatMap_append, ← ih, show 4 * (q + 1) = 4 * q + 4 by omega, List.range_add, List.filter_append, List.map_append]
    congr 1
    simp only [List.flatMap_cons, List.flatMap_nil, List.append_nil, List.filter_map, List.map_map]
    rw [show List.range 4 = (List.finRange 4).map (fun a : Fin 4 => (a : ℕ)) from rfl]
    simp only [List.filter_map, List.map_map]
    rfl

/-! ### Convolution -/

theorem unit_mod (N k w : ℕ) (hN : 0 < N) : Dft.unit true N (k % N) w = Dft.unit true N k w := by
  rw [Dft.unit_pow, Dft.unit_pow true N k]
  have h := (Dft.unit_prim true N hN).pow_eq_one
  conv_rhs => rw [← Nat.div_add_mod k N, add_mul, pow_add, mul_assoc, pow_mul, h, one_pow, one_mul]

theorem unit_add (N a b w : ℕ) : Dft.unit true N (a + b) w = Dft.unit true N a w * Dft.unit true N b w := by
  rw [Dft.unit_pow, Dft.unit_pow true N a, Dft.unit_pow true N b, add_mul, pow_add]

theorem sum_shift (N k : ℕ) (hk : k < N) (f : ℕ → ℂ) : ∑ n ∈ range N, f ((n + N - k) % N) = ∑ m ∈ range N, f m := by
  refine Finset.sum_nbij' (fun n => (n + N - k) % N) (fun m => (m + k) % N) ?_ ?_ ?_ ?_ ?_
  · intro n _; exact mem_range.2 (Nat.mod_lt _ (by omega))
  · intro n _; exact mem_range.2 (Nat.mod_lt _ (by omega))
  · intro n hn
    have hn := mem_range.1 hn
    rw [Nat.mod_add_mod, show n + N - k + k = n + N by omega, Nat.add_mod_right, Nat.mod_eq_of_lt hn]
  · intro m hm
    have hm := mem_range.1 hm
    by_cases h : m + k < N
    · rw [Nat.mod_eq_of_lt h, show m + k + N - k = m + N by omega, Nat.add_mod_right, Nat.mod_eq_of_lt hm]
    · rw [Nat.mod_eq_sub_mod (show N ≤ m + k by omega), Nat.mod_eq_of_lt (show m + k - N < N by omega), show m + k - N + N - k = m by omega, Nat.mod_eq_of_lt hm]
  · intro n _; rfl

theorem dft_circ (N : ℕ) (hN : 0 < N) (h x : ℕ → ℂ) (w : ℕ) : Dft.dft1 true N (circ N h x) w = Dft.dft1 true N h w * Dft.dft1 true N x w := by
  unfold Dft.dft1 circ
  simp only [Finset.sum_mul]
  rw [Finset.sum_comm]
  refine Finset.sum_congr rfl fun k hk => ?_
  have hk := mem_range.1 hk
  rw [← sum_shift N k hk (fun m => x m * Dft.unit true N m w), Finset.mul_sum]
  refine Finset.sum_congr rfl fun n hn => ?_
  have e : Dft.unit true N n w = Dft.unit true N k w * Dft.unit true N ((n + N - k) % N) w := by
    rw [unit_mod N _ w hN, ← unit_add, show k + (n + N - k) = n + N by omega, ← unit_mod N (n + N) w hN, Nat.add_mod_right, unit_mod N n w hN]
  rw [e]; ring

theorem inv_fwd (N : ℕ) (h x : ℕ → ℂ) (n : ℕ) (hn : n < N) : inv N (fun w => fwd N h w * fwd N x w) n = circ N h x n := by
  unfold inv fwd
  have : Dft.dft1 false N (fun w => Dft.dft1 true N h w * Dft.dft1 true N x w) n = N * circ N h x n := by
    rw [← Dft.dft1_inv N (circ N h x) n hn]
    exact Dft.dft1_congr _ _ _ _ (fun w _ => (dft_circ N (by omega) h x w).symm) n
  rw [this]
  have : (N : ℂ) ≠ 0 := Nat.cast_ne_zero.2 (by omega)
  field_simp

theorem circ_fir (N K : ℕ) (h x : ℕ → ℂ) (n : ℕ) (hK : K ≤ N) (hn : n < N) (hz : ∀ k, K ≤ k → k < N → h k = 0) :
    circ N h x n = fir K h x n + ∑ k ∈ range K, if n < k then h k * x (n + N - k) else 0 := by
  unfold circ fir
  rw [← Finset.sum_add_distrib]
  rw [← Finset.sum_subset (Finset.range_mono hK) (fun k hk hk' => by
    rw [hz k (by simpa using hk') (mem_range.1 hk), zero_mul])]
  refine Finset.sum_congr rfl fun k hk => ?_
  have hk := mem_range.1 hk
  by_cases hkn : k ≤ n
  · rw [if_pos hkn, if_neg (by omega), show n + N - k = (n - k) + N by omega, Nat.add_mod_right, Nat.mod_eq_of_lt (by omega), add_zero]
  · rw [if_neg hkn, if_pos (by omega), Nat.mod_eq_of_lt (by omega), zero_add]

theorem circ_congr (N : ℕ) (h h' x x' : ℕ → ℂ) (n : ℕ) (hh : ∀ k < N, h k = h' k) (hx : ∀ k < N, x k = x' k) : circ N h x n = circ N h' x' n :=
  Finset.sum_congr rfl fun k hk => by rw [hh k (mem_range.1 hk), hx _ (Nat.mod_lt _ (by have := mem_range.1 hk; omega))]

theorem rows_eq (M : ℕ) (f : ℕ → (ℕ → ℂ) → ℕ → ℂ) (d : ℕ → ℕ → ℂ) (p : ℕ) : rows M f d p = if p < M then f p (d p) else d p := by
  unfold rows
  induction M generalizing p with
  | zero => simp
  | succ M ih =>
    rw [List.range_succ, List.foldl_append]
    simp only [List.foldl_cons, List.foldl_nil]
    by_cases h : p = M
    · subst h
      rw [Function.update_self, ih, if_neg (by omega), if_pos (by omega)]
    · rw [Function.update_of_ne h, ih]
      have : p < M ↔ p < M + 1 := by omega
      simp only [this]

end Verif.Hpec
