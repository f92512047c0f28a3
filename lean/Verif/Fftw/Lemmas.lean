import Verif.Fftw.Model
import Mathlib.Tactic.IntervalCases
import Mathlib.Tactic.FinCases
import Mathlib.Tactic.Ring
import Mathlib.Tactic.Linarith
import Mathlib.Tactic.NormNum

namespace Verif.Fftw
open Verif Lay Dda Verif.Props

theorem int32_small {n : ℕ} (h : n < 2 ^ 31) : int32 n = n := by unfold int32; omega

/-! ## Dimension orders -/

theorem turn_eq {D A : ℕ} (hD : D ≤ 2) (hA : A ≤ D) (s : Fin (D + 1) → ℕ) : turn A s = fun e => s (order A e) := by
  interval_cases D
  · rfl
  · interval_cases A <;> funext e <;> fin_cases e <;> rfl
  · interval_cases A <;> funext e <;> fin_cases e <;> rfl

theorem order_order {D A : ℕ} (hD : D ≤ 2) (hA : A ≤ D) (e : Fin (D + 1)) : order A (order A e) = e := by
  interval_cases D
  · rfl
  · interval_cases A <;> fin_cases e <;> rfl
  · interval_cases A <;> fin_cases e <;> rfl

theorem order_last {D A : ℕ} (hD : D ≤ 2) (hA : A ≤ D) : order A (Fin.last D) = (⟨A, by omega⟩ : Fin (D + 1)) := by
  interval_cases D
  · interval_cases A; rfl
  · interval_cases A <;> rfl
  · interval_cases A <;> rfl

theorem order_id {D : ℕ} (hD : D ≤ 2) : (order D : Fin (D + 1) → Fin (D + 1)) = id := by
  interval_cases D <;> rfl

theorem order_inj {D A : ℕ} (hD : D ≤ 2) (hA : A ≤ D) : Function.Injective (order A : Fin (D + 1) → Fin (D + 1)) := fun a b h => by
  rw [← order_order hD hA a, h, order_order hD hA b]

theorem iosize_turn {D A : ℕ} (hD : D ≤ 2) (hA : A ≤ D) (s : Fin (D + 1) → ℕ) :
    iosize (turn A s) = fun e => half (⟨A, by omega⟩ : Fin (D + 1)) s (order A e) := by
  funext e
  simp only [iosize, half, turn_eq hD hA]
  by_cases h : e = Fin.last D
  · subst h
    rw [Function.update_self, order_last hD hA, Function.update_self]
  · rw [Function.update_of_ne h, Function.update_of_ne]
    intro h'
    rw [← order_last hD hA] at h'
    exact h (order_inj hD hA h')

/-! ## Dense arrays -/

/-- The offset of an element of a dense array with dimension order `o`. -/
def lin : {D : ℕ} → (s : Fin D → ℕ) → (o : Fin D → Fin D) → (i : Fin D → ℕ) → ℕ
  | 1, _, o, i => i (o 0)
  | 2, s, o, i => i (o 0) * s (o 1) + i (o 1)
  | 3, s, o, i => i (o 0) * (s (o 1) * s (o 2)) + i (o 1) * s (o 2) + i (o 2)
  | _, _, _, _ => 0

theorem lin_turn {D : ℕ} (hD : D ≤ 2) (s : Fin (D + 1) → ℕ) (o : Fin (D + 1) → Fin (D + 1)) (i : Fin (D + 1) → ℕ) :
    lin (fun e => s (o e)) id (fun e => i (o e)) = lin s o i := by
  interval_cases D <;> rfl

theorem mix {a b a' b' n : ℕ} (hb : b < n) (hb' : b' < n) (h : a * n + b = a' * n + b') : a = a' ∧ b = b' := by
  have h1 : (a * n + b) / n = a := by rw [Nat.mul_comm, Nat.mul_add_div (by omega), Nat.div_eq_of_lt hb, Nat.add_zero]
  have h2 : (a' * n + b') / n = a' := by rw [Nat.mul_comm, Nat.mul_add_div (by omega), Nat.div_eq_of_lt hb', Nat.add_zero]
  have : a = a' := by rw [← h1, h, h2]
  subst this
  exact ⟨rfl, by omega⟩

theorem lin_inj {D : ℕ} (hD : D ≤ 2) (s : Fin (D + 1) → ℕ) (i j : Fin (D + 1) → ℕ) (hi : Box s i) (hj : Box s j)
    (h : lin s id i = lin s id j) : i = j := by
  interval_cases D
  · funext e; fin_cases e; exact h
  · obtain ⟨h0, h1⟩ := mix (hi 1) (hj 1) h
    funext e; fin_cases e
    · exact h0
    · exact h1
  · have h' : (i 0 * s 1 + i 1) * s 2 + i 2 = (j 0 * s 1 + j 1) * s 2 + j 2 := by
      have := h
      simp only [lin, id] at this
      have e1 : (i 0 * s 1 + i 1) * s 2 + i 2 = i 0 * (s 1 * s 2) + i 1 * s 2 + i 2 := by ring
      have e2 : (j 0 * s 1 + j 1) * s 2 + j 2 = j 0 * (s 1 * s 2) + j 1 * s 2 + j 2 := by ring
      rw [e1, e2]; exact this
    obtain ⟨h0, h2⟩ := mix (hi 2) (hj 2) h'
    obtain ⟨h0, h1⟩ := mix (hi 1) (hj 1) h0
    funext e; fin_cases e
    · exact h0
    · exact h1
    · exact h2

theorem box_turn {D A : ℕ} (hD : D ≤ 2) (hA : A ≤ D) {s i : Fin (D + 1) → ℕ} :
    Box (fun e => s (order A e)) (fun e => i (order A e)) ↔ Box s i := by
  constructor
  · intro h d
    have := h (order A d)
    simpa only [order_order hD hA] using this
  · intro h d
    exact h _

theorem lin_inj_order {D A : ℕ} (hD : D ≤ 2) (hA : A ≤ D) (s i j : Fin (D + 1) → ℕ) (hi : Box s i) (hj : Box s j)
    (h : lin s (order A) i = lin s (order A) j) : i = j := by
  rw [← lin_turn hD s, ← lin_turn hD s] at h
  have := lin_inj hD _ _ _ ((box_turn hD hA).2 hi) ((box_turn hD hA).2 hj) h
  funext d
  have := congrFun this (order A d)
  simpa only [order_order hD hA] using this

/-- Sizes that are positive and whose product fits an `int`. -/
structure Fits {D : ℕ} (s : Fin D → ℕ) : Prop where
  pos : ∀ d, 0 < s d
  lt : ∏ d, s d < 2 ^ 31

theorem Fits.one {D : ℕ} {s : Fin D → ℕ} (h : Fits s) (d : Fin D) : s d < 2 ^ 31 :=
  lt_of_le_of_lt (Finset.single_le_prod' (f := s) (fun e _ => h.pos e) (Finset.mem_univ d)) h.lt

theorem Fits.two {D : ℕ} {s : Fin D → ℕ} (h : Fits s) {d e : Fin D} (hde : d ≠ e) : s d * s e < 2 ^ 31 := by
  refine lt_of_le_of_lt ?_ h.lt
  rw [← Finset.prod_pair hde]
  exact Finset.prod_le_prod_of_subset_of_one_le' (Finset.subset_univ _) (fun i _ _ => h.pos i)

theorem Fits.turn {D A : ℕ} {s : Fin (D + 1) → ℕ} (hD : D ≤ 2) (hA : A ≤ D) (h : Fits s) : Fits fun e => s (order A e) := by
  refine ⟨fun d => h.pos _, ?_⟩
  have := Equiv.prod_comp (Equiv.ofBijective _ (Finite.injective_iff_bijective.1 (order_inj hD hA))) s
  simp only [Equiv.ofBijective_apply] at this
  rw [this]; exact h.lt

theorem Fits.half {D : ℕ} {s : Fin D → ℕ} (h : Fits s) (A : Fin D) : Fits (half A s) := by
  have hle : ∀ d, Verif.Fftw.half A s d ≤ s d := by
    intro d
    unfold Verif.Fftw.half
    by_cases e : d = A
    · subst e; rw [Function.update_self]; have := h.pos d; omega
    · rw [Function.update_of_ne e]
  refine ⟨fun d => ?_, lt_of_le_of_lt (Finset.prod_le_prod' fun d _ => hle d) h.lt⟩
  unfold Verif.Fftw.half
  by_cases e : d = A
  · subst e; rw [Function.update_self]; omega
  · rw [Function.update_of_ne e]; exact h.pos d

theorem adjust_dense {D : ℕ} (o : Fin D → Fin D) (al e n : ℕ) : rtAdjust (⟨.dense, o, al⟩ : RtLayout D) e n = n := by
  simp [rtAdjust, Packing.isAligned]

theorem wlt {n : ℕ} (h : n < 2 ^ 31) : w n = n := Nat.mod_eq_of_lt (by omega)

/-- The layouts that are asked for: dense in two and three dimensions. -/
theorem copy_stride {D A al e : ℕ} {un : Bool} (hD : D ≤ 2) (hA : A ≤ D) (hun : D ≠ 0 → un = true) {s : Fin (D + 1) → ℕ} (hs : Fits s)
    (i : Fin (D + 1) → ℕ) : addr (fun d => ((applied (D + 1) (query al un (order A)) s e).stride d : ℤ)) i = lin s (order A) i := by
  interval_cases D
  · simp [applied, rt1, addr, lin, order]
  · obtain rfl := hun (by omega)
    interval_cases A <;>
    · simp [applied, rt2, addr, lin, order, query, adjust_dense, Fin.sum_univ_two, Function.update]
      try ring
  · obtain rfl := hun (by omega)
    have w01 := wlt (hs.two (show (0 : Fin 3) ≠ 1 by decide))
    have w02 := wlt (hs.two (show (0 : Fin 3) ≠ 2 by decide))
    have w12 := wlt (hs.two (show (1 : Fin 3) ≠ 2 by decide))
    have w10 := wlt (hs.two (show (1 : Fin 3) ≠ 0 by decide))
    have w20 := wlt (hs.two (show (2 : Fin 3) ≠ 0 by decide))
    have w21 := wlt (hs.two (show (2 : Fin 3) ≠ 1 by decide))
    interval_cases A <;>
    · simp [applied, rt3, addr, lin, order, query, adjust_dense, Fin.sum_univ_three, strides3, *]
      try ring

theorem lin_lt {D : ℕ} (hD : D ≤ 2) {s : Fin (D + 1) → ℕ} (hs : Fits s) {i : Fin (D + 1) → ℕ} (hi : Box s i) : lin s id i < ∏ d, s d := by
  interval_cases D
  · simpa [lin] using hi 0
  · have h0 := hi 0
    have h1 := hi 1
    rw [Fin.prod_univ_two]
    simp only [lin, id]
    nlinarith
  · have h0 := hi 0
    have h1 := hi 1
    have h2 := hi 2
    rw [Fin.prod_univ_three]
    simp only [lin, id]
    have a : (i 1 + 1) * s 2 ≤ s 1 * s 2 := Nat.mul_le_mul_right _ h1
    have b : (i 0 + 1) * (s 1 * s 2) ≤ s 0 * (s 1 * s 2) := Nat.mul_le_mul_right _ h0
    rw [Nat.mul_assoc]
    nlinarith

theorem lin_lt_order {D A : ℕ} (hD : D ≤ 2) (hA : A ≤ D) {s : Fin (D + 1) → ℕ} (hs : Fits s) {i : Fin (D + 1) → ℕ} (hi : Box s i) :
    lin s (order A) i < ∏ d, s d := by
  rw [← lin_turn hD s]
  refine lt_of_lt_of_eq (lin_lt hD (hs.turn hD hA) ((box_turn hD hA).2 hi)) ?_
  exact Equiv.prod_comp (Equiv.ofBijective _ (Finite.injective_iff_bijective.1 (order_inj hD hA))) s

theorem ord30 : (order 0 : Fin 3 → Fin 3) = ![2, 1, 0] := rfl
theorem ord31 : (order 1 : Fin 3 → Fin 3) = ![0, 2, 1] := rfl
theorem ord32 : (order 2 : Fin 3 → Fin 3) = id := rfl

theorem copy_index {D A al e : ℕ} {un : Bool} (hD : D ≤ 2) (hA : A ≤ D) (hun : D ≠ 0 → un = true) {s : Fin (D + 1) → ℕ} (hs : Fits s)
    {i : Fin (D + 1) → ℕ} (hi : Box s i) : (applied (D + 1) (query al un (order A)) s e).index i = lin s (order A) i := by
  have hl : lin s (order A) i < 2 ^ 31 := (lin_lt_order hD hA hs hi).trans hs.lt
  have key : (applied (D + 1) (query al un (order A)) s e).index i = w (lin s (order A) i) := by
    have := copy_stride (al := al) (e := e) hD hA hun hs i
    interval_cases D
    · simp [applied, rt1, lin, query]
    · obtain rfl := hun (by omega)
      interval_cases A <;> simp [applied, rt2, lin, order, query, adjust_dense, Function.update]
    · obtain rfl := hun (by omega)
      have w01 := wlt (hs.two (show (0 : Fin 3) ≠ 1 by decide))
      have w02 := wlt (hs.two (show (0 : Fin 3) ≠ 2 by decide))
      have w12 := wlt (hs.two (show (1 : Fin 3) ≠ 2 by decide))
      have w10 := wlt (hs.two (show (1 : Fin 3) ≠ 0 by decide))
      have w20 := wlt (hs.two (show (2 : Fin 3) ≠ 0 by decide))
      have w21 := wlt (hs.two (show (2 : Fin 3) ≠ 1 by decide))
      interval_cases A <;> simp [applied, rt3, lin, ord30, ord31, ord32, query, adjust_dense, strides3, *]
  rw [key, wlt hl]

theorem plan_size {D al sc : ℕ} {un : Bool} (s : Fin (D + 1) → ℕ) (hD : D ≤ 2) :
    (applied (D + 1) (planLayout al un) s sc).size = s := by interval_cases D <;> rfl

theorem stride_lt {D al sc : ℕ} {un : Bool} (hD : D ≤ 2) (hun : D ≠ 0 → un = true) {s : Fin (D + 1) → ℕ} (hs : Fits s) (d : Fin (D + 1)) :
    (applied (D + 1) (planLayout al un) s sc).stride d < 2 ^ 31 := by
  interval_cases D
  · simp [applied, rt1]
  · obtain rfl := hun (by omega)
    have := hs.one 1
    fin_cases d <;> simp [applied, rt2, planLayout, adjust_dense, Function.update] <;> omega
  · obtain rfl := hun (by omega)
    have := hs.one 2
    have h := hs.two (show (1 : Fin 3) ≠ 2 by decide)
    have w12 := wlt h
    fin_cases d <;> simp [applied, rt3, planLayout, adjust_dense, strides3, w12] <;> omega

theorem plan_addr {D al sc : ℕ} {un : Bool} (hD : D ≤ 2) (hun : D ≠ 0 → un = true) {s : Fin (D + 1) → ℕ} (hs : Fits s) (i : Fin (D + 1) → ℕ) :
    addr (fun d => int32 ((applied (D + 1) (planLayout al un) s sc).stride d)) i = lin s id i := by
  have h1 : (fun d => int32 ((applied (D + 1) (planLayout al un) s sc).stride d)) =
      fun d => ((applied (D + 1) (query al un (order D)) s sc).stride d : ℤ) := by
    funext d
    rw [int32_small (stride_lt hD hun hs d), order_id hD]
    rfl
  rw [h1, copy_stride hD le_rfl hun hs, order_id hD]

theorem signed_eq {n : ℕ} (h : n < 2 ^ 31) : toSigned n = n := signed_small (by omega)

theorem direct_addr {D A al e ptr : ℕ} {un : Bool} (hD : D ≤ 2) (hA : A ≤ D) (hun : D ≠ 0 → un = true) {s : Fin (D + 1) → ℕ} (hs : Fits s)
    {st : Fin (D + 1) → ℤ} {o : Fin (D + 1) → Fin (D + 1)} (h : compat (D + 1) (query al un (order A)) s e ptr st o = true)
    {i : Fin (D + 1) → ℕ} (hi : Box s i) : addr st i = lin s (order A) i := by
  interval_cases D
  · have h1 : st 0 = 1 := by
      cases un
      · simp only [compat, query, Bool.false_eq_true, if_false] at h
        rw [if_neg (by decide)] at h
        split at h
        · simp at h
        · simpa using h
      · simpa [compat, query, compatDense1] using h
    simp [addr, lin, h1, order]
  · obtain rfl := hun (by omega)
    have h0 := hi 0
    have h1 := hi 1
    have e0 := signed_eq (hs.one 0)
    have e1 := signed_eq (hs.one 1)
    interval_cases A
    · simp only [compat, query, if_true, compatDense2] at h
      split at h
      · simp at h
      · rename_i hne
        simp only [ne_eq, not_not, Prod.mk.injEq] at hne
        rw [hne.1, hne.2] at h
        simp [order] at h
        simp only [addr, lin, Fin.sum_univ_two, order]
        simp
        obtain ⟨h2, h3 | h3⟩ := h
        · rw [h2, h3, e0]; ring
        · have : i 1 = 0 := by omega
          simp [h2, this]
    · simp only [compat, query, if_true, compatDense2] at h
      split at h
      · simp at h
      · rename_i hne
        simp only [ne_eq, not_not, Prod.mk.injEq] at hne
        rw [hne.1, hne.2] at h
        simp [order] at h
        simp only [addr, lin, Fin.sum_univ_two, order]
        simp
        obtain ⟨h2, h3 | h3⟩ := h
        · rw [h2, h3, e1]; ring
        · have : i 0 = 0 := by omega
          simp [h2, this]
  · obtain rfl := hun (by omega)
    have h0 := hi 0
    have h1 := hi 1
    have h2 := hi 2
    have e0 := signed_eq (hs.one 0)
    have e1 := signed_eq (hs.one 1)
    have e2 := signed_eq (hs.one 2)
    have w12 := signed_eq (hs.two (show (1 : Fin 3) ≠ 2 by decide))
    have w10 := signed_eq (hs.two (show (1 : Fin 3) ≠ 0 by decide))
    have w21 := signed_eq (hs.two (show (2 : Fin 3) ≠ 1 by decide))
    have v12 := wlt (hs.two (show (1 : Fin 3) ≠ 2 by decide))
    have v10 := wlt (hs.two (show (1 : Fin 3) ≠ 0 by decide))
    have v21 := wlt (hs.two (show (2 : Fin 3) ≠ 1 by decide))
    interval_cases A
    all_goals
      simp only [compat, query, if_true, compatDense3] at h
      split at h
      · simp at h
      · rename_i hne
        simp only [ne_eq, not_not, Prod.mk.injEq] at hne
        rw [hne.1, hne.2.1, hne.2.2] at h
        simp [order, e0, e1, e2, v12, v10, v21, w12, w10, w21] at h
        rw [show addr st i = (i 0 : ℤ) * st 0 + i 1 * st 1 + i 2 * st 2 from Fin.sum_univ_three _]
        simp [lin, ord30, ord31, ord32]
        obtain ⟨⟨h5, h4⟩, h3⟩ := h
        rw [h3]
        rcases h5 with h5 | h5
        · rcases h4 with h4 | h4
          · rw [h5, h4]; push_cast; ring
          · have a : i 0 = 0 ∨ s 0 ≠ 1 := by omega
            have b : i 1 = 0 ∨ s 1 ≠ 1 := by omega
            have c : i 2 = 0 ∨ s 2 ≠ 1 := by omega
            simp [h4] at a b c
            simp [*]
        · have a : i 0 = 0 ∨ s 0 ≠ 1 := by omega
          have b : i 1 = 0 ∨ s 1 ≠ 1 := by omega
          have c : i 2 = 0 ∨ s 2 ≠ 1 := by omega
          simp [h5] at a b c
          rcases h4 with h4 | h4
          · rw [h4]; simp [*]; try ring
          · simp [h4] at a b c
            simp [*]

/-! ## Handing over arrays -/

theorem visited_mem {D : ℕ} (hD : D ≤ 2) (s : Fin (D + 1) → ℕ) (i : Fin (D + 1) → ℕ) : i ∈ visited s ↔ Box s i := by
  have h : ∃ L, Visits s L := visits_exist (D + 1) (by omega) (by omega) s
  have e : visited s = h.choose := by unfold visited; rw [dif_pos h]
  rw [e]
  exact (visits_all h.choose_spec).2 i

section
variable {D A al : ℕ} {un : Bool} (hD : D ≤ 2) (hA : A ≤ D) (hun : D ≠ 0 → un = true)
include hD hA hun

theorem in_mem {force : Bool} {buf : Buf} {b : Blk (D + 1)} (hs : Fits b.size) {i : Fin (D + 1) → ℕ} (hi : Box b.size i) :
    (accessIn (query al un (order A)) force buf b).mem (lin b.size (order A) i) = b.get i := by
  unfold accessIn
  by_cases hd : direct (query al un (order A)) force b = true
  · rw [if_pos hd]
    unfold direct at hd
    unfold Blk.arr Blk.get
    cases hst : b.store with
    | none => rw [hst] at hd; simp at hd
    | some st =>
      rw [hst] at hd
      simp only [Bool.and_eq_true] at hd
      simp only
      rw [direct_addr hD hA hun hs hd.2 hi]
  · rw [if_neg hd]
    simp only [Int.toNat_natCast]
    rw [← copy_index (al := al) (e := b.elem) hD hA hun hs hi]
    refine toBuffer_at _ _ _ _ ?_ i ((visited_mem hD _ _).2 hi)
    intro x hx y hy h
    rw [visited_mem hD] at hx hy
    rw [copy_index hD hA hun hs hx, copy_index hD hA hun hs hy] at h
    exact lin_inj_order hD hA _ _ _ hx hy h

theorem out_mem {buf : Buf} {b : Blk (D + 1)} (hs : Fits b.size) {i : Fin (D + 1) → ℕ} (hi : Box b.size i) (m : ℤ → ℂ) :
    release (query al un (order A)) true (accessOut (query al un (order A)) buf b) m b i = m (lin b.size (order A) i) := by
  unfold release accessOut
  by_cases hd : direct (query al un (order A)) false b = true
  · rw [if_pos hd]
    unfold direct at hd
    unfold Blk.arr
    cases hst : b.store with
    | none => rw [hst] at hd; simp at hd
    | some st =>
      rw [hst] at hd
      simp only [Bool.and_eq_true] at hd
      simp only [if_true]
      rw [direct_addr hD hA hun hs hd.2 hi]
  · rw [if_neg hd]
    simp only [Bool.false_eq_true, if_false, if_true]
    rw [toBlock_at _ _ _ _ _ ((visited_mem hD _ _).2 hi), copy_index hD hA hun hs hi]

theorem inout_mem {buf : Buf} {b : Blk (D + 1)} (hs : Fits b.size) {i : Fin (D + 1) → ℕ} (hi : Box b.size i) (m : ℤ → ℂ) :
    release (query al un (order A)) true (accessIn (query al un (order A)) false buf b) m b i = m (lin b.size (order A) i) := by
  rw [← out_mem (al := al) (un := un) hD hA hun (buf := buf) hs hi m]
  unfold release accessIn accessOut
  by_cases hd : direct (query al un (order A)) false b = true
  · simp only [if_pos hd]
  · simp only [if_neg hd, Bool.false_eq_true, if_false]

end

theorem in_kept {D : ℕ} {l : RtLayout D} {force : Bool} {buf : Buf} {b : Blk D} (m : ℤ → ℂ)
    (h : direct l force b = true → m = (accessIn l force buf b).mem) : release l false (accessIn l force buf b) m b = b.get := by
  unfold release
  by_cases hd : direct l force b = true
  · have hm := h hd
    subst hm
    unfold accessIn
    rw [if_pos hd]
    unfold direct at hd
    funext i
    unfold Blk.arr Blk.get
    cases hst : b.store with
    | none => rw [hst] at hd; simp at hd
    | some st => simp
  · have : (accessIn l force buf b).direct = false := by unfold accessIn; rw [if_neg hd]
    rw [this]; simp

theorem ptr_aligned {simd : ℤ} {al e ptr : ℕ} (hal : simd ∣ (al : ℤ)) {s : Fin 1 → ℕ} {st : Fin 1 → ℤ} {o o' : Fin 1 → Fin 1}
    (h : compat 1 (query al false o) s e ptr st o' = true) : simd ∣ (ptr : ℤ) := by
  simp only [compat, query, Bool.false_eq_true, if_false] at h
  rw [if_neg (by decide)] at h
  split at h
  · simp at h
  · rename_i hp
    rw [not_not] at hp
    exact hal.trans (Int.natCast_dvd_natCast.2 (Nat.dvd_of_mod_eq_zero hp))

theorem in_aligned {simd : ℤ} {D al : ℕ} {un : Bool} {o : Fin (D + 1) → Fin (D + 1)} (hun : D ≠ 0 → un = true) (hal : simd ∣ (al : ℤ)) {force : Bool}
    {buf : Buf} (hb : simd ∣ (buf.ptr : ℤ)) {b : Blk (D + 1)} (h : un = false) : simd ∣ (accessIn (query al un o) force buf b).ptr := by
  subst h
  by_cases hD : D = 0
  · subst hD
    unfold accessIn
    by_cases hd : direct (query al false o) force b = true
    · rw [if_pos hd]
      unfold direct at hd
      unfold Blk.arr
      cases hst : b.store with
      | none => rw [hst] at hd; simp at hd
      | some st =>
        rw [hst] at hd
        simp only [Bool.and_eq_true] at hd
        exact ptr_aligned hal hd.2
    · rw [if_neg hd]; exact hb
  · exact absurd (hun hD) (by simp)

theorem out_aligned {simd : ℤ} {D al : ℕ} {un : Bool} {o : Fin (D + 1) → Fin (D + 1)} (hun : D ≠ 0 → un = true) (hal : simd ∣ (al : ℤ))
    {buf : Buf} (hb : simd ∣ (buf.ptr : ℤ)) {b : Blk (D + 1)} (h : un = false) : simd ∣ (accessOut (query al un o) buf b).ptr := by
  have := in_aligned (o := o) hun hal (force := false) hb (b := b) h
  have e : (accessOut (query al un o) buf b).ptr = (accessIn (query al un o) false buf b).ptr := by
    unfold accessOut accessIn
    by_cases hd : direct (query al un o) false b = true
    · rw [if_pos hd, if_pos hd]
    · rw [if_neg hd, if_neg hd]
  rw [e]; exact this

theorem flags_un {D al elem n number : ℕ} {pr : Bool} (h : D ≠ 0) : (flagsFor (D + 1) al elem n number pr).unaligned = true := by
  unfold flagsFor
  rw [if_neg (by omega)]
  rfl

/-! ## Transforms -/

theorem dft_congr {D : ℕ} {n : Fin D → ℕ} {sgn : ℤ} {x y : (Fin D → ℕ) → ℂ} (h : ∀ j, Box n j → x j = y j) (k : Fin D → ℕ) :
    dft n sgn x k = dft n sgn y k := by
  unfold dft
  refine Finset.sum_congr rfl fun j hj => ?_
  rw [h j fun d => by simpa using (Fintype.mem_piFinset.1 hj) d]

theorem dft_turn {D : ℕ} {o : Fin D → Fin D} (ho : ∀ e, o (o e) = e) (n : Fin D → ℕ) (sgn : ℤ) (x : (Fin D → ℕ) → ℂ) (k : Fin D → ℕ) :
    dft (fun e => n (o e)) sgn (fun j => x fun d => j (o d)) (fun e => k (o e)) = dft n sgn x k := by
  unfold dft
  refine Finset.sum_nbij' (fun j d => j (o d)) (fun j d => j (o d)) ?_ ?_ ?_ ?_ ?_
  · intro j hj
    rw [Fintype.mem_piFinset] at hj ⊢
    intro d
    simpa only [ho] using hj (o d)
  · intro j hj
    rw [Fintype.mem_piFinset] at hj ⊢
    intro d
    exact hj (o d)
  · intro j _; funext d; simp only [ho]
  · intro j _; funext d; simp only [ho]
  · intro j _
    dsimp only
    congr 3
    have := Equiv.sum_comp (⟨o, o, ho, ho⟩ : Fin D ≃ Fin D) (fun d => (j (o d) : ℂ) * (k d : ℂ) / (n d : ℂ))
    simp only [Equiv.coe_fn_mk, ho] at this
    exact this

theorem scaled_at {D : ℕ} (c : ℝ) (v : (Fin D → ℕ) → ℂ) (i : Fin D → ℕ) : scaled c v i = c * v i := by
  unfold scaled
  by_cases h : c = 1
  · simp [h]
  · rw [if_pos h, mul_comm]

theorem size_c2c {D al sc : ℕ} {s : Fin (D + 1) → ℕ} (hD : D ≤ 2) (hs : Fits s) (sgn : ℤ) (f : Flags) : (planC2C al sc s sgn f).size = s := by
  funext d
  simp only [Plan.size, planC2C, plan_size s hD]
  rw [int32_small (hs.one d)]; rfl

theorem ok_c2c {D al sc : ℕ} {s : Fin (D + 1) → ℕ} (hD : D ≤ 2) (hs : Fits s) (sgn : ℤ) (f : Flags) (hun : D ≠ 0 → f.unaligned = true) :
    (planC2C al sc s sgn f).Ok := by
  refine ⟨fun d => ?_, fun k k' hk hk' h => ?_⟩
  · simp only [planC2C, plan_size s hD]
    rw [int32_small (hs.one d)]
    have := hs.pos d
    omega
  · have e : (planC2C al sc s sgn f).outSize = s := size_c2c hD hs sgn f
    rw [e] at hk hk'
    simp only [planC2C] at h
    rw [plan_addr hD hun hs, plan_addr hD hun hs] at h
    exact lin_inj hD s k k' hk hk' (by exact_mod_cast h)

theorem size_r2c {D A al sc : ℕ} {s : Fin (D + 1) → ℕ} (hD : D ≤ 2) (hA : A ≤ D) (hs : Fits s) (f : Flags) :
    (planR2C al sc s A f).size = fun e => s (order A e) := by
  funext d
  simp only [Plan.size, planR2C, plan_size _ hD]
  rw [turn_eq hD hA, int32_small (hs.one _)]; rfl

theorem size_c2r {D A al sc : ℕ} {s : Fin (D + 1) → ℕ} (hD : D ≤ 2) (hA : A ≤ D) (hs : Fits s) (f : Flags) :
    (planC2R al sc s A f).size = fun e => s (order A e) := by
  funext d
  simp only [Plan.size, planC2R, plan_size _ hD]
  rw [turn_eq hD hA, int32_small (hs.one _)]; rfl

theorem iosize_order {D A : ℕ} (hD : D ≤ 2) (hA : A ≤ D) (s : Fin (D + 1) → ℕ) :
    iosize (fun e => s (order A e)) = fun e => half (⟨A, by omega⟩ : Fin (D + 1)) s (order A e) := by
  rw [← iosize_turn hD hA, turn_eq hD hA]

theorem ok_r2c {D A al sc : ℕ} {s : Fin (D + 1) → ℕ} (hD : D ≤ 2) (hA : A ≤ D) (hs : Fits s) (f : Flags) (hun : D ≠ 0 → f.unaligned = true) :
    (planR2C al sc s A f).Ok := by
  refine ⟨fun d => ?_, fun k k' hk hk' h => ?_⟩
  · simp only [planR2C, plan_size _ hD]
    rw [turn_eq hD hA, int32_small (hs.one _)]
    have := hs.pos (order A d)
    omega
  · have e : (planR2C al sc s A f).outSize = iosize (planR2C al sc s A f).size := rfl
    rw [e, size_r2c hD hA hs, iosize_order hD hA] at hk hk'
    simp only [planR2C] at h
    rw [iosize_turn hD hA, plan_addr hD hun ((hs.half _).turn hD hA), plan_addr hD hun ((hs.half _).turn hD hA)] at h
    exact lin_inj hD _ k k' hk hk' (by exact_mod_cast h)

theorem ok_c2r {D A al sc : ℕ} {s : Fin (D + 1) → ℕ} (hD : D ≤ 2) (hA : A ≤ D) (hs : Fits s) (f : Flags) (hun : D ≠ 0 → f.unaligned = true) :
    (planC2R al sc s A f).Ok := by
  refine ⟨fun d => ?_, fun k k' hk hk' h => ?_⟩
  · simp only [planC2R, plan_size _ hD]
    rw [turn_eq hD hA, int32_small (hs.one _)]
    have := hs.pos (order A d)
    omega
  · have e : (planC2R al sc s A f).outSize = (planC2R al sc s A f).size := rfl
    rw [e, size_c2r hD hA hs] at hk hk'
    simp only [planC2R] at h
    rw [turn_eq hD hA, plan_addr hD hun (hs.turn hD hA), plan_addr hD hun (hs.turn hD hA)] at h
    exact lin_inj hD _ k k' hk hk' (by exact_mod_cast h)

end Verif.Fftw
