import Verif.Py.Model
import Verif.Domain.Lemmas
import Mathlib.Tactic.Ring
import Mathlib.Tactic.Linarith
import Mathlib.Tactic.Push
import Mathlib.Tactic.FinCases
import Mathlib.Data.Fin.VecNotation
import Mathlib.Data.Fintype.Basic

/-! Lemmas on slices and addresses. -/

namespace Verif.Py

open Verif (Dom toIdx toSigned FitsSigned)

theorem up_core {start stop step : ℤ} (h : 0 < step) (k : ℕ) :
    k < lenOf start stop step ↔ start + k * step < stop := by
  rw [lenOf, if_neg (show ¬ step < 0 by omega)]
  by_cases hs : stop ≤ start
  · rw [if_pos (Or.inr ⟨h, hs⟩)]
    have : 0 ≤ (k : ℤ) * step := Int.mul_nonneg (by omega) (by omega)
    constructor
    · intro h; simp at h
    · intro h; omega
  · rw [if_neg (by rintro (⟨h1, _⟩ | ⟨_, h1⟩) <;> omega)]
    have hq : (k : ℤ) ≤ (stop - start - 1) / step ↔ (k : ℤ) * step ≤ stop - start - 1 := Int.le_ediv_iff_mul_le h
    have h0 : 0 ≤ (stop - start - 1) / step := Int.ediv_nonneg (by omega) (by omega)
    generalize (stop - start - 1) / step = q at hq h0 ⊢
    generalize (k : ℤ) * step = p at hq ⊢
    omega

theorem down_core {start stop step : ℤ} (h : step < 0) (k : ℕ) :
    k < lenOf start stop step ↔ stop < start + k * step := by
  rw [lenOf, if_pos h]
  by_cases hs : start ≤ stop
  · rw [if_pos (Or.inl ⟨h, hs⟩)]
    have : (k : ℤ) * step ≤ 0 := Int.mul_nonpos_of_nonneg_of_nonpos (by omega) (by omega)
    constructor
    · intro h; simp at h
    · intro h; omega
  · rw [if_neg (by rintro (⟨_, h1⟩ | ⟨h1, _⟩) <;> omega)]
    have hq : (k : ℤ) ≤ (start - stop - 1) / -step ↔ (k : ℤ) * -step ≤ start - stop - 1 := Int.le_ediv_iff_mul_le (by omega)
    have h0 : 0 ≤ (start - stop - 1) / -step := Int.ediv_nonneg (by omega) (by omega)
    rw [Int.mul_neg] at hq
    generalize (start - stop - 1) / -step = q at hq h0 ⊢
    generalize (k : ℤ) * step = p at hq ⊢
    omega

/-- The list of the indices `start, start + step, …`. -/
def prog (start step : ℤ) (len : ℕ) : List ℕ := (List.range len).map fun k : ℕ => (start + (k : ℤ) * step).toNat

theorem prog_length (start step : ℤ) (len : ℕ) : (prog start step len).length = len := by simp [prog]

theorem prog_get {start step : ℤ} {len k : ℕ} (h : k < (prog start step len).length) : (prog start step len)[k] = (start + k * step).toNat := by
  simp [prog]

theorem prog_up {start step : ℤ} {len : ℕ} (h : 0 < step) (hr : ∀ k < len, 0 ≤ start + (k : ℤ) * step) : (prog start step len).Pairwise (· < ·) := by
  rw [List.pairwise_iff_getElem]
  intro i j hi hj hij
  rw [prog_get, prog_get]
  rw [prog_length] at hi hj
  have h1 := hr i hi
  have h2 := hr j hj
  have h3 : (i : ℤ) * step < j * step := Int.mul_lt_mul_of_pos_right (by omega) h
  omega

theorem prog_down {start step : ℤ} {len : ℕ} (h : step < 0) (hr : ∀ k < len, 0 ≤ start + (k : ℤ) * step) : (prog start step len).Pairwise (· > ·) := by
  rw [List.pairwise_iff_getElem]
  intro i j hi hj hij
  rw [prog_get, prog_get]
  rw [prog_length] at hi hj
  have h1 := hr i hi
  have h2 := hr j hj
  have h3 : (j : ℤ) * step < i * step := Int.mul_lt_mul_of_neg_right (by omega) h
  omega

theorem mem_prog {start step : ℤ} {len x : ℕ} (hr : ∀ k < len, 0 ≤ start + (k : ℤ) * step) :
    x ∈ prog start step len ↔ ∃ k < len, (x : ℤ) = start + (k : ℤ) * step := by
  simp only [prog, List.mem_map, List.mem_range]
  constructor
  · rintro ⟨k, hk, rfl⟩
    exact ⟨k, hk, by have := hr k hk; omega⟩
  · rintro ⟨k, hk, hx⟩
    exact ⟨k, hk, by omega⟩

theorem clamp_up {step : ℤ} (h : 0 < step) (n : ℕ) (i : ℤ) : clamp step n i = min (n : ℤ) (max 0 (norm n i)) := by
  simp only [clamp, norm, if_neg (show ¬ step < 0 by omega)]
  split_ifs <;> omega

theorem clamp_down {step : ℤ} (h : step < 0) (n : ℕ) (i : ℤ) : clamp step n i = min ((n : ℤ) - 1) (max (-1) (norm n i)) := by
  simp only [clamp, norm, if_pos h]
  split_ifs <;> omega

/-- What `PySlice_GetIndicesEx` computes. -/
theorem getIndices_spec {s : Slice} {n : ℕ} (h : s.step.getD 1 ≠ 0) :
    ∃ start len, getIndices s n = some (start, s.step.getD 1, len) ∧ -1 ≤ start ∧ start ≤ n ∧
      (∀ k < len, 0 ≤ start + (k : ℤ) * s.step.getD 1 ∧ start + (k : ℤ) * s.step.getD 1 < n) ∧ Selects s n (prog start (s.step.getD 1) len) := by
  simp only [getIndices, if_neg h]
  generalize hstep : s.step.getD 1 = step at h ⊢
  rcases lt_or_gt_of_ne h with hneg | hpos
  · -- downwards
    refine ⟨_, _, rfl, ?_⟩
    have hlen := down_core (start := startOf step n s.start) (stop := stopOf step n s.stop) hneg
    generalize hst : startOf step n s.start = start at hlen ⊢
    generalize hsp : stopOf step n s.stop = stop at hlen ⊢
    generalize lenOf start stop step = len at hlen ⊢
    have hs1 : start = max (-1) (top n s.start) := by
      rw [← hst]; cases s.start with
      | none => simp only [startOf, top, if_pos hneg]; omega
      | some i => simp only [startOf, top, clamp_down hneg]; omega
    have hs2 : -1 ≤ start ∧ start ≤ (n : ℤ) - 1 := by
      rw [hs1]; cases s.start with
      | none => simp only [top]; omega
      | some i => simp only [top]; omega
    have hp1 : -1 ≤ stop := by
      rw [← hsp]; cases s.stop with
      | none => simp [startOf, stopOf, hneg]
      | some i => simp only [startOf, stopOf, clamp_down hneg]; omega
    have hr : ∀ k < len, 0 ≤ start + (k : ℤ) * step ∧ start + (k : ℤ) * step < n := by
      intro k hk
      have h1 := (hlen k).1 hk
      have h2 : (k : ℤ) * step ≤ 0 := Int.mul_nonpos_of_nonneg_of_nonpos (by omega) (by omega)
      omega
    refine ⟨hs2.1, by omega, hr, ⟨?_, ?_⟩⟩
    · intro k hk hk0; omega
    · intro k hk _
      obtain rfl : k = step := hk.symm.trans hstep
      refine ⟨prog_down hneg fun k hk => (hr k hk).1, ?_⟩
      intro x
      rw [mem_prog fun k hk => (hr k hk).1]
      have hhi : (x : ℤ) < n → ((x : ℤ) ≤ top n s.start ↔ (x : ℤ) ≤ start) := by
        rw [hs1]; cases s.start with
        | none => intro _; simp only [top]; omega
        | some i => intro _; simp only [top]; omega
      have heq : (x : ℤ) ≤ start → 0 ≤ (x : ℤ) → top n s.start = start := by
        rw [hs1]; cases s.start with
        | none => simp only [top]; omega
        | some i => simp only [top]; omega
      have hlo : (x : ℤ) < n → ((∀ j ∈ s.stop, norm n j < (x : ℤ)) ↔ stop < (x : ℤ)) := by
        rw [← hsp]
        intro hxn
        cases s.stop with
        | none => simp [stopOf, hneg]; omega
        | some j => simp only [Option.mem_def, Option.some.injEq, forall_eq', stopOf, clamp_down hneg]; omega
      simp only [SelDown]
      constructor
      · rintro ⟨j, hj, hx⟩
        obtain ⟨h1, h2⟩ := hr j hj
        have h3 := (hlen j).1 hj
        have h4 : (j : ℤ) * k ≤ 0 := Int.mul_nonpos_of_nonneg_of_nonpos (by omega) (by omega)
        have h5 : (x : ℤ) ≤ start := by omega
        refine ⟨by omega, by omega, (hhi (by omega)).2 h5, (hlo (by omega)).2 (by omega), ?_⟩
        rw [heq h5 (by omega)]
        exact ⟨j, by rw [hx]; ring⟩
      · rintro ⟨h1, h2, h3, h4, h5⟩
        have h6 := (hhi h2).1 h3
        rw [heq h6 h1] at h5
        obtain ⟨q, hq⟩ := h5
        have hq0 : 0 ≤ q := by
          by_contra hcon
          have : 0 < k * q := Int.mul_pos_of_neg_of_neg hneg (by omega)
          omega
        refine ⟨q.toNat, ?_, ?_⟩
        · rw [hlen, Int.toNat_of_nonneg hq0, Int.mul_comm]
          have := (hlo h2).1 h4; omega
        · rw [Int.toNat_of_nonneg hq0, Int.mul_comm]; omega
  · -- upwards
    refine ⟨_, _, rfl, ?_⟩
    have hlen := up_core (start := startOf step n s.start) (stop := stopOf step n s.stop) hpos
    generalize hst : startOf step n s.start = start at hlen ⊢
    generalize hsp : stopOf step n s.stop = stop at hlen ⊢
    generalize lenOf start stop step = len at hlen ⊢
    have hnn : ¬ step < 0 := by omega
    have hs1 : start = min (n : ℤ) (bottom n s.start) := by
      rw [← hst]; cases s.start with
      | none => simp only [startOf, bottom, if_neg hnn]; omega
      | some i => simp only [startOf, bottom, clamp_up hpos]
    have hs2 : 0 ≤ start ∧ start ≤ (n : ℤ) := by
      rw [hs1]; cases s.start with
      | none => simp only [bottom]; omega
      | some i => simp only [bottom]; omega
    have hp1 : stop ≤ n := by
      rw [← hsp]; cases s.stop with
      | none => simp [startOf, stopOf, hnn]
      | some i => simp only [startOf, stopOf, clamp_up hpos]; omega
    have hr : ∀ k < len, 0 ≤ start + (k : ℤ) * step ∧ start + (k : ℤ) * step < n := by
      intro k hk
      have h1 := (hlen k).1 hk
      have h2 : 0 ≤ (k : ℤ) * step := Int.mul_nonneg (by omega) (by omega)
      omega
    refine ⟨by omega, by omega, hr, ⟨?_, ?_⟩⟩
    · intro k hk _
      obtain rfl : k = step := hk.symm.trans hstep
      refine ⟨prog_up hpos fun k hk => (hr k hk).1, ?_⟩
      intro x
      rw [mem_prog fun k hk => (hr k hk).1]
      have hhi : (x : ℤ) < n → (bottom n s.start ≤ (x : ℤ) ↔ start ≤ (x : ℤ)) := by
        rw [hs1]; cases s.start with
        | none => intro _; simp only [bottom]; omega
        | some i => intro _; simp only [bottom]; omega
      have heq : start ≤ (x : ℤ) → (x : ℤ) < n → bottom n s.start = start := by
        rw [hs1]; cases s.start with
        | none => simp only [bottom]; omega
        | some i => simp only [bottom]; omega
      have hlo : (x : ℤ) < n → ((∀ j ∈ s.stop, (x : ℤ) < norm n j) ↔ (x : ℤ) < stop) := by
        rw [← hsp]
        intro hxn
        cases s.stop with
        | none => simp [startOf, stopOf, hnn]; omega
        | some j => simp only [Option.mem_def, Option.some.injEq, forall_eq', stopOf, clamp_up hpos]; omega
      simp only [SelUp]
      constructor
      · rintro ⟨j, hj, hx⟩
        obtain ⟨h1, h2⟩ := hr j hj
        have h3 := (hlen j).1 hj
        have h4 : 0 ≤ (j : ℤ) * k := Int.mul_nonneg (by omega) (by omega)
        have h5 : start ≤ (x : ℤ) := by omega
        refine ⟨by omega, by omega, (hhi (by omega)).2 h5, (hlo (by omega)).2 (by omega), ?_⟩
        rw [heq h5 (by omega)]
        exact ⟨j, by rw [hx]; ring⟩
      · rintro ⟨h1, h2, h3, h4, h5⟩
        have h6 := (hhi h2).1 h3
        rw [heq h6 h2] at h5
        obtain ⟨q, hq⟩ := h5
        have hq0 : 0 ≤ q := by
          by_contra hcon
          have : k * q < 0 := Int.mul_neg_of_pos_of_neg hpos (by omega)
          omega
        refine ⟨q.toNat, ?_, ?_⟩
        · rw [hlen, Int.toNat_of_nonneg hq0, Int.mul_comm]
          have := (hlo h2).1 h4; omega
        · rw [Int.toNat_of_nonneg hq0, Int.mul_comm]; omega
    · intro k hk hk0; omega

/-- A vector block all of whose elements lie in a storage of `N` elements. -/
structure Ok1 (N : ℤ) (b : Blk 1) : Prop where
  small : N ≤ 2 ^ 62
  lo : -(2 ^ 62) < b.stride 0
  hi : b.stride 0 < 2 ^ 62
  ne : b.stride 0 ≠ 0
  inside : ∀ i < b.size 0, 0 ≤ (b.offset : ℤ) + (i : ℤ) * b.stride 0 ∧ (b.offset : ℤ) + (i : ℤ) * b.stride 0 < N

theorem Ok1.addr {N : ℤ} {b : Blk 1} (h : Ok1 N b) {i : ℕ} (hi : i < b.size 0) : (addr1 b i : ℤ) = (b.offset : ℤ) + (i : ℤ) * b.stride 0 := by
  obtain ⟨h1, h2⟩ := h.inside i hi
  have := h.small
  rw [addr1, toIdx_of_fits h1 (by omega)]

theorem toIdx_add_toIdx (x : ℤ) (z : ℤ) : toIdx ((toIdx x : ℤ) + z) = toIdx (x + z) := by
  simp only [toIdx]
  have h1 := Int.emod_nonneg x (show (W₆₄ : ℤ) ≠ 0 by decide)
  rw [Int.toNat_of_nonneg h1, Int.emod_add_emod]

/-- `start * stride` is representable for every start a slice may have. -/
theorem fits_start {st : ℤ} {n : ℕ} (hlo : -(2 ^ 62) < st) (hhi : st < 2 ^ 62) (hw : 2 ≤ n → ((n : ℤ) - 1) * st < 2 ^ 62 ∧ -(2 ^ 62) < ((n : ℤ) - 1) * st)
    {a : ℤ} (ha : -1 ≤ a) (hb : a ≤ n) : FitsSigned (a * st) := by
  have key : ∀ c : ℤ, 0 ≤ c → c ≤ (n : ℤ) - 1 → -(2 ^ 62) < c * st ∧ c * st < 2 ^ 62 := by
    intro c h0 h1
    by_cases hn : 2 ≤ n
    · obtain ⟨h2, h3⟩ := hw hn
      rcases le_total 0 st with hs | hs
      · have h4 := Int.mul_le_mul_of_nonneg_right h1 hs
        have h5 := Int.mul_nonneg h0 hs
        omega
      · have h4 := Int.mul_le_mul_of_nonpos_right h1 hs
        have h5 := Int.mul_nonpos_of_nonneg_of_nonpos h0 hs
        omega
    · obtain rfl : c = 0 := by omega
      omega
  unfold FitsSigned
  rcases eq_or_lt_of_le ha with h | h
  · rw [← h]; omega
  · by_cases h0 : a = 0
    · subst h0; omega
    · have := key (a - 1) (by omega) (by omega)
      have e : a * st = (a - 1) * st + st := by ring
      rw [e]; omega

/-- The domain of a slice, when the addresses it reaches are representable. -/
theorem sliceToDomain_spec {s : Slice} {offset : ℕ} {stride : ℤ} {n : ℕ} (h : s.step.getD 1 ≠ 0) (hlo : -(2 ^ 62) < stride) (hhi : stride < 2 ^ 62) (hne : stride ≠ 0)
    (hk : -(2 ^ 62) < s.step.getD 1 * stride ∧ s.step.getD 1 * stride < 2 ^ 62)
    (hin : ∀ i < n, 0 ≤ (offset : ℤ) + (i : ℤ) * stride ∧ (offset : ℤ) + (i : ℤ) * stride < 2 ^ 62) :
    ∃ start len, sliceToDomain s offset stride n = .val ⟨toIdx (offset + start * stride), s.step.getD 1 * stride, len⟩ ∧
      (∀ k < len, 0 ≤ start + (k : ℤ) * s.step.getD 1 ∧ start + (k : ℤ) * s.step.getD 1 < n) ∧ Selects s n (prog start (s.step.getD 1) len) := by
  obtain ⟨start, len, hg, h1, h2, hr, hsel⟩ := getIndices_spec (n := n) h
  refine ⟨start, len, ?_, hr, hsel⟩
  have hf := fits_start (n := n) hlo hhi (fun hn => by
    have a := hin 0 (by omega)
    have b := hin (n - 1) (by omega)
    rw [show ((n - 1 : ℕ) : ℤ) = (n : ℤ) - 1 by omega] at b
    simp only [Nat.cast_zero, Int.zero_mul] at a
    omega) h1 h2
  simp only [sliceToDomain, hg]
  rw [if_pos ⟨hf, by unfold FitsSigned; omega⟩]
  have hv : (⟨toIdx (offset + start * stride), s.step.getD 1 * stride, len⟩ : Dom).isValid = true := by
    unfold Dom.isValid
    by_cases hl : len = 0
    · simp [hl]
    · have hlt : len < W₆₃ := by
        by_contra hc
        -- more than 2^63 distinct indices below `n`, and `n` elements inside the storage
        have a := hr 0 (by omega)
        have b := hr (len - 1) (by omega)
        have c := hin (start + ((len - 1 : ℕ) : ℤ) * s.step.getD 1).toNat (by omega)
        have d := hin (start + ((0 : ℕ) : ℤ) * s.step.getD 1).toNat (by omega)
        rw [Int.toNat_of_nonneg a.1] at d
        rw [Int.toNat_of_nonneg b.1] at c
        have e : (start + ((len - 1 : ℕ) : ℤ) * s.step.getD 1) * stride - (start + ((0 : ℕ) : ℤ) * s.step.getD 1) * stride =
          ((len - 1 : ℕ) : ℤ) * (s.step.getD 1 * stride) := by push_cast; ring
        have hd : s.step.getD 1 * stride ≠ 0 := Int.mul_ne_zero h hne
        have hz : ((len - 1 : ℕ) : ℤ) = (len : ℤ) - 1 := by omega
        rw [hz] at e c
        generalize s.step.getD 1 * stride = t at e hd
        rcases lt_or_gt_of_ne hd with ht | ht
        · have := Int.mul_le_mul_of_nonneg_left (show t ≤ -1 by omega) (show 0 ≤ (len : ℤ) - 1 by omega)
          omega
        · have := Int.mul_le_mul_of_nonneg_left (show 1 ≤ t by omega) (show 0 ≤ (len : ℤ) - 1 by omega)
          omega
      have b := hr (len - 1) (by omega)
      have c := hin (start + ((len - 1 : ℕ) : ℤ) * s.step.getD 1).toNat (by omega)
      rw [Int.toNat_of_nonneg b.1] at c
      have hz : ((len - 1 : ℕ) : ℤ) = (len : ℤ) - 1 := by omega
      have hlast : (⟨toIdx (offset + start * stride), s.step.getD 1 * stride, len⟩ : Dom).last =
          toIdx ((offset : ℤ) + (start + ((len - 1 : ℕ) : ℤ) * s.step.getD 1) * stride) := by
        simp only [Dom.last, Dom.nth]
        rw [toIdx_add_toIdx, show (len : ℤ) - 1 = ((len - 1 : ℕ) : ℤ) by omega, toIdx_nat (by omega), toSigned_of_lt (by omega)]
        congr 1
        ring
      rw [hlast, toSigned_toIdx (by unfold FitsSigned; omega)]
      simp only [Bool.or_eq_true, Bool.and_eq_true, decide_eq_true_eq]
      exact Or.inr ⟨by omega, c.1⟩
  rw [if_pos hv]

theorem toIdx_toIdx_add (x y z : ℤ) : toIdx ((toIdx ((toIdx x : ℤ) + (toIdx y : ℤ)) : ℤ) + z) = toIdx (x + y + z) := by
  rw [toIdx_add_toIdx, show (toIdx x : ℤ) + (toIdx y : ℤ) + z = (toIdx x : ℤ) + ((toIdx y : ℤ) + z) by ring, toIdx_add_toIdx,
    show x + ((toIdx y : ℤ) + z) = (toIdx y : ℤ) + (x + z) by ring, toIdx_add_toIdx]
  congr 1; ring

/-- Elements inside a storage are few. -/
theorem size_small {o st : ℤ} {n : ℕ} (hne : st ≠ 0) (hin : ∀ i < n, 0 ≤ o + (i : ℤ) * st ∧ o + (i : ℤ) * st < 2 ^ 62) : n ≤ 2 ^ 62 := by
  by_contra hc
  have a := hin 0 (by omega)
  have b := hin (n - 1) (by omega)
  rw [show ((n - 1 : ℕ) : ℤ) = (n : ℤ) - 1 by omega] at b
  simp only [Nat.cast_zero, Int.zero_mul] at a
  rcases lt_or_gt_of_ne hne with ht | ht
  · have := Int.mul_le_mul_of_nonneg_left (show st ≤ -1 by omega) (show 0 ≤ (n : ℤ) - 1 by omega)
    omega
  · have := Int.mul_le_mul_of_nonneg_left (show 1 ≤ st by omega) (show 0 ≤ (n : ℤ) - 1 by omega)
    omega

theorem mkDomain_ok {first st : ℤ} {n : ℕ} (hne : st ≠ 0) (hin : ∀ i < n, 0 ≤ first + (i : ℤ) * st ∧ first + (i : ℤ) * st < 2 ^ 62) :
    mkDomain first st n = .val ⟨toIdx first, st, n⟩ := by
  have hn := size_small hne hin
  have hv : (⟨toIdx first, st, n⟩ : Dom).isValid = true := by
    unfold Dom.isValid
    by_cases hl : n = 0
    · simp [hl]
    · have c := hin (n - 1) (by omega)
      have hlast : (⟨toIdx first, st, n⟩ : Dom).last = toIdx (first + ((n - 1 : ℕ) : ℤ) * st) := by
        simp only [Dom.last, Dom.nth]
        rw [toIdx_add_toIdx, show (n : ℤ) - 1 = ((n - 1 : ℕ) : ℤ) by omega, toIdx_nat (by omega), toSigned_of_lt (by omega)]
        congr 1
        ring
      rw [hlast, toSigned_toIdx (by unfold FitsSigned; omega)]
      simp only [Bool.or_eq_true, Bool.and_eq_true, decide_eq_true_eq]
      exact Or.inr ⟨by omega, c.1⟩
  simp only [mkDomain]
  rw [if_pos hv]

/-- A matrix block all of whose elements lie in a storage of `N` elements. -/
structure Ok2 (N : ℤ) (b : Blk 2) : Prop where
  small : N ≤ 2 ^ 62
  lo : ∀ d, -(2 ^ 62) < b.stride d
  hi : ∀ d, b.stride d < 2 ^ 62
  ne : ∀ d, b.stride d ≠ 0
  inside : ∀ i < b.size 0, ∀ j < b.size 1, 0 ≤ (b.offset : ℤ) + (i : ℤ) * b.stride 0 + (j : ℤ) * b.stride 1 ∧
    (b.offset : ℤ) + (i : ℤ) * b.stride 0 + (j : ℤ) * b.stride 1 < N

theorem Ok2.addr {N : ℤ} {b : Blk 2} (h : Ok2 N b) {i j : ℕ} (hi : i < b.size 0) (hj : j < b.size 1) :
    (addr2 b i j : ℤ) = (b.offset : ℤ) + (i : ℤ) * b.stride 0 + (j : ℤ) * b.stride 1 := by
  obtain ⟨h1, h2⟩ := h.inside i hi j hj
  have := h.small
  rw [addr2, toIdx_of_fits h1 (by omega)]

theorem fresh1_ok {n : ℕ} (h : (n : ℤ) ≤ 2 ^ 62) : Ok1 n (fresh1 n) := by
  refine ⟨h, ?_, ?_, ?_, ?_⟩ <;> simp only [fresh1]
  · decide
  · decide
  · decide
  · intro i hi; omega

theorem fresh2_ok {r c : ℕ} (h : (r : ℤ) * c ≤ 2 ^ 62) (hc : 0 < c) (hc2 : (c : ℤ) < 2 ^ 62) : Ok2 ((r : ℤ) * c) (fresh2 r c) := by
  have hs : toSigned c = c := toSigned_of_lt (by omega)
  refine ⟨h, ?_, ?_, ?_, ?_⟩
  · intro d; fin_cases d
    · simp [fresh2, hs]; omega
    · simp [fresh2]
  · intro d; fin_cases d
    · simpa [fresh2, hs] using hc2
    · simp [fresh2]
  · intro d; fin_cases d
    · simp [fresh2, hs]; omega
    · simp [fresh2]
  · intro i hi j hj
    simp only [fresh2, Matrix.cons_val_zero, Matrix.cons_val_one, hs] at hi hj ⊢
    have h1 : ((i : ℤ) + 1) * c ≤ r * c := Int.mul_le_mul_of_nonneg_right (by omega) (by omega)
    have h2 : (0 : ℤ) ≤ (i : ℤ) * c := Int.mul_nonneg (by omega) (by omega)
    rw [Int.add_mul, Int.one_mul] at h1
    generalize (i : ℤ) * c = p at *
    push_cast
    constructor <;> omega

end Verif.Py
