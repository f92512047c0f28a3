import Verif.Py.Lemmas

/-!
# C70: the Python front end

Vectors and matrices made by slicing share the storage of the block they come from.  The theorems say at which address an element is found.
-/

namespace Verif.Py

open Verif (Dom toIdx toSigned FitsSigned)

theorem idx_lt {s : Slice} {n : ℕ} {start : ℤ} {len : ℕ} (hr : ∀ k < len, 0 ≤ start + (k : ℤ) * s.step.getD 1 ∧ start + (k : ℤ) * s.step.getD 1 < n) {k : ℕ}
    (hk : k < (prog start (s.step.getD 1) len).length) :
    (prog start (s.step.getD 1) len)[k] < n ∧ ((prog start (s.step.getD 1) len)[k] : ℤ) = start + (k : ℤ) * s.step.getD 1 := by
  rw [prog_get]
  rw [prog_length] at hk
  have := hr k hk
  omega

theorem dda_eq {N : ℤ} {b : Blk 1} (hb : Ok1 N b) (base : ℤ) {i : ℕ} (hi : i < b.size 0) :
    dda1 base b 0 + (i : ℤ) * b.stride 0 = base + addr1 b i := by
  have h0 := hb.inside 0 (by omega)
  have hN := hb.small
  simp only [Nat.cast_zero, Int.zero_mul, Int.add_zero] at h0
  rw [hb.addr hi, dda1, toSigned_of_lt (by omega)]
  push_cast; ring

theorem fold_copy {V : Type} (l r : ℕ → ℤ) (n : ℕ) (hl : ∀ i < n, ∀ j < n, l i = l j → i = j) (hlr : ∀ i < n, ∀ j < n, l i ≠ r j) (mem : ℤ → V) :
    (∀ k < n, (List.range n).foldl (fun m (i : ℕ) => Function.update m (l i) (m (r i))) mem (l k) = mem (r k)) ∧
    ∀ a, (∀ k < n, a ≠ l k) → (List.range n).foldl (fun m (i : ℕ) => Function.update m (l i) (m (r i))) mem a = mem a := by
  induction n with
  | zero => exact ⟨fun k hk => absurd hk (by omega), fun a _ => rfl⟩
  | succ n ih =>
    obtain ⟨h1, h2⟩ := ih (fun i hi j hj => hl i (by omega) j (by omega)) (fun i hi j hj => hlr i (by omega) j (by omega))
    simp only [List.range_succ, List.foldl_append, List.foldl_cons, List.foldl_nil]
    have hrn : (List.range n).foldl (fun m (i : ℕ) => Function.update m (l i) (m (r i))) mem (r n) = mem (r n) :=
      h2 _ fun k hk => (hlr k (by omega) n (by omega)).symm
    constructor
    · intro k hk
      by_cases hkn : k = n
      · subst hkn; rw [Function.update_self, hrn]
      · rw [Function.update_of_ne (fun he => hkn (hl k hk n (by omega) he))]
        exact h1 k (by omega)
    · intro a ha
      rw [Function.update_of_ne (ha n (by omega))]
      exact h2 a fun k hk => ha k (by omega)

theorem assign1_spec {V : Type} {N M : ℤ} {b w : Blk 1} (hb : Ok1 N b) (hw : Ok1 M w) (bv bw : ℤ) (hn : b.size 0 = w.size 0)
    (hsep : ∀ i < b.size 0, ∀ j < w.size 0, bv + addr1 b i ≠ bw + addr1 w j) (mem : ℤ → V) :
    ∃ mem', assign1 (dda1 bv b 0) (b.stride 0) (b.size 0) (dda1 bw w 0) (w.stride 0) (w.size 0) mem = .val mem' ∧
      (∀ k < b.size 0, mem' (bv + addr1 b k) = mem (bw + addr1 w k)) ∧ ∀ a, (∀ k < b.size 0, a ≠ bv + addr1 b k) → mem' a = mem a := by
  have el : ∀ i < b.size 0, dda1 bv b 0 + (i : ℤ) * b.stride 0 = bv + addr1 b i := fun i hi => dda_eq hb bv hi
  have er : ∀ i < b.size 0, dda1 bw w 0 + (i : ℤ) * w.stride 0 = bw + addr1 w i := fun i hi => dda_eq hw bw (by omega)
  rw [← hn] at hsep
  simp only [assign1, ← hn, if_neg (show ¬ b.size 0 < b.size 0 by omega)]
  generalize dda1 bv b 0 = lp at el ⊢
  generalize dda1 bw w 0 = rp at er ⊢
  generalize b.size 0 = n at el er hsep ⊢
  by_cases hst : b.stride 0 = 1 ∧ w.stride 0 = 1
  · rw [if_pos hst]
    rw [hst.1] at el
    rw [hst.2] at er
    have hno : ¬ (0 < n ∧ rp < lp + n ∧ lp < rp + n) := by
      rintro ⟨h0, h1, h2⟩
      rcases le_total lp rp with h | h
      · have := hsep (rp - lp).toNat (by omega) 0 (by omega)
        rw [← el _ (by omega), ← er _ (by omega)] at this
        omega
      · have := hsep 0 (by omega) (lp - rp).toNat (by omega)
        rw [← el _ (by omega), ← er _ (by omega)] at this
        omega
    rw [if_neg hno]
    refine ⟨_, rfl, ?_, ?_⟩
    · intro k hk
      rw [← el k hk, ← er k hk]
      rw [if_pos (by omega)]
      congr 1; omega
    · intro a ha
      rw [if_neg]
      rintro ⟨h1, h2⟩
      refine ha (a - lp).toNat (by omega) ?_
      rw [← el _ (by omega)]; omega
  · rw [if_neg hst]
    have hinj : ∀ i < n, ∀ j < n, lp + (i : ℤ) * b.stride 0 = lp + (j : ℤ) * b.stride 0 → i = j := by
      intro i _ j _ he
      have : ((i : ℤ) - j) * b.stride 0 = 0 := by rw [Int.sub_mul]; omega
      rcases Int.mul_eq_zero.1 this with h | h
      · omega
      · exact absurd h hb.ne
    obtain ⟨h1, h2⟩ := fold_copy (fun i : ℕ => lp + (i : ℤ) * b.stride 0) (fun i : ℕ => rp + (i : ℤ) * w.stride 0) n hinj
      (fun i hi j hj => by
        have := hsep i hi j hj
        rw [← el i hi, ← er j hj] at this
        exact this) mem
    refine ⟨_, rfl, ?_, ?_⟩
    · intro k hk
      rw [← el k hk, ← er k hk]
      exact h1 k hk
    · intro a ha
      exact h2 a fun k hk => by
        have := ha k hk
        rwa [← el k hk] at this

end Verif.Py

namespace Verif.Props

open Verif.Py
open Verif (Dom toIdx toSigned FitsSigned)

/-- **C70 (slices of vectors).** `v[s]` is the vector of the elements the slice selects, in the order of the slice, for every start, stop and step, and for every
vector in a storage of at most `2^62` elements, itself a slice or not.  The result is again such a vector. -/
theorem C70_slice {N : ℤ} {b : Blk 1} (hb : Ok1 N b) (s : Slice) (h : s.step.getD 1 ≠ 0)
    (hk : -(2 ^ 62) < s.step.getD 1 * b.stride 0 ∧ s.step.getD 1 * b.stride 0 < 2 ^ 62) :
    ∃ b' l, subblock1 b s = .val b' ∧ Selects s (b.size 0) l ∧ b'.size 0 = l.length ∧
      (∀ k (hk : k < l.length), l[k] < b.size 0 ∧ addr1 b' k = addr1 b l[k]) ∧ Ok1 N b' := by
  have hN := hb.small
  obtain ⟨start, len, hd, hr, hsel⟩ := sliceToDomain_spec (offset := b.offset) (n := b.size 0) h hb.lo hb.hi hb.ne hk
    (fun i hi => by have := hb.inside i hi; omega)
  refine ⟨mk1 ⟨toIdx (b.offset + start * b.stride 0), s.step.getD 1 * b.stride 0, len⟩, prog start (s.step.getD 1) len, ?_, hsel, ?_, ?_, ?_⟩
  · rw [subblock1, hd]; rfl
  · rw [prog_length]; rfl
  · intro k hk
    obtain ⟨h1, h2⟩ := idx_lt hr hk
    refine ⟨h1, ?_⟩
    simp only [addr1, mk1]
    rw [toIdx_add_toIdx, h2]
    congr 1; ring
  · have hoff : 0 < len → (toIdx (b.offset + start * b.stride 0) : ℤ) = b.offset + start * b.stride 0 := by
      intro hl
      have h0 := hr 0 hl
      simp only [Nat.cast_zero, Int.zero_mul, Int.add_zero] at h0
      have := hb.inside start.toNat (by omega)
      rw [Int.toNat_of_nonneg h0.1] at this
      exact toIdx_of_fits this.1 (by omega)
    refine ⟨hb.small, hk.1, hk.2, Int.mul_ne_zero h hb.ne, ?_⟩
    intro i hi
    have hi' : i < len := hi
    have h1 := hr i hi'
    have := hb.inside (start + (i : ℤ) * s.step.getD 1).toNat (by omega)
    rw [Int.toNat_of_nonneg h1.1] at this
    simp only [mk1]
    rw [hoff (by omega)]
    have e : (b.offset : ℤ) + start * b.stride 0 + (i : ℤ) * (s.step.getD 1 * b.stride 0) = b.offset + (start + (i : ℤ) * s.step.getD 1) * b.stride 0 := by ring
    rw [e]
    exact this

/-- `v[1:8:2][::-1]` of a vector of ten elements: elements 7, 5, 3, 1. -/
example : Ok1 10 (fresh1 10) := fresh1_ok (by decide)
example : ((subblock1 (fresh1 10) ⟨some 1, some 8, some 2⟩).bind fun b => subblock1 b ⟨none, none, some (-1)⟩).map
    (fun b => (b.size 0, addr1 b 0, addr1 b 1, addr1 b 2, addr1 b 3)) = .val (4, 7, 5, 3, 1) := by decide +kernel

/-- **C70 is false (zero step).** `v[::0]` should raise an exception.  `PySlice_GetIndicesEx` reports the error, but `slice_to_domain` ignores the status and uses
the variables it never set. -/
theorem C70_zero_step_false : ¬ ∀ n, subblock1 (fresh1 n) ⟨none, none, some 0⟩ = .exc := by
  intro h
  have h4 : (subblock1 (fresh1 4) ⟨none, none, some 0⟩).map (fun _ => ()) = .exc := by rw [h 4]; rfl
  revert h4
  decide +kernel

/-- **C70 is false (large steps).** A slice with a step that reaches past the end selects one element.  On a strided vector the product of step and stride
overflows. -/
theorem C70_large_step_false : ¬ ∀ (b : Blk 1) (k : ℤ), Ok1 10 b → 0 < b.size 0 → 0 < k → k < 2 ^ 63 →
    ∃ b', subblock1 b ⟨none, none, some k⟩ = .val b' := by
  intro h
  have ok : Ok1 10 ⟨0, fun _ => 5, fun _ => 2⟩ := ⟨by decide, by decide, by decide, by decide, by intro i hi; have : i < 5 := hi; dsimp only; omega⟩
  obtain ⟨b', hb'⟩ := h ⟨0, fun _ => 5, fun _ => 2⟩ (2 ^ 62) ok (by decide) (by decide) (by decide)
  have : (subblock1 ⟨0, fun _ => 5, fun _ => 2⟩ ⟨none, none, some (2 ^ 62)⟩).map (fun _ => ()) = .val () := by rw [hb']; rfl
  revert this
  decide +kernel

/-- **C70, partial (slices of matrices).** `m[s, t]` is the matrix of the selected rows and columns, for every two slices, when the columns of `m` are not
already in reverse order.  Missing: matrices whose columns are reversed, see `C70_reversed_false`. -/
theorem C70_slice2_partial {N : ℤ} {b : Blk 2} (hb : Ok2 N b) (h0 : 0 < b.size 0) (h1 : 0 < b.size 1) (hpos : 0 ≤ b.stride 1) (s t : Slice)
    (hs : s.step.getD 1 ≠ 0) (ht : t.step.getD 1 ≠ 0)
    (hks : -(2 ^ 62) < s.step.getD 1 * b.stride 0 ∧ s.step.getD 1 * b.stride 0 < 2 ^ 62)
    (hkt : -(2 ^ 62) < t.step.getD 1 * b.stride 1 ∧ t.step.getD 1 * b.stride 1 < 2 ^ 62) :
    ∃ b' l m, subblock2 b s t = .val b' ∧ Selects s (b.size 0) l ∧ Selects t (b.size 1) m ∧ b'.size 0 = l.length ∧ b'.size 1 = m.length ∧
      (∀ i (hi : i < l.length) j (hj : j < m.length), l[i] < b.size 0 ∧ m[j] < b.size 1 ∧ addr2 b' i j = addr2 b l[i] m[j]) := by
  have hN := hb.small
  obtain ⟨start, len, hd, hr, hsel⟩ := sliceToDomain_spec (offset := b.offset) (n := b.size 0) hs (hb.lo 0) (hb.hi 0) (hb.ne 0) hks
    (fun i hi => by have := hb.inside i hi 0 h1; simp only [Nat.cast_zero, Int.zero_mul] at this; omega)
  obtain ⟨start', len', hd', hr', hsel'⟩ := sliceToDomain_spec (offset := 0) (n := b.size 1) ht (hb.lo 1) (hb.hi 1) (hb.ne 1) hkt
    (fun j hj => by
      have a := hb.inside 0 h0 j hj
      have c : 0 ≤ (j : ℤ) * b.stride 1 := Int.mul_nonneg (by omega) hpos
      simp only [Nat.cast_zero, Int.zero_mul] at a ⊢
      omega)
  refine ⟨mk2 ⟨toIdx (b.offset + start * b.stride 0), s.step.getD 1 * b.stride 0, len⟩
      ⟨toIdx (((0 : ℕ) : ℤ) + start' * b.stride 1), t.step.getD 1 * b.stride 1, len'⟩,
    prog start (s.step.getD 1) len, prog start' (t.step.getD 1) len', ?_, hsel, hsel', ?_, ?_, ?_⟩
  · rw [subblock2, hd, hd']; rfl
  · rw [prog_length]; rfl
  · rw [prog_length]; rfl
  · intro i hi j hj
    obtain ⟨a1, a2⟩ := idx_lt hr hi
    obtain ⟨c1, c2⟩ := idx_lt hr' hj
    refine ⟨a1, c1, ?_⟩
    simp only [addr2, mk2, Matrix.cons_val_zero, Matrix.cons_val_one]
    rw [a2, c2, Int.add_assoc (toIdx _ : ℤ), toIdx_toIdx_add]
    congr 1; push_cast; ring

example : Ok2 12 (fresh2 3 4) := fresh2_ok (r := 3) (c := 4) (by decide) (by decide) (by decide)

/-- **C70 is false (reversed columns).** A matrix with its columns reversed, `m[:, ::-1]`, cannot be sliced: `m[:, ::-1][:, :]` builds a domain of physical
coordinates that runs from 0 downwards, which the constructor of `Domain<1>` refuses by assertion. -/
theorem C70_reversed_false : ¬ ∀ (r c : ℕ) (b : Blk 2), 0 < r → 0 < c → r * c < 100 →
    subblock2 (fresh2 r c) ⟨none, none, none⟩ ⟨none, none, some (-1)⟩ = .val b → ∃ b', subblock2 b ⟨none, none, none⟩ ⟨none, none, none⟩ = .val b' := by
  intro h
  obtain ⟨b', hb'⟩ := h 2 3 ⟨2, ![2, 3], ![3, -1]⟩ (by decide) (by decide) (by decide) (by rfl)
  have : (subblock2 ⟨2, ![2, 3], ![3, -1]⟩ ⟨none, none, none⟩ ⟨none, none, none⟩).map (fun _ => ()) = .val () := by rw [hb']; rfl
  revert this
  decide +kernel

/-- **C70, partial (rows).** `m[i]` is row `i`, counted from the end when `i` is negative, of a matrix that starts at the beginning of its storage and has
adjacent columns.  Missing: submatrices and matrices with a column step, see `C70_row_false`; indices out of range, see `C70_row_range_false`. -/
theorem C70_row_partial {N : ℤ} {b : Blk 2} (hb : Ok2 N b) (hoff : b.offset = 0) (hst : b.stride 1 = 1) (h1 : 0 < b.size 1)
    (h32 : b.size 0 < 2 ^ 31) (i : ℤ) (hlo : -(b.size 0 : ℤ) ≤ i) (hhi : i < b.size 0) :
    ∃ r, getRow b i = .val r ∧ r.size 0 = b.size 1 ∧ ∀ j < b.size 1, addr1 r j = addr2 b (norm (b.size 0) i).toNat j := by
  have hN := hb.small
  have hfe : fromEnd i (b.size 0) = norm (b.size 0) i := by
    simp only [fromEnd, norm, toInt32]
    split
    · rw [Int.emod_eq_of_lt (by omega) (by omega)]; omega
    · rfl
  have hrange : 0 ≤ norm (b.size 0) i ∧ norm (b.size 0) i < b.size 0 := by
    simp only [norm]; split <;> omega
  generalize norm (b.size 0) i = k at hfe hrange
  have hin := fun j hj => hb.inside k.toNat (by omega) j hj
  simp only [Int.toNat_of_nonneg hrange.1, hoff, hst] at hin
  have h00 := hin 0 h1
  simp only [getRow, hfe]
  rw [if_pos (by unfold FitsSigned; push_cast at h00; omega), mkDomain_ok (by decide) (fun j hj => by have := hin j hj; push_cast at this; omega)]
  refine ⟨_, rfl, rfl, ?_⟩
  intro j hj
  simp only [addr1, addr2, mk1, hoff, hst, Int.toNat_of_nonneg hrange.1]
  rw [toIdx_add_toIdx]
  congr 1; push_cast; ring

/-- **C70, partial (columns).** `m.col(i)` is column `i` of a matrix that starts at the beginning of its storage.  Missing: other submatrices, see
`C70_col_false`. -/
theorem C70_col_partial {N : ℤ} {b : Blk 2} (hb : Ok2 N b) (hoff : b.offset = 0) (h0 : 0 < b.size 0) (h32 : b.size 1 < 2 ^ 31) (i : ℤ)
    (hlo : -(b.size 1 : ℤ) ≤ i) (hhi : i < b.size 1) :
    ∃ r, getCol b i = .val r ∧ r.size 0 = b.size 0 ∧ ∀ j < b.size 0, addr1 r j = addr2 b j (norm (b.size 1) i).toNat := by
  have hN := hb.small
  have hfe : fromEnd i (b.size 1) = norm (b.size 1) i := by
    simp only [fromEnd, norm, toInt32]
    split
    · rw [Int.emod_eq_of_lt (by omega) (by omega)]; omega
    · rfl
  have hrange : 0 ≤ norm (b.size 1) i ∧ norm (b.size 1) i < b.size 1 := by
    simp only [norm]; split <;> omega
  generalize norm (b.size 1) i = k at hfe hrange
  have hin := fun j hj => hb.inside j hj k.toNat (by omega)
  simp only [Int.toNat_of_nonneg hrange.1, hoff] at hin
  have h00 := hin 0 h0
  simp only [getCol, hfe]
  rw [if_pos (by unfold FitsSigned; push_cast at h00; omega), mkDomain_ok (hb.ne 0) (fun j hj => by have := hin j hj; push_cast at this; omega)]
  refine ⟨_, rfl, rfl, ?_⟩
  intro j hj
  simp only [addr1, addr2, mk1, hoff, Int.toNat_of_nonneg hrange.1]
  rw [toIdx_add_toIdx]
  congr 1; push_cast; ring

/-- **C70, partial (diagonal).** `m.diag()` is the diagonal of a matrix that starts at the beginning of its storage.  Missing: other submatrices. -/
theorem C70_diag_partial {N : ℤ} {b : Blk 2} (hb : Ok2 N b) (hoff : b.offset = 0) (hne : b.stride 0 + b.stride 1 ≠ 0) :
    ∃ r, diag b = .val r ∧ r.size 0 = min (b.size 0) (b.size 1) ∧ ∀ j < min (b.size 0) (b.size 1), addr1 r j = addr2 b j j := by
  have hN := hb.small
  have l0 := hb.lo 0
  have l1 := hb.lo 1
  have u0 := hb.hi 0
  have u1 := hb.hi 1
  simp only [diag]
  rw [if_pos (by unfold FitsSigned; omega), mkDomain_ok hne (fun j hj => by
    have := hb.inside j (by omega) j (by omega)
    rw [hoff] at this
    have e : (0 : ℤ) + (j : ℤ) * (b.stride 0 + b.stride 1) = ((0 : ℕ) : ℤ) + (j : ℤ) * b.stride 0 + (j : ℤ) * b.stride 1 := by push_cast; ring
    rw [e]; omega)]
  refine ⟨_, rfl, rfl, ?_⟩
  intro j hj
  simp only [addr1, addr2, mk1, hoff]
  rw [toIdx_add_toIdx]
  congr 1; push_cast; ring

example : (getRow (fresh2 3 4) (-1)).map (fun r => (r.size 0, addr1 r 0, addr1 r 3)) = .val (4, 8, 11) := by decide +kernel
example : (getCol (fresh2 3 4) 1).map (fun r => (r.size 0, addr1 r 0, addr1 r 2)) = .val (3, 1, 9) := by decide +kernel
example : (diag (fresh2 3 4)).map (fun r => (r.size 0, addr1 r 0, addr1 r 2)) = .val (3, 0, 10) := by decide +kernel

/-- The submatrix `m[1:3, 0:4:2]` of a 3 by 4 matrix. -/
def pySub : Blk 2 := ⟨4, ![2, 2], ![4, 2]⟩

theorem pySub_eq : subblock2 (fresh2 3 4) ⟨some 1, some 3, none⟩ ⟨some 0, some 4, some 2⟩ = .val pySub := by rfl

theorem pySub_ok : Ok2 12 pySub := by
  refine ⟨by decide, by decide, by decide, by decide, ?_⟩
  intro i hi j hj
  have h1 : i < 2 := hi
  have h2 : j < 2 := hj
  simp only [pySub, Matrix.cons_val_zero, Matrix.cons_val_one]
  push_cast
  omega

/-- **C70 is false (rows of submatrices).** `get_row` drops the offset of the block and takes the columns to be adjacent: row 0 of `m[1:3, 0:4:2]` is found at the
first two elements of `m`, and not at elements 4 and 6. -/
theorem C70_row_false : ¬ ∀ (b : Blk 2) (i : ℤ), Ok2 12 b → 0 ≤ i → i < b.size 0 →
    ∃ r, getRow b i = .val r ∧ ∀ j < b.size 1, addr1 r j = addr2 b i.toNat j := by
  intro h
  obtain ⟨r, hr, ha⟩ := h pySub 0 pySub_ok (by decide) (by decide)
  have h1 : (getRow pySub 0).map (fun r => (addr1 r 0, addr1 r 1)) = .val (4, 6) := by
    rw [hr]
    simp only [Out.map, ha 0 (by decide), ha 1 (by decide)]
    decide +kernel
  revert h1
  decide +kernel

/-- **C70 is false (columns of submatrices).** `get_col` and `diag` drop the offset: column 0 of `m[1:3, 0:4:2]` starts at element 0, and not at element 4. -/
theorem C70_col_false : (¬ ∀ (b : Blk 2) (i : ℤ), Ok2 12 b → 0 ≤ i → i < b.size 1 →
    ∃ r, getCol b i = .val r ∧ ∀ j < b.size 0, addr1 r j = addr2 b j i.toNat) ∧
    (getCol pySub 0).map (fun r => (addr1 r 0, addr1 r 1)) = .val (0, 4) ∧ (diag pySub).map (fun r => (addr1 r 0, addr1 r 1)) = .val (0, 6) ∧
    addr2 pySub 0 0 = 4 ∧ addr2 pySub 1 1 = 10 := by
  refine ⟨?_, by decide +kernel, by decide +kernel, by decide +kernel, by decide +kernel⟩
  intro h
  obtain ⟨r, hr, ha⟩ := h pySub 0 pySub_ok (by decide) (by decide)
  have h1 : (getCol pySub 0).map (fun r => (addr1 r 0, addr1 r 1)) = .val (4, 8) := by
    rw [hr]
    simp only [Out.map, ha 0 (by decide), ha 1 (by decide)]
    decide +kernel
  revert h1
  decide +kernel

/-- **C70 is false (rows out of range).** `get_row` does not compare its index with the number of rows: `m[3]` of a 3 by 4 matrix is a vector outside the storage
of 12 elements.  Access by `get` compares, and raises an exception. -/
theorem C70_row_range_false : ¬ ∀ (r c : ℕ) (i : ℤ) (v : Blk 1), r * c ≤ 100 → 0 < c → 0 ≤ i → i < 100 → getRow (fresh2 r c) i = .val v →
    ∀ j < v.size 0, addr1 v j < r * c := by
  intro h
  have := h 3 4 3 ⟨12, fun _ => 4, fun _ => 1⟩ (by decide) (by decide) (by decide) (by decide) (by rfl) 0 (by decide)
  revert this
  decide +kernel

/-- **C70, partial (part of a row).** `m[i, s]` selects from row `i`.  Missing: as for `C70_row_partial`. -/
theorem C70_row_slice_partial {r c : ℕ} (h : (r : ℤ) * c ≤ 2 ^ 62) (hc : 0 < c) (hc2 : (c : ℤ) < 2 ^ 62) (h32 : r < 2 ^ 31) (i : ℤ) (hlo : -(r : ℤ) ≤ i)
    (hhi : i < r) (s : Slice) (hs : s.step.getD 1 ≠ 0) (hk : -(2 ^ 62) < s.step.getD 1 ∧ s.step.getD 1 < 2 ^ 62) :
    ∃ b' l, rowSlice (fresh2 r c) i s = .val b' ∧ Selects s c l ∧ b'.size 0 = l.length ∧
      ∀ k (hk : k < l.length), l[k] < c ∧ addr1 b' k = addr2 (fresh2 r c) (norm r i).toNat l[k] := by
  have hb := fresh2_ok h hc hc2
  obtain ⟨v, hv, hn, ha⟩ := C70_row_partial hb rfl rfl hc h32 i hlo hhi
  have hv1 : v.stride 0 = 1 := by
    simp only [getRow] at hv
    split at hv
    · simp only [mkDomain] at hv
      split at hv
      · simp only [Out.map, Out.val.injEq] at hv
        rw [← hv]; rfl
      · simp [Out.map] at hv
    · simp at hv
  have hn' : v.size 0 = c := hn
  have hoff : (addr1 v 0 : ℤ) = v.offset := by
    have h1 : v.offset < W₆₄ := by
      simp only [getRow] at hv
      split at hv
      · simp only [mkDomain] at hv
        split at hv
        · simp only [Out.map, Out.val.injEq] at hv
          rw [← hv]; exact toIdx_lt _
        · simp [Out.map] at hv
      · simp at hv
    simp only [addr1, Nat.cast_zero, Int.zero_mul, Int.add_zero]
    rw [toIdx_nat h1]
  have hnr : (norm r i).toNat < r := by simp only [norm]; split <;> omega
  have hok : Ok1 ((r : ℤ) * c) v := by
    refine ⟨h, by rw [hv1]; decide, by rw [hv1]; decide, by rw [hv1]; decide, ?_⟩
    intro j hj
    rw [hn'] at hj
    have e0 := hb.addr (i := (norm r i).toNat) (j := 0) hnr hc
    have i0 := hb.inside (norm r i).toNat hnr j hj
    have hr0 : (addr1 v 0 : ℤ) = (addr2 (fresh2 r c) (norm r i).toNat 0 : ℤ) := by rw [ha 0 hc]; rfl
    rw [hv1, ← hoff, hr0, e0]
    have hst : (fresh2 r c).stride 1 = 1 := rfl
    rw [hst] at i0 ⊢
    push_cast at i0 ⊢
    omega
  obtain ⟨b', l, h1, h2, h3, h4, _⟩ := C70_slice hok s hs (by rw [hv1]; omega)
  rw [hn'] at h2 h4
  refine ⟨b', l, ?_, h2, h3, ?_⟩
  · rw [rowSlice, hv]; exact h1
  · intro k hk
    obtain ⟨a, c1⟩ := h4 k hk
    refine ⟨a, ?_⟩
    rw [c1, ha _ a]; rfl

example : (rowSlice (fresh2 3 4) 1 ⟨none, none, some (-2)⟩).map (fun r => (r.size 0, addr1 r 0, addr1 r 1)) = .val (2, 7, 5) := by decide +kernel

/-- **C70, partial (references).** `ref(i)` names element `i` of a vector with adjacent elements.  Missing: other vectors, see `C70_ref_false`. -/
theorem C70_ref_partial (b : Blk 1) (hst : b.stride 0 = 1) (i : ℕ) : ref1 b i = addr1 b i := by
  simp only [ref1, addr1, hst, Int.mul_one]

/-- **C70 is false (references).** `ref(i)` adds the index to the offset without multiplying by the stride. -/
theorem C70_ref_false : ¬ ∀ (b : Blk 1) (i : ℕ), Ok1 10 b → i < b.size 0 → ref1 b i = addr1 b i := by
  intro h
  have ok : Ok1 10 ⟨0, fun _ => 5, fun _ => 2⟩ := ⟨by decide, by decide, by decide, by decide, by intro i hi; have : i < 5 := hi; dsimp only; omega⟩
  have := h _ 1 ok (by decide)
  revert this
  decide +kernel

/-! ## Assignment to slices -/

/-- **C70, partial (assignment).** `v[s] = w`, for a vector `w` with as many elements as the slice selects and none of them in `v`, gives every selected element its
value and changes nothing else.  Missing: vectors that share elements, see `C70_overlap_false`. -/
theorem C70_setitem_partial {V : Type} {N M : ℤ} {v w : Blk 1} (hv : Ok1 N v) (hw : Ok1 M w) (bv bw : ℤ) (s : Slice) (h : s.step.getD 1 ≠ 0)
    (hk : -(2 ^ 62) < s.step.getD 1 * v.stride 0 ∧ s.step.getD 1 * v.stride 0 < 2 ^ 62)
    (hsep : ∀ i < v.size 0, ∀ j < w.size 0, bv + addr1 v i ≠ bw + addr1 w j) (hlen : ∀ l, Selects s (v.size 0) l → l.length = w.size 0) (mem : ℤ → V) :
    ∃ mem' l, setSlice bv v s bw w mem = .val mem' ∧ Selects s (v.size 0) l ∧
      (∀ k (hk : k < l.length), mem' (bv + addr1 v l[k]) = mem (bw + addr1 w k)) ∧
      ∀ a, (∀ k (hk : k < l.length), a ≠ bv + addr1 v l[k]) → mem' a = mem a := by
  obtain ⟨b, l, hb, hsel, hn, ha, hok⟩ := C70_slice hv s h hk
  have hlw := hlen l hsel
  obtain ⟨mem', h1, h2, h3⟩ := assign1_spec hok hw bv bw (hn.trans hlw) (fun i hi j hj => by
    rw [(ha i (by omega)).2]; exact hsep _ (ha i (by omega)).1 j hj) mem
  refine ⟨mem', l, ?_, hsel, ?_, ?_⟩
  · rw [setSlice, hb]; exact h1
  · intro k hk
    rw [← (ha k hk).2]
    exact h2 k (by omega)
  · intro a hna
    refine h3 a fun k hk => ?_
    rw [(ha k (by omega)).2]
    exact hna k (by omega)

/-- **C70 is false (shared elements).** `v[1:4] = v[0:3]` calls `memcpy` on overlapping regions, which is undefined, and `v[:] = v[::-1]` of three elements reads
elements it has already overwritten: the result is `v2, v1, v2`. -/
theorem C70_overlap_false :
    ((subblock1 (fresh1 4) ⟨some 0, some 3, none⟩).bind fun w => setSlice (V := ℤ) 0 (fresh1 4) ⟨some 1, some 4, none⟩ 0 w id).map (fun _ => ()) = .bad ∧
    ((subblock1 (fresh1 3) ⟨none, none, some (-1)⟩).bind fun w => setSlice (V := ℤ) 0 (fresh1 3) ⟨none, none, none⟩ 0 w id).map (fun m => (m 0, m 1, m 2)) =
      .val (2, 1, 2) := by
  refine ⟨by decide +kernel, by decide +kernel⟩

example : (setSlice (V := ℤ) 0 (fresh1 4) ⟨none, none, some (-2)⟩ 100 (fresh1 2) id).map (fun m => (m 0, m 1, m 2, m 3)) = .val (0, 101, 2, 100) := by
  decide +kernel

/-! ## Components -/

/-- **C70 (components by element).** Reading an element of `v.real()` or `v.imag()` gives the component of the element of `v`, and writing one changes that
component of that element only. -/
theorem C70_component {V : Type} {N : ℤ} {b : Blk 1} (hb : Ok1 N b) (re : Bool) (mem : ℤ → V) (i : ℕ) (hi : i < b.size 0) (x : V) :
    let el (m : ℤ → V) (k : ℕ) := (m (2 * (addr1 b k : ℤ)), m (2 * (addr1 b k : ℤ) + 1))
    compGet re b mem i = (if re then (el mem i).1 else (el mem i).2) ∧
    el (compPut re b mem i x) i = (if re then (x, (el mem i).2) else ((el mem i).1, x)) ∧
    ∀ j < b.size 0, j ≠ i → el (compPut re b mem i x) j = el mem j := by
  have hne : ∀ j < b.size 0, j ≠ i → (addr1 b j : ℤ) ≠ addr1 b i := by
    intro j hj hji he
    rw [hb.addr hj, hb.addr hi] at he
    have : ((j : ℤ) - i) * b.stride 0 = 0 := by rw [Int.sub_mul]; omega
    rcases Int.mul_eq_zero.1 this with h | h
    · omega
    · exact hb.ne h
  intro el
  refine ⟨?_, ?_, ?_⟩
  · cases re <;> simp [compGet, el]
  · cases re <;> simp [compPut, el]
  · intro j hj hji
    have h1 := hne j hj hji
    simp only [el, compPut]
    rw [Function.update_of_ne (by split <;> omega), Function.update_of_ne (by split <;> omega)]

/-- **C70, partial (components as a whole).** Copying or assigning a component block finds its first element, if the block starts the storage.  Missing: all other
elements, see `C70_component_false`. -/
theorem C70_component_partial {V : Type} (b : Blk 1) (hoff : b.offset = 0) (re : Bool) (mem : ℤ → V) : compCopy re b mem 0 = compGet re b mem 0 := by
  have h0 : toSigned 0 = 0 := by decide
  have h1 : toIdx 0 = 0 := by decide
  cases re <;> simp [compCopy, compGet, dda1, addr1, hoff, h0, h1]

/-- **C70 is false (components as a whole).** The component block offers direct data access with a pointer to scalars and the strides of the complex block, half of
what they should be: `v.real().copy()` of `(1 + 2i, 3 + 4i)` is `1, 2`. -/
theorem C70_component_false : ¬ ∀ (n : ℕ) (re : Bool) (mem : ℤ → ℤ) (i : ℕ), i < n → n < 100 → compCopy re (fresh1 n) mem i = compGet re (fresh1 n) mem i := by
  intro h
  have := h 2 true (fun a => a + 1) 1 (by decide) (by decide)
  revert this
  decide +kernel

/-- **C70 (what a component copy holds).** Element `i` of a copied component of a new vector is scalar `i` of the storage (for the imaginary part: the next one): the real and imaginary
parts of the first half of the vector, alternating. -/
theorem C70_component_copy {V : Type} (n : ℕ) (mem : ℤ → V) (k : ℕ) (hk : 2 * k + 1 < n) (hn : n < 9223372036854775808) :
    compCopy true (fresh1 n) mem (2 * k) = compGet true (fresh1 n) mem k ∧ compCopy true (fresh1 n) mem (2 * k + 1) = compGet false (fresh1 n) mem k ∧
    compCopy false (fresh1 n) mem (2 * k) = compGet false (fresh1 n) mem k := by
  have h0 : toSigned 0 = 0 := by decide
  have hb : (addr1 (fresh1 n) k : ℤ) = k := by
    have h : toIdx ((k : ℤ) * 1) = k := by unfold toIdx; simp only [Int.mul_one]; omega
    have h' : addr1 (fresh1 n) k = toIdx ((k : ℤ) * 1) := by simp [addr1, fresh1]
    rw [h', h]
  refine ⟨?_, ?_, ?_⟩ <;> simp only [compCopy, compGet, dda1, hb] <;> congr 1 <;> simp [fresh1, h0] <;> omega

example : compCopy true (fresh1 4) (fun a => 10 + a) 3 = 13 ∧ compGet false (fresh1 4) (fun a => 10 + a) 1 = 13 := by decide +kernel

/-- **C70 (arrays).** The NumPy array of a matrix has its elements where the matrix has them. -/
theorem C70_array {N : ℤ} {b : Blk 2} (hb : Ok2 N b) (base : ℤ) (size i j : ℕ) (hi : i < b.size 0) (hj : j < b.size 1) :
    array2 base size b i j = base + size * (addr2 b i j : ℤ) := by
  have h0 := hb.inside 0 (by omega) 0 (by omega)
  have hN := hb.small
  simp only [Nat.cast_zero, Int.zero_mul, Int.add_zero] at h0
  rw [hb.addr hi hj, array2, toSigned_of_lt (by omega)]
  ring

/-- **C70, partial (lifetime of arrays).** As long as the block is referenced from Python, its arrays can be used and released.  Missing: arrays that outlive the
block, see `C70_lifetime_false`. -/
theorem C70_lifetime_partial (s : Life) (ops : List LOp) (h : ops.count .dropBlock < s.blocks) : lrun s ops ≠ .bad := by
  induction ops generalizing s with
  | nil => simp [lrun]
  | cons o os ih =>
    have hpos : 0 < s.blocks := by omega
    cases o with
    | array =>
      rw [List.count_cons_of_ne (by decide)] at h
      simp only [lrun, lstep, if_pos hpos, Out.bind]
      exact ih _ h
    | dropBlock =>
      rw [List.count_cons_self] at h
      simp only [lrun, lstep, if_pos hpos, Out.bind]
      exact ih _ (by dsimp only; omega)
    | dropArray =>
      rw [List.count_cons_of_ne (by decide)] at h
      simp only [lrun, lstep, if_pos hpos]
      split
      · simp [Out.bind]
      · exact ih _ h
    | read =>
      rw [List.count_cons_of_ne (by decide)] at h
      simp only [lrun, lstep, if_pos hpos]
      split
      · simp [Out.bind]
      · exact ih _ h

/-- **C70 is false (lifetime of arrays).** An array made from a block is to keep the storage alive.  Its base object refers to the block by a C++ reference, which
Python does not count: after `a = vector(array=[1.,2.]).__array__()` the storage is gone while `a` still points to it. -/
theorem C70_lifetime_false : ¬ ∀ ops, lrun ⟨1, 0⟩ ops ≠ .bad := by
  intro h
  exact h [.array, .dropBlock, .read] rfl

/-! ## Python functions -/

/-- **C70, partial (initial values).** `vector(dtype, n, value)` has all its elements equal to `value`, if `value` counts as true in Python.  Missing: zero, see
`C70_zero_false`. -/
theorem C70_value_partial {V : Type} (truthy : V → Bool) (value : V) (h : truthy value = true) (junk : ℕ → V) (n i : ℕ) (hi : i < n) :
    newBlock truthy value junk n i = value := by
  simp [newBlock, h, hi]

/-- **C70 is false (initial values).** `vector(float, n, 0.)` is documented to be initialised to zero.  The idiom `value and a or b` takes zero for an absent value and
leaves the storage uninitialised. -/
theorem C70_zero_false : ¬ ∀ (value : ℤ) (junk : ℕ → ℤ) (n i : ℕ), i < n → newBlock (fun x => decide (x ≠ 0)) value junk n i = value := by
  intro h
  have := h 0 (fun _ => 7) 1 0 (by decide)
  revert this
  decide +kernel

/-- **C70, partial (sizes).** `m.size(d)` is the number of rows for `d = 0` and of columns for `d = 1`, of a matrix with at least one row.  Missing: no rows, see
`C70_size_false`. -/
theorem C70_size_partial (rows cols : ℕ) (h : 0 < rows) : matrixSize rows cols 0 = rows ∧ matrixSize rows cols 1 = cols := by
  simp only [matrixSize]
  constructor
  · rw [if_pos ⟨trivial, by omega⟩]
  · rw [if_neg (by simp)]

/-- **C70 is false (sizes).** For the empty slice `m[0:0, :]` of a matrix with three columns, `size(0)` is 3: the idiom `a and b or c` takes zero rows for false. -/
theorem C70_size_false : ¬ ∀ rows cols, matrixSize rows cols 0 = rows := by
  intro h
  exact absurd (h 0 3) (by decide)

/-- **C70, partial (printing).** A vector of one to six elements is printed in full, a longer one by its first five elements and dots.  Missing: the empty vector,
see `C70_str_false`. -/
theorem C70_str_partial (n : ℕ) (h : 0 < n) :
    vecStr n = .val (if n ≤ 6 then (List.range n).map Tok.elem else (List.range 5).map Tok.elem ++ [.dots]) := by
  by_cases h6 : n ≤ 6
  · rw [if_pos h6]
    obtain rfl | rfl | rfl | rfl | rfl | rfl : n = 1 ∨ n = 2 ∨ n = 3 ∨ n = 4 ∨ n = 5 ∨ n = 6 := by omega
    all_goals decide
  · rw [if_neg h6]
    simp only [vecStr, if_pos (show 6 < n by omega), if_neg (show ¬ n = 1 by omega)]

/-- **C70 is false (printing).** The empty vector, such as `v[0:0]`, cannot be printed: `__str__` asks for element -1. -/
theorem C70_str_false : vecStr 0 = .exc := rfl

/-- **C70 (first).** `first(j, f, v, w)` is the least index from `j` on at which `f` holds, or the size, for `j` not beyond the size. -/
theorem C70_first (j : ℕ) (f : ℕ → Bool) (size : ℕ) (hj : j ≤ size) :
    j ≤ first j f size ∧ first j f size ≤ size ∧ (∀ i, j ≤ i → i < first j f size → f i = false) ∧ (first j f size < size → f (first j f size) = true) := by
  unfold first
  generalize hk : size - j = k
  induction k generalizing j with
  | zero =>
    obtain rfl : j = size := by omega
    simp only [firstFrom]
    exact ⟨le_refl _, le_refl _, fun i h1 h2 => absurd h2 (by omega), fun h => absurd h (by omega)⟩
  | succ k ih =>
    simp only [firstFrom]
    by_cases hf : f j = true
    · rw [if_pos hf]
      exact ⟨le_refl _, hj, fun i h1 h2 => absurd h2 (by omega), fun _ => hf⟩
    · rw [if_neg hf]
      obtain ⟨h1, h2, h3, h4⟩ := ih (j + 1) (by omega) (by omega)
      refine ⟨by omega, h2, ?_, h4⟩
      intro i hi hlt
      rcases eq_or_lt_of_le hi with rfl | h
      · simpa using hf
      · exact h3 i h hlt

example : first 2 (fun i => i % 4 == 1) 10 = 5 := by decide

end Verif.Props
