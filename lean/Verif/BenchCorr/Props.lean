import Verif.BenchCorr.Model
import Verif.Signal.Props
import Mathlib.Algebra.BigOperators.Intervals
import Mathlib.Order.Interval.Finset.Nat
import Mathlib.Algebra.Order.BigOperators.Group.Finset
import Mathlib.Tactic.Ring
/-!
# C101: benchmarks of correlations, and their memory
-/
namespace Verif.Props
open Verif Verif.Sig Verif.Bcr

/-! ### sizes -/

theorem bcr_out (supp : Supp) {M N : Nat} (h1 : 1 ≤ M) (h2 : M ≤ N) (h3 : N + M < 9223372036854775808) : Bcr.outSize supp M N = extent supp M N := by
  cases supp
  · show toIdx _ = N + M - 1
    unfold toIdx
    omega
  · rfl
  · show toIdx _ = N + 1 - M
    unfold toIdx
    omega

/-- **C101 (sizes).** For references of at least two elements that are not longer than the input, the benchmark makes an output of exactly the size the
correlation asks for, and a reference 1, 2, 0, 0, …. -/
theorem C101_sizes {T : Type} [Field T] (conj : T → T) (supp : Supp) (u : Bool) (ref inp : Vec T) (h1 : 2 ≤ ref.n) (h2 : ref.n ≤ inp.n)
    (h3 : inp.n + ref.n < 9223372036854775808) :
    ∃ r, Bcr.setup supp ref.n inp.n = some (inp.n, (correlate1 conj supp u ref inp).1, r) ∧ r.length = ref.n ∧
      ∀ k < ref.n, r[k]? = some (if k = 0 then 1 else if k = 1 then 2 else 0) := by
  have e : (correlate1 conj supp u ref inp).1 = extent supp ref.n inp.n := C42_size supp (by omega) h2 h3
  refine ⟨((List.replicate ref.n 0).set 0 1).set 1 2, ?_, by simp, ?_⟩
  · unfold Bcr.setup
    simp only
    rw [if_pos (by omega), if_pos (by omega), e, bcr_out supp (by omega) h2 h3]
  · intro k hk
    rw [List.getElem?_set, List.getElem?_set]
    by_cases k1 : k = 1
    · subst k1
      simp; omega
    · by_cases k0 : k = 0
      · subst k0
        simp; omega
      · rw [if_neg (fun h => k1 h.symm), if_neg (fun h => k0 h.symm), List.getElem?_replicate, if_pos hk, if_neg k0, if_neg k1]

example : Bcr.setup .full 3 8 = some (8, 10, [1, 2, 0]) ∧ Bcr.setup .min 3 8 = some (8, 6, [1, 2, 0]) := by decide +kernel

/-- **C101 is false (short references and inputs).** A reference of one element, a valid size, is written past its end.  With minimal support an input shorter than the
reference by two or more asks for an output of almost 2^64 elements; the sizes of the benchmark start at 16, so every `-param` above 17 does. -/
theorem C101_short_false (supp : Supp) : (∀ N, Bcr.setup supp 1 N = none) ∧
    (∀ M N, N + 1 < M → M < W₆₄ → ∃ r, Bcr.setup .min M N = some (N, W₆₄ - (M - N - 1), r)) := by
  constructor
  · intro N
    simp [Bcr.setup]
  · intro M N h h2
    refine ⟨((List.replicate M 0).set 0 1).set 1 2, ?_⟩
    unfold Bcr.setup
    simp only
    rw [if_pos (by omega), if_pos (by omega)]
    congr 2
    show (toIdx _, _) = _
    have : toIdx ((N : Int) - M + 1) = W₆₄ - (M - N - 1) := by
      unfold toIdx
      omega
    rw [this]

/-! ### operations -/

theorem bcr_col (supp : Supp) (M N : Nat) : Bcr.products supp M N =
    ∑ k ∈ Finset.range M, ((Finset.range (outputSize supp M N 1)).filter fun n => Bcr.makes supp M N n k = true).card := by
  unfold Bcr.products
  simp only [Finset.card_filter]
  exact Finset.sum_comm

theorem bcr_full {M N : Nat} (h1 : 1 ≤ M) (h2 : M ≤ N) (h3 : N + M < 9223372036854775808) : Bcr.products .full M N = M * N := by
  rw [bcr_col, C42_size .full h1 h2 h3]
  have : ∀ k ∈ Finset.range M, ((Finset.range (extent .full M N)).filter fun n => Bcr.makes .full M N n k = true).card = N := by
    intro k hk
    rw [Finset.mem_range] at hk
    have e : ((Finset.range (extent .full M N)).filter fun n => Bcr.makes .full M N n k = true) = Finset.Ico (M - 1 - k) (M - 1 - k + N) := by
      ext n
      simp only [Finset.mem_filter, Finset.mem_range, Finset.mem_Ico, Bcr.makes, extent, Bool.and_eq_true, decide_eq_true_eq]
      omega
    rw [e, Nat.card_Ico]
    omega
  rw [Finset.sum_congr rfl this, Finset.sum_const, Finset.card_range, smul_eq_mul]

theorem bcr_same {M N : Nat} (h1 : 1 ≤ M) (h2 : M ≤ N) (h3 : N + M < 9223372036854775808) :
    Bcr.products .same M N = ∑ k ∈ Finset.range M, (N - ((k - M / 2) + (M / 2 - k))) := by
  rw [bcr_col, C42_size .same h1 h2 h3]
  apply Finset.sum_congr rfl
  intro k hk
  rw [Finset.mem_range] at hk
  have e : ((Finset.range (extent .same M N)).filter fun n => Bcr.makes .same M N n k = true) = Finset.Ico (M / 2 - k) (N - (k - M / 2)) := by
    ext n
    simp only [Finset.mem_filter, Finset.mem_range, Finset.mem_Ico, Bcr.makes, extent, Bool.and_eq_true, decide_eq_true_eq]
    omega
  rw [e, Nat.card_Ico]
  omega

theorem bcr_min {M N : Nat} (h1 : 1 ≤ M) (h2 : M ≤ N) (h3 : N + M < 9223372036854775808) : Bcr.products .min M N = M * (N + 1 - M) := by
  rw [bcr_col, C42_size .min h1 h2 h3]
  have : ∀ k ∈ Finset.range M, ((Finset.range (extent .min M N)).filter fun n => Bcr.makes .min M N n k = true).card = N + 1 - M := by
    intro k hk
    simp [Bcr.makes, extent]
  rw [Finset.sum_congr rfl this, Finset.sum_const, Finset.card_range, smul_eq_mul]

/-- **C101, partial (operations).** With minimal support the operations counted are those of the products made.  Missing: full and equal support
(`C101_ops_false`). -/
theorem C101_ops_partial (M N w : Nat) (h1 : 1 ≤ M) (h2 : M ≤ N) (h3 : N + M < 9223372036854775808) :
    Bcr.ops .min M N w = Bcr.products .min M N * w := by
  unfold Bcr.ops
  rw [bcr_min h1 h2 h3, bcr_out .min h1 h2 h3]
  rfl

/-- **C101 is false (operations).** With full support `M N` products are made, but `M (M - 1)` more are counted; with equal support, too, more operations are counted
than made, for every reference of at least two elements. -/
theorem C101_ops_false (M N w : Nat) (hw : 0 < w) (h1 : 2 ≤ M) (h2 : M ≤ N) (h3 : N + M < 9223372036854775808) :
    Bcr.products .full M N = M * N ∧ Bcr.ops .full M N w = (Bcr.products .full M N + M * (M - 1)) * w ∧
    Bcr.products .same M N < M * N ∧ Bcr.products .same M N * w < Bcr.ops .same M N w := by
  have hf := bcr_full (by omega) h2 h3
  have hlt : Bcr.products .same M N < M * N := by
    rw [bcr_same (by omega) h2 h3]
    calc ∑ k ∈ Finset.range M, (N - ((k - M / 2) + (M / 2 - k))) < ∑ _k ∈ Finset.range M, N := by
          apply Finset.sum_lt_sum
          · intro k _
            exact Nat.sub_le _ _
          · refine ⟨0, Finset.mem_range.2 (by omega), ?_⟩
            omega
      _ = M * N := by rw [Finset.sum_const, Finset.card_range, smul_eq_mul]
  refine ⟨hf, ?_, hlt, ?_⟩
  · unfold Bcr.ops
    rw [hf, bcr_out .full (by omega) h2 h3]
    show M * (N + M - 1) * w = _
    rw [Nat.add_sub_assoc (by omega), Nat.mul_add]
  · unfold Bcr.ops
    exact Nat.mul_lt_mul_of_pos_right hlt hw

example : Bcr.products .same 4 9 = 32 ∧ Bcr.ops .same 4 9 1 = 36 ∧ Bcr.ops .full 4 9 1 = 48 ∧ Bcr.products .min 4 9 = 24 := by decide +kernel

/-! ### memory -/

/-- specification: the byte `x` belongs to one of the ranges -/
def bcr_mem (l : List Bcr.Bytes) (x : Nat) : Prop := ∃ b ∈ l, b.first ≤ x ∧ x < b.first + b.len

/-- **C101 (memory).** In both formats a block takes the `2 n s` bytes from its address and offset on, each byte once; so blocks whose offsets are that far apart share no
byte. -/
theorem C101_place (split : Bool) (s n addr offset : Nat) :
    (∀ x, bcr_mem (Bcr.place split s n addr offset) x ↔ addr + offset ≤ x ∧ x < addr + offset + 2 * (n * s)) ∧
    (Bcr.place split s n addr offset).Pairwise (fun a b => ∀ x, ¬ ((a.first ≤ x ∧ x < a.first + a.len) ∧ (b.first ≤ x ∧ x < b.first + b.len))) ∧
    (∀ split' s' n' offset', offset + 2 * (n * s) ≤ offset' → ∀ x, ¬ (bcr_mem (Bcr.place split s n addr offset) x ∧
      bcr_mem (Bcr.place split' s' n' addr offset') x)) := by
  have key : ∀ (split : Bool) (s n addr offset x : Nat), bcr_mem (Bcr.place split s n addr offset) x ↔
      addr + offset ≤ x ∧ x < addr + offset + 2 * (n * s) := by
    intro split s n addr offset x
    unfold bcr_mem Bcr.place
    cases split
    · have : n * (2 * s) = 2 * (n * s) := by ring
      simp [this]
    · simp only [if_true, List.mem_cons, List.not_mem_nil, or_false, exists_eq_or_imp, exists_eq_left]
      generalize n * s = q
      omega
  refine ⟨key split s n addr offset, ?_, ?_⟩
  · unfold Bcr.place
    cases split
    · simp
    · simp only [if_true, List.pairwise_cons, List.mem_cons, List.not_mem_nil, or_false, forall_eq, false_implies, implies_true, List.Pairwise.nil, and_true]
      intro x
      generalize n * s = q
      omega
  · intro split' s' n' offset' h x
    rw [key, key]
    omega

example : Bcr.place true 4 8 4096 64 = [⟨4160, 32⟩, ⟨4192, 32⟩] ∧ Bcr.place false 4 8 4096 64 = [⟨4160, 64⟩] := by decide

/-- **C101, partial (huge pages).** For 1 to 127 pages the memory mapped has that many pages, and one byte of each of them, inside the memory, is touched.
Missing: more pages (`C101_pages_false`). -/
theorem C101_pages_partial (p : Nat) (h1 : 1 ≤ p) (h2 : p ≤ 127) :
    ∃ t, Bcr.openPages p = some (some (p * 16777216, t)) ∧ t.length = p ∧ ∀ i < p, ∃ x, t[i]? = some x ∧ x / 16777216 = i ∧ x < p * 16777216 := by
  refine ⟨(List.range p).map fun i => i * 16777216 + 8388608, ?_, by simp, ?_⟩
  · unfold Bcr.openPages
    simp only
    rw [if_neg (by omega), if_neg (by omega)]
    have : ((p : Int) * 16777216).toNat = p * 16777216 := by omega
    rw [this, Int.toNat_natCast]
  · intro i hi
    refine ⟨i * 16777216 + 8388608, by simp [hi], by omega, by omega⟩

example : Bcr.openPages 2 = some (some (33554432, [8388608, 25165824])) := by decide +kernel

/-- **C101 is false (huge pages).** From 128 pages (2 GB) on the number of bytes overflows `int`. -/
theorem C101_pages_false (p : Int) (h : 128 ≤ p) : Bcr.openPages p = none := by
  unfold Bcr.openPages
  simp only
  rw [if_pos (by omega)]

end Verif.Props
#print axioms Verif.Props.C101_sizes
#print axioms Verif.Props.C101_short_false
#print axioms Verif.Props.C101_ops_partial
#print axioms Verif.Props.C101_ops_false
#print axioms Verif.Props.C101_place
#print axioms Verif.Props.C101_pages_partial
#print axioms Verif.Props.C101_pages_false
