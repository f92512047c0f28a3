import Verif.Util.Lemmas
import Mathlib.Data.Rat.Defs
import Mathlib.Algebra.Order.Ring.Unbundled.Rat
import Mathlib.Algebra.Field.Rat
import Mathlib.Algebra.Order.Field.Rat
import Mathlib.Data.Fintype.Pi
import Mathlib.Tactic.FinCases

/-!
# C78: utilities
-/

namespace Verif.Props

open Verif.Utl

/-- **C78 (comparison).** With a positive absolute tolerance, two numbers compare equal exactly if they differ by less than that tolerance, or by no
more than the relative tolerance of the smaller one.  The comparison is symmetric, and every number equals itself. -/
theorem C78_close {F : Type} [Field F] [LinearOrder F] [IsStrictOrderedRing F] (re ae : F) (hae : 0 < ae) (a b : F) :
    (almostEqual re ae a b = true ↔ Close re ae a b) ∧ (almostEqual re ae a b = almostEqual re ae b a) ∧ almostEqual re ae a a = true := by
  refine ⟨close_iff hae a b, ?_, (close_iff hae a a).2 (close_refl hae a)⟩
  rw [Bool.eq_iff_iff, close_iff hae, close_iff hae]
  exact close_symm a b

example : almostEqual (1 / 10 : ℚ) (1 / 1000) 100 110 = true ∧ almostEqual (1 / 10 : ℚ) (1 / 1000) 100 111 = false ∧ (0 : ℚ) < 1 / 1000 := by
  decide +kernel

/-- **C78 is false (no absolute tolerance).** Without an absolute tolerance zero does not compare equal to itself: the relative error is a quotient
of zeros. -/
theorem C78_zero_false : almostEqual (1 / 10 : ℚ) 0 0 0 = false ∧ Close (1 / 10 : ℚ) 0 0 0 := by
  refine ⟨by decide +kernel, ?_⟩
  right
  norm_num

/-- **C78 is false (complex numbers).** Complex numbers are compared part by part: a difference of a billionth of the modulus counts as inequality if
it falls on a part that is zero. -/
theorem C78_complex_false :
    equalC (1 / 10000 : ℚ) (1 / 1000000) (1000000, 0) (1000000, 1 / 1000) = false ∧
      ((1000000 : ℚ) - 1000000) ^ 2 + (0 - 1 / 1000) ^ 2 ≤ (1 / 1000000000) ^ 2 * (1000000 ^ 2 + 0 ^ 2) := by
  refine ⟨by decide +kernel, by norm_num⟩

/-- **C78 (views).** Two views compare equal exactly if they have the same sizes and all their elements compare equal. -/
theorem C78_views {α : Type} (eq : α → α → Bool) :
    (∀ v w : ℕ × (ℕ → α), equalV eq v w = true ↔ v.1 = w.1 ∧ ∀ i < v.1, eq (v.2 i) (w.2 i) = true) ∧
    (∀ v w : (ℕ × ℕ) × (ℕ → ℕ → α), equalM eq v w = true ↔ v.1 = w.1 ∧ ∀ i < v.1.1, ∀ j < v.1.2, eq (v.2 i j) (w.2 i j) = true) ∧
    (∀ v w : (ℕ × ℕ × ℕ) × (ℕ → ℕ → ℕ → α), equalT eq v w = true ↔
      v.1 = w.1 ∧ ∀ i < v.1.1, ∀ j < v.1.2.1, ∀ k < v.1.2.2, eq (v.2 i j k) (w.2 i j k) = true) := by
  refine ⟨fun v w => ?_, fun v w => ?_, fun v w => ?_⟩
  · unfold equalV
    by_cases h : v.1 = w.1
    · simp only [h, ne_eq, not_true_eq_false, if_false, scan0_iff, true_and]
    · simp [h]
  · unfold equalM
    obtain ⟨⟨a, b⟩, v⟩ := v
    obtain ⟨⟨c, d⟩, w⟩ := w
    by_cases h : a ≠ c ∨ b ≠ d
    · rw [if_pos h]
      simp only [Bool.false_eq_true, Prod.mk.injEq, false_iff, not_and]
      intro h1
      rcases h with h | h
      · exact absurd h1.1 h
      · exact absurd h1.2 h
    · rw [if_neg h]
      push Not at h
      simp only [scan0_iff, h.1, h.2, true_and]
  · unfold equalT
    obtain ⟨⟨a, b, e⟩, v⟩ := v
    obtain ⟨⟨c, d, f⟩, w⟩ := w
    by_cases h : a ≠ c ∨ b ≠ d ∨ e ≠ f
    · rw [if_pos h]
      simp only [Bool.false_eq_true, Prod.mk.injEq, false_iff, not_and]
      intro h1
      rcases h with h | h | h
      · exact absurd h1.1 h
      · exact absurd h1.2.1 h
      · exact absurd h1.2.2 h
    · rw [if_neg h]
      push Not at h
      simp only [scan0_iff, h.1, h.2.1, h.2.2, true_and]

example : equalM (fun a b : ℕ => a == b) ((2, 2), fun i j => i + j) ((2, 2), fun i j => j + i) = true := by decide

/-- **C78, partial (bitwise assignment).** `v op= w` and `m op= w` replace every element by `op` of itself and the element of `w`, and nothing else, if
no element of `w` is one that was written before it is read.  Missing: other overlaps, for which this is false (`C78_bits_false`). -/
theorem C78_bits_partial {α : Type} (op : α → α → α) (m : ℕ → α) :
    (∀ (n : ℕ) (f g : ℕ → ℕ), (∀ i j, i < j → j < n → f i ≠ f j ∧ f i ≠ g j) →
      Updated (List.range n) f (fun i => op (m (f i)) (m (g i))) m (bitV op n f g m)) ∧
    (∀ (R C : ℕ) (f g : ℕ → ℕ → ℕ),
      (∀ r c s d, (r < s ∨ r = s ∧ c < d) → r < R → s < R → c < C → d < C → f r c ≠ f s d ∧ f r c ≠ g s d) →
      Updated ((List.range R).flatMap fun r => (List.range C).map (Prod.mk r)) (fun x => f x.1 x.2)
        (fun x => op (m (f x.1 x.2)) (m (g x.1 x.2))) m (bitM op R C f g m)) := by
  constructor
  · intro n f g h
    unfold bitV
    refine sweep (List.range n) f (fun i m => op (m (f i)) (m (g i))) _ m (fun i _ => rfl) ?_
    refine range_pairwise _ _ fun i j hij hj => ?_
    obtain ⟨h1, h2⟩ := h i j hij hj
    refine ⟨h1, fun m x => ?_⟩
    rw [Function.update_of_ne h1.symm, Function.update_of_ne h2.symm]
  · intro R C f g h
    have e : bitM op R C f g m = ((List.range R).flatMap fun r => (List.range C).map (Prod.mk r)).foldl
        (fun m x => Function.update m (f x.1 x.2) (op (m (f x.1 x.2)) (m (g x.1 x.2)))) m := by
      rw [← foldl_flat]
      unfold bitM
      simp only [List.foldl_map]
    rw [e]
    refine sweep _ (fun x : ℕ × ℕ => f x.1 x.2) (fun x m => op (m (f x.1 x.2)) (m (g x.1 x.2))) _ m (fun i _ => rfl) ?_
    refine cells_pairwise _ _ _ fun r c s d h0 hr hs hc hd => ?_
    obtain ⟨h1, h2⟩ := h r c s d h0 hr hs hc hd
    refine ⟨h1, fun m x => ?_⟩
    dsimp only
    rw [Function.update_of_ne h1.symm, Function.update_of_ne h2.symm]

example : ∀ i j, i < j → j < 3 → (fun i : ℕ => i) i ≠ (fun i : ℕ => i) j ∧ (fun i : ℕ => i) i ≠ (fun i : ℕ => i + 1) j := by
  intro i j h1 h2
  simp only
  omega

/-- **C78 is false (overlap).** `m ^= m.transpose()` uses elements that have been overwritten: with 1, 2, 4, 8 in a matrix of two rows the element below
the diagonal becomes 2 instead of 6. -/
theorem C78_bits_false :
    bitM Nat.xor 2 2 (fun r c => 2 * r + c) (fun r c => 2 * c + r) (fun a => 2 ^ a) 2 = 2 ∧ Nat.xor (2 ^ 2) (2 ^ 1) = 6 := by
  decide +kernel

/-- **C78, partial (bitwise assignment of a value).** `v op= val` applies `op` with the same value to every element if `val` is not itself an element of
`v`.  Missing: elements of the vector (`C78_scalar_false`). -/
theorem C78_scalar_partial {α : Type} (op : α → α → α) (m : ℕ → α) (n : ℕ) (f : ℕ → ℕ) (a : ℕ) (hf : ∀ i j, i < j → j < n → f i ≠ f j)
    (ha : ∀ i < n, f i ≠ a) : Updated (List.range n) f (fun i => op (m (f i)) (m a)) m (bitS op n f a m) := by
  unfold bitS
  refine sweep (List.range n) f (fun i m => op (m (f i)) (m a)) _ m (fun i _ => rfl) ?_
  refine range_pairwise _ _ fun i j hij hj => ?_
  refine ⟨hf i j hij hj, fun m x => ?_⟩
  rw [Function.update_of_ne (hf i j hij hj).symm, Function.update_of_ne (ha i (by omega)).symm]

example : (∀ i j, i < j → j < 3 → (fun i : ℕ => 2 * i) i ≠ (fun i : ℕ => 2 * i) j) ∧ ∀ i < 3, (fun i : ℕ => 2 * i) i ≠ 5 := by
  constructor
  · intro i j h1 h2; simp only; omega
  · intro i h; simp only; omega

/-- **C78 is false (a value of the vector itself).** `v ^= v(0)` takes its argument by reference: the first step makes it zero, so that the other elements
stay as they are. -/
theorem C78_scalar_false :
    bitS Nat.xor 3 (fun i => i) 0 (fun a => a + 5) 0 = 0 ∧ bitS Nat.xor 3 (fun i => i) 0 (fun a => a + 5) 1 = 6 ∧ Nat.xor 6 5 = 3 := by
  decide +kernel

/-- **C78, partial (polar coordinates).** `recttopolar` stores modulus and argument of every element, also over the real and imaginary parts themselves,
if it writes nothing that is read or written for a later element.  Missing: other overlaps (`C78_polar_false`). -/
theorem C78_polar_partial {α : Type} (abs arg : α → α → α) (m : ℕ → α) (n : ℕ) (x y p q : ℕ → ℕ) (hpq : ∀ i < n, p i ≠ q i)
    (h : ∀ i j, i < j → j < n → ∀ a ∈ [p i, q i], a ∉ [p j, q j, x j, y j]) :
    (∀ i < n, rectToPolar abs arg n x y p q m (p i) = abs (m (x i)) (m (y i)) ∧ rectToPolar abs arg n x y p q m (q i) = arg (m (x i)) (m (y i))) ∧
      ∀ a, (∀ i < n, p i ≠ a ∧ q i ≠ a) → rectToPolar abs arg n x y p q m a = m a := by
  have key := polar_sweep abs arg x y p q (List.range n) m (fun i hi => hpq i (List.mem_range.1 hi)) (by
    refine range_pairwise _ _ fun i j hij hj => ?_
    have h1 := h i j hij hj (p i) (by simp)
    have h2 := h i j hij hj (q i) (by simp)
    simp only [List.mem_cons, List.not_mem_nil, or_false, not_or] at h1 h2
    exact ⟨h1, h2⟩)
  simp only [List.mem_range] at key
  exact key

example : (∀ i < 4, (fun i : ℕ => 2 * i) i ≠ (fun i : ℕ => 2 * i + 1) i) ∧
    ∀ i j, i < j → j < 4 → ∀ a ∈ [2 * i, 2 * i + 1], a ∉ [2 * j, 2 * j + 1, 2 * j, 2 * j + 1] := by
  constructor
  · intro i _; simp only; omega
  · intro i j h1 h2 a ha
    simp only [List.mem_cons, List.not_mem_nil, or_false, not_or] at ha ⊢
    omega

/-- **C78 is false (polar coordinates over other elements).** If the moduli go to the real parts of the following elements, later elements are computed
from moduli (here with the sum of the parts in place of the modulus). -/
theorem C78_polar_false :
    rectToPolar (· + ·) (· - ·) 2 (fun i => 2 * i) (fun i => 2 * i + 1) (fun i => 2 * i + 2) (fun i => 2 * i + 11) (fun a => a * a) 4 = 10 ∧
      2 * 2 + 3 * 3 = 13 := by
  decide +kernel

/-- **C78, partial (iterators).** With a difference of one, moving an iterator by any `int` and subtracting gives that `int` back; with any difference this
holds for moves forward that stay in range; a loop from a beginning to an end visits the values between, each once; moving back undoes moving forward, and of two
places ahead and in range the nearer compares less.  Missing: distances backwards with other
differences (`C78_distance_false`) and the postfix operators (`C78_postfix_false`). -/
theorem C78_iterators_partial (s : It) (hc : s.cur < 2 ^ 32) (hd : 0 < s.delta) :
    (s.delta = 1 → ∀ n : ℤ, -2 ^ 31 ≤ n → n < 2 ^ 31 → (s.plus n).dist s = some n ∧ s.dist (s.plus n) = some (if n = -2 ^ 31 then n else -n)) ∧
    (∀ n : ℕ, n < 2 ^ 31 → n * s.delta < 2 ^ 32 → (s.plus n).dist s = some (n : ℤ)) ∧
    (∀ n : ℕ, s.cur + n * s.delta < 2 ^ 32 → It.visit n s (s.plus n) = some ((List.range n).map fun i => s.cur + i * s.delta)) ∧
    (∀ n : ℤ, (s.plus n).minus n = s) ∧ s.inc.dec = s ∧ s.dec.inc = s ∧
    (∀ n m : ℕ, s.cur + n * s.delta < 2 ^ 32 → s.cur + m * s.delta < 2 ^ 32 → ((s.plus n).lt (s.plus m) = true ↔ n < m)) := by
  have undo : ∀ z : ℤ, u32 ((u32 ((s.cur : ℤ) + z) : ℕ) - z) = s.cur ∧ u32 ((u32 ((s.cur : ℤ) - z) : ℕ) + z) = s.cur := by
    intro z
    constructor
    · have e1 := u32_cast ((s.cur : ℤ) + z)
      have e2 := u32_cast (((u32 ((s.cur : ℤ) + z) : ℕ) : ℤ) - z)
      omega
    · have e1 := u32_cast ((s.cur : ℤ) - z)
      have e2 := u32_cast (((u32 ((s.cur : ℤ) - z) : ℕ) : ℤ) + z)
      omega
  have ahead : ∀ n : ℕ, s.cur + n * s.delta < 2 ^ 32 → (s.plus n).cur = s.cur + n * s.delta := by
    intro n hn
    have e : u32 ((n : ℤ) * s.delta) = n * s.delta := by
      apply u32_eq
      rw [Int.emod_eq_of_lt (by positivity) (by exact_mod_cast (by omega : n * s.delta < 2 ^ 32))]
      push_cast
      rfl
    show u32 ((s.cur : ℤ) + (u32 ((n : ℤ) * s.delta) : ℕ)) = _
    rw [e]
    apply u32_eq
    rw [Int.emod_eq_of_lt (by positivity) (by exact_mod_cast hn)]
    push_cast
    rfl
  refine ⟨fun h1 n hn1 hn2 => ⟨?_, ?_⟩, fun n hn1 hn2 => ?_, fun n hn => ?_, fun n => ?_, ?_, ?_, fun n m hn hm => ?_⟩
  rotate_left 4
  · cases s
    simp only [It.plus, It.minus, It.mk.injEq, and_true]
    exact (undo _).1
  · cases s
    simp only [It.inc, It.dec, It.mk.injEq, and_true]
    exact (undo _).1
  · cases s
    simp only [It.inc, It.dec, It.mk.injEq, and_true]
    exact (undo _).2
  · unfold It.lt
    rw [ahead n hn, ahead m hm, decide_eq_true_iff]
    constructor
    · intro h
      exact Nat.lt_of_mul_lt_mul_right (a := s.delta) (by omega)
    · intro h
      have := Nat.mul_lt_mul_of_pos_right h hd
      omega
  · unfold It.dist
    rw [show (s.plus n).delta = s.delta from rfl, if_neg (by omega), dist_plus s n hc, h1, Nat.div_one]
    congr 1
    have := u32_cast (n * (1 : ℕ))
    unfold i32
    split <;> omega
  · unfold It.dist
    rw [if_neg (by omega), h1, Nat.div_one]
    congr 1
    have e := u32_cast ((s.cur : ℤ) - ((s.plus n).cur : ℕ))
    have e2 : ((s.plus n).cur : ℤ) = (s.cur + (n * (1 : ℕ)) % 2 ^ 32) % 2 ^ 32 := by
      rw [It.plus, u32_cast, u32_cast, h1]
    unfold i32
    split <;> split <;> omega
  · unfold It.dist
    rw [show (s.plus n).delta = s.delta from rfl, if_neg (by omega), dist_plus s n hc]
    have e : u32 ((n : ℤ) * s.delta) = n * s.delta := by
      apply u32_eq
      rw [Int.emod_eq_of_lt (by positivity) (by exact_mod_cast hn2)]
      push_cast
      rfl
    rw [e, Nat.mul_div_cancel _ hd]
    unfold i32
    rw [if_pos hn1]
  · have e : s.plus n = ⟨s.cur + n * s.delta, s.delta⟩ := by
      simp only [It.plus, It.mk.injEq, and_true]
      have e1 : u32 ((n : ℤ) * s.delta) = n * s.delta := by
        apply u32_eq
        rw [Int.emod_eq_of_lt (by positivity) (by exact_mod_cast (by omega : n * s.delta < 2 ^ 32))]
        push_cast
        rfl
      rw [e1]
      apply u32_eq
      rw [Int.emod_eq_of_lt (by positivity) (by exact_mod_cast hn)]
      push_cast
      rfl
    rw [e]
    exact visit_eq s.delta hd n s.cur hn

example : (⟨3, 2⟩ : It).cur < 2 ^ 32 ∧ 0 < (⟨3, 2⟩ : It).delta ∧ It.visit 3 ⟨3, 2⟩ ⟨9, 2⟩ = some [3, 5, 7] := by decide

/-- **C78 is false (distances).** With a difference of two the distance to a later iterator is not negative: from 6 back to 2 it is 2147483646, though two
steps lead from 2 to 6. -/
theorem C78_distance_false : (⟨2, 2⟩ : It).dist ((⟨2, 2⟩ : It).plus 2) = some 2147483646 ∧ ((⟨2, 2⟩ : It).plus 2).dist ⟨2, 2⟩ = some 2 := by
  decide +kernel

/-- **C78 is false (postfix increment).** `it++` returns a reference to a local object, so a loop that reads `*it++` has no defined value, whatever the
range, unless it is empty. -/
theorem C78_postfix_false (k : ℕ) (s e : It) (h : s ≠ e) : It.visitPost k s e = none := by
  rcases k with _ | k
  · rw [It.visitPost, if_neg h]
  · rw [It.visitPost, if_neg h]
    rfl

/-- **C78, partial (operation counts).** The count of an inner product is the cost of its formula, for real and complex numbers; that of a matrix product is
the cost of the formula of one element times the number of elements if neither matrix is transposed, plus one for each element of a conjugated matrix; that of a filter is the cost of one product and one
addition per coefficient and output if the decimation divides the input size.  Missing: transposed products and running sums, for which the counts are wrong. -/
theorem C78_counts_partial (c : Bool) :
    (∀ n, opsDot c n = (Tree.inner n).cost (if c then 6 else 1) (if c then 2 else 1)) ∧
    (∀ r k q, ∀ ca cb : Bool, opsGemp c (r, k) (k, q) (if ca then .conj else .ntrans) (if cb then .conj else .ntrans) =
      r * q * (Tree.gemp k).cost (if c then 6 else 1) (if c then 2 else 1) + (if ca then r * k else 0) + (if cb then k * q else 0)) ∧
    (∀ order outs dec, 0 < dec →
      opsFir c order (outs * dec) dec = outs * ((order + 1) * (Tree.add .leaf (.mul .leaf .leaf)).cost (if c then 6 else 1) (if c then 2 else 1))) := by
  have hm : (if c then 6 else 1) = traitMul c := rfl
  have ha : (if c then 2 else 1) = traitAdd c := rfl
  rw [hm, ha]
  refine ⟨opsDot_eq c, fun r k q ca cb => ?_, fun order outs dec hd => ?_⟩
  · unfold opsGemp
    rw [opsDot_eq]
    cases ca <;> cases cb <;>
      simp only [MatOp.conjugates, Bool.false_eq_true, if_false, if_true, Tree.gemp, Tree.cost] <;> ring
  · unfold opsFir
    rw [← Nat.mul_assoc, Nat.mul_div_cancel _ hd]
    simp only [Tree.cost]
    ring

example : opsGemp true (2, 3) (3, 2) .ntrans .ntrans = 144 ∧ opsFir false 3 8 2 = 32 := by decide

/-- **C78 is false (transposed products).** The count of a matrix product takes sizes from the matrices as stored: for the transpose of 2 by 3 times 2 by 5, a
result of 3 by 5 whose elements are inner products of length 2, it is 80 instead of 90. -/
theorem C78_gemp_false :
    opsGemp false (2, 3) (2, 5) .trans .ntrans = 80 ∧ 3 * 5 * (Tree.gemp 2).cost (traitMul false) (traitAdd false) = 90 := by
  decide

/-- **C78 is false (running sums).** The count for running sums of `n` numbers is that of computing each sum afresh, `n (n - 1) / 2` additions; adding each
number to the sum before takes `n - 1`, so the count is too large for every `n` of three or more. -/
theorem C78_cumsum_false (n : ℕ) (hn : 3 ≤ n) : n - 1 < opsCumsum false n := by
  unfold opsCumsum traitAdd
  rw [if_pos (by omega)]
  simp only [Bool.false_eq_true, if_false, Nat.mul_one]
  obtain ⟨k, rfl⟩ : ∃ k, n = k + 3 := ⟨n - 3, by omega⟩
  rw [show k + 3 - 1 = k + 2 by omega]
  have : (k + 2) * (k + 3) = (k + 3) * 2 + (k * (k + 3)) := by ring
  rw [this]
  generalize k * (k + 3) = z
  omega

/-- **C78, partial (running sums).** For up to two numbers the count is that of the additions needed.  Missing: more numbers, see `C78_cumsum_false`. -/
theorem C78_cumsum_partial (n : ℕ) (hn : n ≤ 2) : opsCumsum false n = n - 1 ∧ opsCumsum true n = 2 * (n - 1) := by
  obtain rfl | rfl | rfl : n = 0 ∨ n = 1 ∨ n = 2 := by omega
  all_goals decide

example : opsCumsum true 2 = 2 := by decide

/-- **C78, partial (clock).** With a POSIX clock later instants have larger values, and the difference of two instants is the time between them in
nanoseconds, as long as the values fit 64 bits.  Missing: instants by default (`C78_default_false`) and time stamp counters (`C78_tsc_false`). -/
theorem C78_clock_partial (s n t k : ℤ) (hs : 0 ≤ s) (ht : 0 ≤ t) (hn : 0 ≤ n ∧ n < 1000000000) (hk : 0 ≤ k ∧ k < 1000000000)
    (hsb : s < 2 ^ 33) (htb : t < 2 ^ 33) :
    ∃ a b, nowPosix s n = some a ∧ nowPosix t k = some b ∧ (a < b ↔ s < t ∨ s = t ∧ n < k) ∧ elapsed b a = (t - s) * 1000000000 + (k - n) := by
  refine ⟨s * 1000000000 + n, t * 1000000000 + k, ?_, ?_, ?_, ?_⟩
  · unfold nowPosix; rw [if_pos (by constructor <;> omega)]
  · unfold nowPosix; rw [if_pos (by constructor <;> omega)]
  · constructor
    · intro h; omega
    · intro h; omega
  · unfold elapsed; ring

example : nowPosix 1700000000 5 = some 1700000000000000005 := by decide +kernel

/-- **C78 is false (instants by default).** A duration by default, `zero()` and an instant by default have no defined value, and so has a total that starts
from one, whatever is added; a total that starts from a given value is right. -/
theorem C78_default_false (l : List ℤ) : total timeZero l = none ∧ ∀ z, total (some z) l = some (z + l.sum) := by
  unfold total timeZero
  constructor
  · induction l with
    | nil => rfl
    | cons d l ih => exact ih
  · induction l with
    | nil => intro z; simp
    | cons d l ih =>
      intro z
      rw [List.foldl_cons, Option.map_some, ih, List.sum_cons, add_assoc]

/-- **C78 is false (time stamp counters).** A counter is converted to `float` before it is scaled: after some minutes at one tick a nanosecond, readings a
thousand ticks apart are the same, so the time between them is zero. -/
theorem C78_tsc_false : nowTsc 256 0 = nowTsc 256 1000 ∧ elapsed (nowTsc 256 1000) (nowTsc 256 0) = 0 := by decide +kernel

/-- **C78, partial (time stamp counters).** Readings of fewer than 2^24 ticks, and readings whose lower half is zero with fewer than 2^24 in the upper half, are
exact.  Missing: others (`C78_tsc_false`). -/
theorem C78_tsc_partial : (∀ a < 2 ^ 24, nowTsc 0 a = a) ∧ (∀ d < 2 ^ 24, nowTsc d 0 = d * 2 ^ 32) := by
  have hlog : ∀ n < 2 ^ 24, Nat.log2 n ≤ 23 := by
    intro n hn
    by_cases h0 : n = 0
    · subst h0; simp
    · have := (Nat.log2_lt h0).2 hn
      omega
  constructor
  · intro a ha
    have := hlog a ha
    unfold nowTsc toFloat
    rw [Nat.zero_mul, Nat.zero_add, show Nat.log2 a - 23 = 0 by omega, Nat.pow_zero, Nat.div_one, Nat.mul_one]
  · intro d hd
    have h1 := hlog d hd
    unfold nowTsc toFloat
    rw [Nat.add_zero]
    apply Nat.div_mul_cancel
    apply Dvd.dvd.mul_left
    apply Nat.pow_dvd_pow
    by_cases h0 : d = 0
    · subst h0; simp
    · have h2 : Nat.log2 (d * 2 ^ 32) < 56 := by
        refine (Nat.log2_lt (Nat.mul_ne_zero h0 (by norm_num))).2 ?_
        calc d * 2 ^ 32 < 2 ^ 24 * 2 ^ 32 := Nat.mul_lt_mul_of_pos_right hd (by norm_num)
          _ = 2 ^ 56 := by norm_num
      omega

example : nowTsc 0 12345 = 12345 ∧ nowTsc 3 0 = 12884901888 := by decide +kernel

/-- **C78, partial (printing).** The text of a vector, and of a row of a matrix, determines the elements if their texts contain no space or end of line.  Missing:
rows of tensors (`C78_print_false`). -/
theorem C78_print_partial :
    (∀ (idx : ℕ → List Char) (v w : List (List Char)), (∀ x ∈ v, '\n' ∉ x) → (∀ x ∈ w, '\n' ∉ x) → printVec idx v = printVec idx w → v = w) ∧
    (∀ (r : List Char) (v w : List (List Char)), (∀ x ∈ v, ' ' ∉ x) → (∀ x ∈ w, ' ' ∉ x) → printRow r v = printRow r w → v = w) := by
  constructor
  · intro idx v w hv hw h
    have e := lines_eq idx
    have e1 := e v 0
    have e2 := e w 0
    simp only [Nat.zero_add] at e1 e2
    unfold printVec at h
    rw [e1, e2] at h
    exact lines_inj idx v w 0 (fun x hx c hc e => hv x hx (e ▸ hc)) (fun x hx c hc e => hw x hx (e ▸ hc)) h
  · intro r v w hv hw h
    unfold printRow at h
    rw [List.append_cancel_right_eq, List.append_cancel_left_eq] at h
    exact flat_inj v w (fun x hx c hc e => hv x hx (e ▸ hc)) (fun x hx c hc e => hw x hx (e ▸ hc)) h

example : (∀ x ∈ [['1'], ['2', '3']], ' ' ∉ x ∧ '\n' ∉ x) ∧ printRow ['0'] [['1'], ['2', '3']] ≠ printRow ['0'] [['1', '2'], ['3']] := by decide

/-- **C78 is false (printing tensors).** The elements of a row of a tensor are printed without anything between: 1, 23 and 12, 3 give the same text. -/
theorem C78_print_false (r : List Char) : printRowT r [['1'], ['2', '3']] = printRowT r [['1', '2'], ['3']] := rfl

end Verif.Props
#print axioms Verif.Props.C78_cumsum_partial
