import Verif.Custom.Model
import Mathlib.Tactic.Ring
import Mathlib.Tactic.Linarith
import Mathlib.Tactic.LinearCombination
import Mathlib.Tactic.Positivity
import Mathlib.Tactic.FieldSimp
import Mathlib.Tactic.NormNum

/-! # C95: the examples of custom evaluators, convolutions and solvers -/

namespace Verif.Props

open Verif.Custom Verif.Custom.Spec

theorem cst_mapM_some {α β : Type} {f : α → Option β} {g : α → β} {l : List α}
    (h : ∀ x ∈ l, f x = some (g x)) : l.mapM f = some (l.map g) := by
  induction l with
  | nil => rfl
  | cons a l ih =>
    rw [List.mapM_cons, h a (by simp), ih (fun x hx => h x (by simp [hx]))]
    rfl

theorem cst_mapM_none {α β : Type} {f : α → Option β} {l : List α} {x : α} (hx : x ∈ l)
    (h : f x = none) : l.mapM f = none := by
  induction l with
  | nil => simp at hx
  | cons a l ih =>
    rw [List.mapM_cons]
    rcases List.mem_cons.mp hx with rfl | hx'
    · rw [h]; rfl
    · cases f a with
      | none => rfl
      | some b => rw [ih hx']; rfl

/-! ## Interpolation -/

theorem cst_pos (o n i : ℕ) (ho : 0 < o) (hi : i < n) :
    0 ≤ position o n i ∧ position o n i < o ∧ position o n i = (i : ℚ) * o / n := by
  have hn : (0 : ℚ) < n := by exact_mod_cast (by omega : 0 < n)
  have ho' : (0 : ℚ) < o := by exact_mod_cast ho
  have e : position o n i = (i : ℚ) * o / n := by
    unfold position; field_simp
  refine ⟨by rw [e]; positivity, ?_, e⟩
  rw [e, div_lt_iff₀ hn]
  have : (i : ℚ) < n := by exact_mod_cast hi
  nlinarith

theorem cst_floor (o n i : ℕ) (ho : 0 < o) (hi : i < n) :
    ((⌊position o n i⌋.toNat : ℕ) : ℚ) ≤ position o n i ∧
      position o n i < (⌊position o n i⌋.toNat : ℕ) + 1 ∧ ⌊position o n i⌋.toNat < o := by
  obtain ⟨h0, h1, _⟩ := cst_pos o n i ho hi
  have hf : 0 ≤ ⌊position o n i⌋ := Int.floor_nonneg.mpr h0
  have hc : ((⌊position o n i⌋.toNat : ℕ) : ℚ) = ((⌊position o n i⌋ : ℤ) : ℚ) := by
    exact_mod_cast Int.toNat_of_nonneg hf
  refine ⟨by rw [hc]; exact Int.floor_le _, by rw [hc]; exact Int.lt_floor_add_one _, ?_⟩
  have : ⌊position o n i⌋ < (o : ℤ) := by
    rw [Int.floor_lt]; exact_mod_cast h1
  omega

/-- **C95 (bounds of the interpolation).** The fused interpolation reads inside its argument for every
value of the result, whatever the two sizes. -/
theorem C95_resample_inside (arg : List ℚ) (s : ℚ) (n i : ℕ) (h : arg ≠ []) (hi : i < n) :
    (interp arg s n i).isSome = true := by
  have hl : 0 < arg.length := List.length_pos_iff.mpr h
  obtain ⟨_, _, h3⟩ := cst_floor arg.length n i hl hi
  unfold interp
  split
  · rw [List.getElem?_eq_getElem h3]; rfl
  · rename_i hne
    rw [List.getElem?_eq_getElem h3, List.getElem?_eq_getElem (by omega)]; rfl

example : (interp [1, 2, 3] 2 7 5).isSome = true := C95_resample_inside _ _ _ _ (by simp) (by decide)

/-- **C95, partial (fused interpolation).** Between two samples the fused interpolation gives a point of
a straight line through the two scaled samples, but with the samples exchanged; equal samples are
kept. Missing: the samples in their order and the end, see `C95_resample_false` and
`C95_resample_end_false`. -/
theorem C95_resample_partial (arg : List ℚ) (s : ℚ) (n i j : ℕ) (hi : i < n)
    (hj : j + 1 < arg.length) (h0 : (j : ℚ) ≤ (i : ℚ) * arg.length / n)
    (h1 : (i : ℚ) * arg.length / n < j + 1) :
    ∃ v, interp arg s n i = some v ∧
      OnLine j (s * arg.getD (j + 1) 0) (j + 1) (s * arg.getD j 0) ((i : ℚ) * arg.length / n) v ∧
      (arg.getD j 0 = arg.getD (j + 1) 0 → v = s * arg.getD j 0) := by
  obtain ⟨_, _, e⟩ := cst_pos arg.length n i (by omega) hi
  have hf : ⌊position arg.length n i⌋.toNat = j := by
    have : ⌊position arg.length n i⌋ = (j : ℤ) := by
      rw [Int.floor_eq_iff, e]; exact ⟨by exact_mod_cast h0, by exact_mod_cast h1⟩
    omega
  have key : interp arg s n i = some (s * (arg.getD j 0 * ((i : ℚ) * arg.length / n - j) +
      arg.getD (j + 1) 0 * (1 - ((i : ℚ) * arg.length / n - j)))) := by
    unfold interp
    rw [hf, e, if_neg (by omega), List.getElem?_eq_getElem (by omega : j < arg.length),
      List.getElem?_eq_getElem hj]
    simp [List.getD_eq_getElem?_getD, hj, (by omega : j < arg.length)]
  refine ⟨_, key, ?_, ?_⟩
  · unfold OnLine; ring
  · intro h; rw [← h]; ring

example : ∃ v, interp [1, 5, 2] 2 6 1 = some v ∧ OnLine (0 : ℕ) (2 * 5) ((0 : ℕ) + 1) (2 * 1)
    (((1 : ℕ) : ℚ) * (3 : ℕ) / (6 : ℕ)) v ∧ ((1 : ℚ) = 5 → v = 2 * 1) :=
  C95_resample_partial [1, 5, 2] 2 6 1 0 (by decide) (by decide) (by norm_num) (by norm_num)

/-- **C95 is false (interpolation at a sample).** Where a value of the result falls on sample `j` (in
particular the first value) the fused interpolation gives the next sample. -/
theorem C95_resample_false (arg : List ℚ) (s : ℚ) (n i j : ℕ) (hi : i < n)
    (hj : j + 1 < arg.length) (h : i * arg.length = j * n) :
    interp arg s n i = some (s * arg.getD (j + 1) 0) := by
  have hn : (0 : ℚ) < n := by exact_mod_cast (by omega : 0 < n)
  have e : (i : ℚ) * arg.length / n = j := by
    rw [div_eq_iff (ne_of_gt hn)]; exact_mod_cast h
  obtain ⟨v, h1, h2, _⟩ := C95_resample_partial arg s n i j hi hj (by rw [e]) (by rw [e]; linarith)
  rw [h1]
  unfold OnLine at h2
  rw [e] at h2
  congr 1
  linarith

example : interp [1, 5, 2] 1 6 0 = some (1 * 5) :=
  C95_resample_false [1, 5, 2] 1 6 0 0 (by decide) (by decide) rfl

/-- **C95 is false (end of the interpolation).** Where a value of the result falls on the last sample it
is zero, whatever the sample: the example's own constant vector is not kept. -/
theorem C95_resample_end_false :
    (∀ (arg : List ℚ) (s : ℚ) (n i : ℕ), i < n → arg ≠ [] →
      i * arg.length = (arg.length - 1) * n → interp arg s n i = some 0) ∧
      interp (List.replicate 8 2) 2 32 28 = some 0 := by
  have key : ∀ (arg : List ℚ) (s : ℚ) (n i : ℕ), i < n → arg ≠ [] →
      i * arg.length = (arg.length - 1) * n → interp arg s n i = some 0 := by
    intro arg s n i hi ha h
    have hl : 0 < arg.length := List.length_pos_iff.mpr ha
    obtain ⟨m, hm⟩ : ∃ m, arg.length = m + 1 := ⟨arg.length - 1, by omega⟩
    have hn : (0 : ℚ) < n := by exact_mod_cast (by omega : 0 < n)
    obtain ⟨_, _, e⟩ := cst_pos arg.length n i hl hi
    have e' : position arg.length n i = m := by
      rw [e, div_eq_iff (ne_of_gt hn)]
      rw [hm] at h ⊢
      simp only [Nat.add_sub_cancel] at h
      exact_mod_cast h
    have hf : ⌊position arg.length n i⌋.toNat = m := by rw [e']; simp
    unfold interp
    rw [hf, e', if_pos (by omega), List.getElem?_eq_getElem (by omega : m < arg.length)]
    simp
  exact ⟨key, key _ 2 32 28 (by decide) (by simp) (by simp)⟩

example : interp [3, 9] 5 4 2 = some 0 := C95_resample_end_false.1 [3, 9] 5 4 2 (by decide) (by simp) rfl

/-! ## Matrix products -/

theorem cst_inner (a b : ℕ → ℕ → ℚ) (n i j : ℕ) : inner a b n i j = product n a b i j := by
  unfold inner product
  have : ∀ (l : List ℕ) (acc : ℚ), l.foldl (fun sum k => sum + a i k * b k j) acc =
      acc + (l.map fun k => a i k * b k j).sum := by
    intro l
    induction l with
    | nil => intro acc; simp
    | cons k l ih => intro acc; rw [List.foldl_cons, ih]; simp [add_assoc]
  rw [this]; simp

theorem cst_cols (a b : ℕ → ℕ → ℚ) (n i c : ℕ) (z : ℕ → ℕ → ℚ) (i' j' : ℕ) :
    (List.range c).foldl (fun z j => fun i' j' => if i' = i ∧ j' = j then inner a b n i j else z i' j')
      z i' j' = if i' = i ∧ j' < c then product n a b i' j' else z i' j' := by
  induction c with
  | zero => simp
  | succ c ih =>
    rw [List.range_succ, List.foldl_append, List.foldl_cons, List.foldl_nil]
    by_cases h : i' = i ∧ j' = c
    · obtain ⟨rfl, rfl⟩ := h
      rw [if_pos ⟨rfl, rfl⟩, if_pos ⟨rfl, by omega⟩, cst_inner]
    · rw [if_neg h, ih]
      by_cases h2 : i' = i ∧ j' < c
      · rw [if_pos h2, if_pos ⟨h2.1, by omega⟩]
      · rw [if_neg h2, if_neg]
        rintro ⟨h3, h4⟩
        rcases Nat.lt_or_ge j' c with h5 | h5
        · exact h2 ⟨h3, h5⟩
        · exact h ⟨h3, by omega⟩

/-- **C95 (custom product with blocks).** The custom product gives every element of the product of
matrices of any size, and leaves nothing else changed. -/
theorem C95_product (a b z : ℕ → ℕ → ℚ) (r c n i j : ℕ) :
    mprod a b r c n z i j = if i < r ∧ j < c then product n a b i j else z i j := by
  unfold mprod
  induction r with
  | zero => simp
  | succ r ih =>
    rw [List.range_succ, List.foldl_append, List.foldl_cons, List.foldl_nil, cst_cols, ih]
    by_cases h : i = r ∧ j < c
    · rw [if_pos h, if_pos ⟨by omega, h.2⟩]
    · rw [if_neg h]
      by_cases h2 : i < r ∧ j < c
      · rw [if_pos h2, if_pos ⟨by omega, h2.2⟩]
      · rw [if_neg h2, if_neg]
        rintro ⟨h3, h4⟩
        rcases Nat.lt_or_ge i r with h5 | h5
        · exact h2 ⟨h5, h4⟩
        · exact h ⟨by omega, h4⟩

example : mprod (fun _ _ => 1) (fun _ _ => 2) 4 8 4 (fun _ _ => 0) 3 7 = 8 := by
  rw [C95_product]; norm_num [product, List.range_succ]

/-- The pairs of indices the second product goes through. -/
theorem cst_pair {n i j : ℕ} : (i, j) ∈ ((List.range n).flatMap fun i =>
    (List.range 4).map fun j => (i, j)) ↔ i < n ∧ j < 4 := by
  simp [List.mem_flatMap]

theorem cst_dot {A B : List ℚ} {i j : ℕ} (hA : i * 4 + 3 < A.length) (hB : 12 + j < B.length) :
    dot A B i j = some (product 4 (rows 4 A) (rows 4 B) i j) := by
  have e : List.range 4 = [0, 1, 2, 3] := rfl
  unfold dot product rows
  rw [e]
  simp only [List.foldlM_cons, List.foldlM_nil, Option.bind_eq_bind]
  rw [List.getElem?_eq_getElem (by omega : i * 4 + 0 < A.length),
    List.getElem?_eq_getElem (by omega : i * 4 + 1 < A.length),
    List.getElem?_eq_getElem (by omega : i * 4 + 2 < A.length),
    List.getElem?_eq_getElem (by omega : i * 4 + 3 < A.length),
    List.getElem?_eq_getElem (by omega : 0 * 4 + j < B.length),
    List.getElem?_eq_getElem (by omega : 1 * 4 + j < B.length),
    List.getElem?_eq_getElem (by omega : 2 * 4 + j < B.length),
    List.getElem?_eq_getElem (by omega : 3 * 4 + j < B.length)]
  simp only [Option.bind_some, List.map_cons, List.map_nil, List.sum_cons, List.sum_nil,
    List.getD_eq_getElem?_getD]
  rw [List.getElem?_eq_getElem (by omega : i * 4 + 0 < A.length),
    List.getElem?_eq_getElem (by omega : i * 4 + 1 < A.length),
    List.getElem?_eq_getElem (by omega : i * 4 + 2 < A.length),
    List.getElem?_eq_getElem (by omega : i * 4 + 3 < A.length),
    List.getElem?_eq_getElem (by omega : 0 * 4 + j < B.length),
    List.getElem?_eq_getElem (by omega : 1 * 4 + j < B.length),
    List.getElem?_eq_getElem (by omega : 2 * 4 + j < B.length),
    List.getElem?_eq_getElem (by omega : 3 * 4 + j < B.length)]
  simp only [Option.getD_some]
  show some _ = some _
  congr 1
  ring

/-- **C95, partial (custom product with pointers).** For four columns and matrices without gaps the
product with pointers writes exactly the elements of the product. Missing: other numbers of columns
and rows apart, see `C95_dda_false` and `C95_rows_false`. -/
theorem C95_dda_partial (A B : List ℚ) (hA : A.length = 16) (hB : B.length = 16) :
    ∃ w, mprodDda A B 16 4 = some w ∧ ∀ p v, (p, v) ∈ w ↔
      ∃ i j, i < 4 ∧ j < 4 ∧ p = i * 4 + j ∧ v = product 4 (rows 4 A) (rows 4 B) i j := by
  have key : mprodDda A B 16 4 = some (((List.range 4).flatMap fun i =>
      (List.range 4).map fun j => (i, j)).map fun p =>
        (p.1 * 4 + p.2, product 4 (rows 4 A) (rows 4 B) p.1 p.2)) := by
    unfold mprodDda
    apply cst_mapM_some
    rintro ⟨i, j⟩ h
    obtain ⟨h1, h2⟩ := cst_pair.mp h
    show (dot A B i j).bind _ = _
    rw [cst_dot (by omega) (by omega), Option.bind_some, if_pos (by omega)]
  refine ⟨_, key, ?_⟩
  intro p v
  rw [List.mem_map]
  constructor
  · rintro ⟨⟨i, j⟩, h, he⟩
    obtain ⟨h1, h2⟩ := cst_pair.mp h
    obtain ⟨e1, e2⟩ := Prod.mk.inj he
    exact ⟨i, j, h1, h2, e1.symm, e2.symm⟩
  · rintro ⟨i, j, h1, h2, rfl, rfl⟩
    exact ⟨(i, j), cst_pair.mpr ⟨h1, h2⟩, rfl⟩

example : ∃ w, mprodDda (List.replicate 16 1) (List.replicate 16 2) 16 4 = some w ∧
    ∀ p v, (p, v) ∈ w ↔ ∃ i j, i < 4 ∧ j < 4 ∧ p = i * 4 + j ∧
      v = product 4 (rows 4 (List.replicate 16 1)) (rows 4 (List.replicate 16 2)) i j :=
  C95_dda_partial _ _ rfl rfl

/-- **C95 is false (custom product with pointers, columns).** The evaluator accepts a second matrix of
any number of columns, but with any number of columns except none and four (eight in the example
itself) it reads outside one of the arrays: the loops go over `n` rows of four elements instead of
four rows of `n`. -/
theorem C95_dda_false : rtValid 4 4 1 1 1 = true ∧
    ∀ (A B : List ℚ) (n : ℕ), A.length = 16 → B.length = 4 * n → n ≠ 0 → n ≠ 4 →
      mprodDda A B (4 * n) n = none := by
  refine ⟨rfl, ?_⟩
  intro A B n hA hB h0 h4
  have e : List.range 4 = [0, 1, 2, 3] := rfl
  unfold mprodDda
  rcases Nat.lt_or_ge n 4 with h | h
  · apply cst_mapM_none (x := (0, 3)) (cst_pair.mpr ⟨by omega, by omega⟩)
    have hd : dot A B 0 3 = none := by
      unfold dot
      rw [e]
      simp only [List.foldlM_cons, List.foldlM_nil, Option.bind_eq_bind]
      rw [show B[3 * 4 + 3]? = none from List.getElem?_eq_none (by omega)]
      simp
    show (dot A B 0 3).bind _ = none
    rw [hd]; rfl
  · apply cst_mapM_none (x := (4, 0)) (cst_pair.mpr ⟨by omega, by omega⟩)
    have hd : dot A B 4 0 = none := by
      unfold dot
      rw [e]
      simp only [List.foldlM_cons, List.foldlM_nil, Option.bind_eq_bind]
      rw [show A[4 * 4 + 0]? = none from List.getElem?_eq_none (by omega)]
      simp
    show (dot A B 4 0).bind _ = none
    rw [hd]; rfl

example : mprodDda (List.replicate 16 1) (List.replicate 32 2) 32 8 = none :=
  C95_dda_false.2 _ _ 8 rfl rfl (by decide) (by decide)

/-- **C95 is false (custom product with pointers, rows).** The evaluator does not look at the distance
between rows: for the left half of a matrix of eight columns the wrong elements are taken. With a
first matrix whose only element other than zero is a one in row 0 and column 1 the first element is
that of row 0 and column 4 of the whole second matrix instead of row 1 and column 0. -/
theorem C95_rows_false : rtValid 4 4 1 1 1 = true ∧
    ∀ B : List ℚ, B.length = 32 →
      ∃ w, mprodDda (0 :: 1 :: List.replicate 14 0) B 16 4 = some ((0, rows 8 B 0 4) :: w) ∧
        product 4 (rows 4 (0 :: 1 :: List.replicate 14 0)) (rows 8 B) 0 0 = rows 8 B 1 0 := by
  refine ⟨rfl, ?_⟩
  intro B hB
  have key : mprodDda (0 :: 1 :: List.replicate 14 0) B 16 4 = some (((List.range 4).flatMap fun i =>
      (List.range 4).map fun j => (i, j)).map fun p =>
        (p.1 * 4 + p.2, product 4 (rows 4 (0 :: 1 :: List.replicate 14 0)) (rows 4 B) p.1 p.2)) := by
    unfold mprodDda
    apply cst_mapM_some
    rintro ⟨i, j⟩ h
    obtain ⟨h1, h2⟩ := cst_pair.mp h
    show (dot _ B i j).bind _ = _
    rw [cst_dot (by simp; omega) (by omega), Option.bind_some, if_pos (by omega)]
  refine ⟨(((List.range 4).flatMap fun i =>
      (List.range 4).map fun j => (i, j)).map fun p =>
        (p.1 * 4 + p.2, product 4 (rows 4 (0 :: 1 :: List.replicate 14 0)) (rows 4 B) p.1 p.2)).tail,
    ?_, ?_⟩
  · rw [key]
    congr 1
    have e : ((List.range 4).flatMap fun i => (List.range 4).map fun j => (i, j)) =
        (0, 0) :: ((List.range 4).flatMap fun i => (List.range 4).map fun j => (i, j)).tail := rfl
    rw [e, List.map_cons, List.tail_cons]
    congr 2
    simp [product, rows, List.range_succ, List.replicate]
  · simp [product, rows, List.range_succ, List.replicate]

example : rows 8 ((List.range 32).map (fun n : ℕ => (n : ℚ))) 0 4 = 4 ∧
    rows 8 ((List.range 32).map (fun n : ℕ => (n : ℚ))) 1 0 = 8 := by
  constructor <;> simp [rows]

/-! ## Choice of a backend -/

/-- **C95 (backends chosen by type).** The example of a choice by type takes B for `float`, C for complex
types and D for `double`, never A. -/
theorem C95_types (t : Ty) : ctChoice t =
    some (match t with | .float => .B | .double => .D | .cfloat => .C | .cdouble => .C) := by
  cases t <;> rfl

example : ctChoice .cfloat = some .C := C95_types _

/-- **C95, partial (backends chosen by size).** The example of a choice by type and size takes B for
`float`, else C for sizes that are powers of two, else D, for sizes from 1 to 2^32 - 1. Missing: other
sizes, see `C95_sizes_false`. -/
theorem C95_sizes_partial (t : Ty) (n : ℕ) (h0 : n ≠ 0) (hn : n < 2 ^ 32) :
    (t = .float → rtChoice t n = some .B) ∧
    (t ≠ .float → (∃ k, n = 2 ^ k) → rtChoice t n = some .C) ∧
    (t ≠ .float → (¬ ∃ k, n = 2 ^ k) → rtChoice t n = some .D) := by
  have hm : n % 2 ^ 32 = n := Nat.mod_eq_of_lt hn
  have hs : (n + 2 ^ 32 - 1) % 2 ^ 32 = n - 1 := by omega
  have hp : pow2 n = true ↔ ∃ k, n = 2 ^ k := by
    unfold pow2
    rw [hm, hs, decide_eq_true_iff]
    exact Nat.and_sub_one_eq_zero_iff_isPowerOfTwo h0
  refine ⟨?_, ?_, ?_⟩
  · rintro rfl; rfl
  · intro ht hk
    have := hp.mpr hk
    cases t <;> simp_all [rtChoice, choose]
  · intro ht hk
    have : pow2 n = false := by
      cases h : pow2 n
      · rfl
      · exact absurd (hp.mp h) hk
    cases t <;> simp_all [rtChoice, choose]

example : rtChoice .double 8 = some .C :=
  (C95_sizes_partial .double 8 (by decide) (by decide)).2.1 (by decide) ⟨3, rfl⟩

/-- **C95 is false (backends chosen by size).** The backend for powers of two is also taken for size 0
and for sizes like `3 * 2^32`, whose lower 32 bits are zero. -/
theorem C95_sizes_false : rtChoice .double 0 = some .C ∧ rtChoice .double (3 * 2 ^ 32) = some .C ∧
    ¬ ∃ k, 3 * 2 ^ 32 = 2 ^ k := by
  refine ⟨by decide +kernel, by decide +kernel, ?_⟩
  rintro ⟨k, hk⟩
  have h3 : 3 ∣ 2 ^ k := ⟨2 ^ 32, hk.symm⟩
  have : ∀ k, ¬ 3 ∣ 2 ^ k := by
    intro k
    induction k with
    | zero => decide
    | succ k ih => intro h; apply ih; rw [Nat.pow_succ] at h; omega
  exact this k h3

/-! ## Convolutions -/

/-- **C95, partial (padded kernel).** The padded kernel begins with the kernel and has the length of the
input. Missing: zeros behind it, see `C95_kernel_false`. -/
theorem C95_kernel_partial (N : ℕ) (kernel mem : List ℚ) (h : kernel.length ≤ N) :
    ∃ p, padKernel N kernel mem = some p ∧ p.length = N ∧
      ∀ i, i < kernel.length → p.getD i 0 = kernel.getD i 0 := by
  refine ⟨_, by rw [padKernel, if_pos h], by simp, ?_⟩
  intro i hi
  rw [List.getD_eq_getElem?_getD]
  simp [hi, (by omega : i < N)]

example : ∃ p, padKernel 3 [1, 2] [9, 9, 9] = some p ∧ p.length = 3 ∧
    ∀ i, i < 2 → p.getD i 0 = [1, 2].getD i 0 := C95_kernel_partial 3 [1, 2] [9, 9, 9] (by decide)

/-- **C95 is false (padding the kernel).** The padded kernel is not padded with zeros: behind the kernel
it holds what the memory held, so for every kernel shorter than the input some memory gives values
other than zero. -/
theorem C95_kernel_false (N : ℕ) (kernel : List ℚ) (h : kernel.length < N) :
    (∀ mem i, kernel.length ≤ i → i < N →
      ∃ p, padKernel N kernel mem = some p ∧ p.getD i 0 = mem.getD i 0) ∧
    ∃ mem p, padKernel N kernel mem = some p ∧ p.getD kernel.length 0 ≠ 0 := by
  have key : ∀ mem i, kernel.length ≤ i → i < N →
      ∃ p, padKernel N kernel mem = some p ∧ p.getD i 0 = mem.getD i 0 := by
    intro mem i h1 h2
    refine ⟨_, by rw [padKernel, if_pos (by omega)], ?_⟩
    rw [List.getD_eq_getElem?_getD]
    simp only [List.getElem?_map, List.getElem?_range h2, Option.map_some, Option.getD_some]
    rw [if_neg (by omega)]
  refine ⟨key, List.replicate N 1, ?_⟩
  obtain ⟨p, h1, h2⟩ := key (List.replicate N 1) kernel.length (le_refl _) h
  refine ⟨p, h1, ?_⟩
  rw [h2]
  simp [h]

example : ∃ mem p, padKernel 3 [1, 2] mem = some p ∧ p.getD 2 0 ≠ 0 :=
  (C95_kernel_false 3 [1, 2] (by decide)).2

theorem cst_padInput (K : ℕ) (input : List ℚ) (hK : 0 < K) (hN : K ≤ input.length + 1)
    (hw : input.length < 2 ^ 63) (h0 : input ≠ []) :
    padInput K input = some ((List.range (input.length + K - 1)).map fun i =>
      input.getD ((i + input.length + 1 - K) % input.length) 0) := by
  have hpos : 0 < input.length := List.length_pos_iff.mpr h0
  unfold padInput
  apply cst_mapM_some
  intro i hi
  rw [List.mem_range] at hi
  by_cases h : i < K - 1
  · rw [if_pos h]
    have e : (((input.length : ℤ) - K + i + 1) % 2 ^ 64).toNat = i + input.length + 1 - K := by
      omega
    have e2 : (i + input.length + 1 - K) % input.length = i + input.length + 1 - K :=
      Nat.mod_eq_of_lt (by omega)
    have hb : i + input.length + 1 - K < input.length := by omega
    rw [e, e2, List.getElem?_eq_getElem hb]
    simp [List.getD_eq_getElem?_getD, hb]
  · rw [if_neg h]
    have hb : i + 1 - K < input.length := by omega
    have e2 : (i + input.length + 1 - K) % input.length = i + 1 - K := by
      have : i + input.length + 1 - K = (i + 1 - K) + input.length := by omega
      rw [this, Nat.add_mod_right, Nat.mod_eq_of_lt hb]
    rw [e2, List.getElem?_eq_getElem hb]
    simp [List.getD_eq_getElem?_getD, hb]

theorem cst_foldlM (kernel : List ℚ) (f : ℕ → Option ℚ) (g : ℕ → ℚ) (l : List ℕ) (acc : ℚ)
    (h : ∀ k ∈ l, f k = some (g k)) :
    l.foldlM (fun sum k => (f k).bind fun x => some (sum + kernel.getD k 0 * x)) acc =
      some (acc + (l.map fun k => kernel.getD k 0 * g k).sum) := by
  induction l generalizing acc with
  | nil => simp
  | cons k l ih =>
    rw [List.foldlM_cons, h k (by simp)]
    show List.foldlM _ (acc + kernel.getD k 0 * g k) l = _
    rw [ih _ (fun k' hk' => h k' (by simp [hk']))]
    simp [add_assoc]

/-- **C95 (circular convolution).** The convolution with minimum support of the input with its end in
front is the circular convolution, for any input and any kernel that is not more than one longer. -/
theorem C95_circular (kernel input : List ℚ) (hK : 0 < kernel.length)
    (hN : kernel.length ≤ input.length + 1) (hw : input.length < 2 ^ 63) (h0 : input ≠ []) :
    ∃ p, padInput kernel.length input = some p ∧ ∀ n, n < input.length →
      convMin kernel p n =
        some (circular input.length kernel.length (kernel.getD · 0) (input.getD · 0) n) := by
  refine ⟨_, cst_padInput kernel.length input hK hN hw h0, ?_⟩
  intro n hn
  unfold convMin circular
  rw [cst_foldlM kernel _ (fun k => input.getD ((n + input.length - k) % input.length) 0)]
  · simp
  · intro k hk
    rw [List.mem_range] at hk
    have e : n + (kernel.length - 1) - k + input.length + 1 - kernel.length =
        n + input.length - k := by omega
    have hb : n + (kernel.length - 1) - k < input.length + kernel.length - 1 := by omega
    rw [List.getElem?_map, List.getElem?_range hb]
    simp only [Option.map_some]
    rw [e]

example : ∃ p, padInput 2 [1, 2, 3] = some p ∧ ∀ n, n < 3 →
    convMin [1, 1] p n = some (circular 3 2 ([1, 1].getD · 0) ([1, 2, 3].getD · 0) n) :=
  C95_circular [1, 1] [1, 2, 3] (by decide) (by decide) (by decide) (by simp)

/-- **C95 is false (circular convolution with long kernels).** With a kernel that is longer by two or
more than the input the index of the input wraps around and lies outside. -/
theorem C95_circular_false (K : ℕ) (input : List ℚ) (h : input.length + 2 ≤ K) (hK : K < 2 ^ 63) :
    padInput K input = none := by
  unfold padInput
  apply cst_mapM_none (x := 0) (List.mem_range.mpr (by omega))
  rw [if_pos (by omega)]
  apply List.getElem?_eq_none
  omega

example : padInput 5 [1, 2, 3] = none := C95_circular_false 5 [1, 2, 3] (by decide) (by decide)

theorem cst_mirror {V : Type} (conj : V → V) (N m : ℕ) (X : ℕ → V) (hm : m ≤ N / 2 - 1) (k : ℕ) :
    (List.range m).foldl (fun Y i =>
      Function.update Y (i + N / 2 + 1) (conj (Y (N / 2 - i - 1)))) X k =
      if N / 2 + 1 ≤ k ∧ k < N / 2 + 1 + m then conj (X (N / 2 - (k - N / 2 - 1) - 1)) else X k := by
  induction m generalizing k with
  | zero => rw [if_neg (by omega)]; rfl
  | succ m ih =>
    rw [List.range_succ, List.foldl_append, List.foldl_cons, List.foldl_nil]
    by_cases h : k = m + N / 2 + 1
    · subst h
      rw [Function.update_self, if_pos (by omega), ih (by omega), if_neg (by omega)]
      congr 2
      omega
    · rw [Function.update_of_ne h, ih (by omega)]
      by_cases h2 : N / 2 + 1 ≤ k ∧ k < N / 2 + 1 + m
      · rw [if_pos h2, if_pos (by omega)]
      · rw [if_neg h2, if_neg (by omega)]

/-- **C95, partial (mirrored spectra).** For even lengths setting the upper half of the spectrum from
the lower half gives the mirrored spectrum and keeps the spectrum of every real signal. Missing: odd
lengths and lengths below two, see `C95_mirror_false`. -/
theorem C95_mirror_partial {V : Type} (conj : V → V) (m : ℕ) (hm : 0 < m) (X : ℕ → V) :
    ∃ Y, mirror conj (2 * m) X = some Y ∧ (∀ k, m < k → k < 2 * m → Y k = conj (X (2 * m - k))) ∧
      (∀ k, k ≤ m → Y k = X k) ∧ (Hermitian conj (2 * m) X → Y = X) := by
  have e : 2 * m / 2 = m := by omega
  have key : ∀ k, (List.range (2 * m / 2 - 1)).foldl (fun Y i =>
      Function.update Y (i + 2 * m / 2 + 1) (conj (Y (2 * m / 2 - i - 1)))) X k =
      if m + 1 ≤ k ∧ k < m + 1 + (m - 1) then conj (X (m - (k - m - 1) - 1)) else X k := by
    intro k
    have := cst_mirror conj (2 * m) (2 * m / 2 - 1) X (le_refl _) k
    rw [e] at this
    rw [e]
    exact this
  refine ⟨_, by rw [mirror, if_neg (by omega)], ?_, ?_, ?_⟩
  · intro k hk hk'
    rw [key, if_pos (by omega)]
    congr 2
    omega
  · intro k hk
    rw [key, if_neg (by omega)]
  · intro hH
    funext k
    rw [key]
    by_cases hc : m + 1 ≤ k ∧ k < m + 1 + (m - 1)
    · rw [if_pos hc]
      have := hH (2 * m - k) (by omega) (by omega)
      have e2 : m - (k - m - 1) - 1 = 2 * m - k := by omega
      rw [e2, ← this]
      congr 1
      omega
    · rw [if_neg hc]

example : ∃ Y, mirror (fun x : ℤ => -x) 6 (fun k : ℕ => (k : ℤ)) = some Y ∧
    (∀ k, 3 < k → k < 6 → Y k = -((6 - k : ℕ) : ℤ)) ∧ (∀ k, k ≤ 3 → Y k = k) ∧
    (Hermitian (fun x : ℤ => -x) 6 (fun k : ℕ => (k : ℤ)) → Y = fun k : ℕ => (k : ℤ)) :=
  C95_mirror_partial (fun x : ℤ => -x) 3 (by decide) (fun k : ℕ => (k : ℤ))

/-- **C95 is false (mirrored spectra of odd length).** For odd lengths from five on the wrong value is
mirrored: the spectrum of a real signal is changed whenever the two values in the middle of the
lower half differ. For lengths below two the loop leaves the vector. -/
theorem C95_mirror_false {V : Type} (conj : V → V) (X : ℕ → V) :
    (∀ m Y, Function.Injective conj → 2 ≤ m → Hermitian conj (2 * m + 1) X → X (m - 1) ≠ X m →
      mirror conj (2 * m + 1) X = some Y → Y (m + 1) ≠ X (m + 1)) ∧
      ∀ N, N < 2 → mirror conj N X = none := by
  refine ⟨?_, fun N hN => by rw [mirror, if_pos (by omega)]⟩
  intro m Y hc hm hX hne hY
  have e : (2 * m + 1) / 2 = m := by omega
  have := cst_mirror conj (2 * m + 1) ((2 * m + 1) / 2 - 1) X (le_refl _) (m + 1)
  rw [mirror, if_neg (by omega)] at hY
  rw [← Option.some.inj hY, this, if_pos (by omega), e]
  have h1 := hX m (by omega) (by omega)
  have e1 : 2 * m + 1 - m = m + 1 := by omega
  rw [e1] at h1
  rw [h1]
  intro h
  apply hne
  have := hc h
  rw [← this]
  congr 1
  omega

example : ∀ Y, mirror (fun x : ℤ => -x) 5 (fun k => if k = 0 then 0 else 2 * k - 5) = some Y →
    Y 3 ≠ 1 := fun Y hY =>
  (C95_mirror_false (fun x : ℤ => -x) (fun k => if k = 0 then 0 else 2 * (k : ℤ) - 5)).1 2 Y
    (fun a b h => by simpa using h) (le_refl _)
    (by
      intro k h0 h5
      have : ¬ (5 - k = 0) := by omega
      have h2 : ¬ (k = 0) := by omega
      simp only [this, h2, if_false]
      omega)
    (by decide) hY

/-! ## Solvers -/

/-- **C95 (results of the solver examples).** Whatever they return as solutions, the LU and
least-squares examples give (-2, 0, 1) and the covariance example (40/3, -19/3, -83/9), the documented
results. -/
theorem C95_solvers (x : V3) :
    (Solves .luSolve x ↔ x = ⟨-2, 0, 1⟩) ∧ (Solves .llsqsol x ↔ x = ⟨-2, 0, 1⟩) ∧
      (Solves .covsol x ↔ x = ⟨40 / 3, -19 / 3, -83 / 9⟩) := by
  obtain ⟨a, b, c⟩ := x
  simp only [Solves, mulAt, mulA, mulVec, row0, row1, row2, rhs, V3.mk.injEq]
  refine ⟨⟨?_, ?_⟩, ⟨?_, ?_⟩, ⟨?_, ?_⟩⟩
  all_goals
    rintro ⟨h1, h2, h3⟩
    refine ⟨?_, ?_, ?_⟩ <;> linarith

example : Solves .covsol ⟨40 / 3, -19 / 3, -83 / 9⟩ := (C95_solvers _).2.2.mpr rfl

/-- **C95 is false (the QR example).** The QR example says it solves `A x = b` but calls the covariance
solver: its result does not solve `A x = b`. -/
theorem C95_qr_false (x : V3) (h : Solves .qrCovsol x) : ¬ Solves .luSolve x := by
  have h1 := (C95_solvers x).2.2.mp h
  intro h2
  have h3 := (C95_solvers x).1.mp h2
  rw [h1] at h3
  have := congrArg V3.a h3
  norm_num at this

example : ¬ Solves .luSolve ⟨40 / 3, -19 / 3, -83 / 9⟩ :=
  C95_qr_false _ ((C95_solvers _).2.2.mpr rfl)

/-- **C95 (when the pointer product is taken).** The backend on pointers is taken exactly if the first matrix has four rows and four
columns and the columns of all three matrices are neighbours in memory. -/
theorem C95_valid (rowsA colsA : ℕ) (colZ colA colB : ℤ) :
    rtValid rowsA colsA colZ colA colB = true ↔ rowsA = 4 ∧ colsA = 4 ∧ colZ = 1 ∧ colA = 1 ∧ colB = 1 := by
  simp [rtValid, and_assoc]
example : rtValid 4 4 1 1 2 = false := by decide

end Verif.Props

#print axioms Verif.Props.C95_resample_inside
#print axioms Verif.Props.C95_resample_partial
#print axioms Verif.Props.C95_resample_false
#print axioms Verif.Props.C95_resample_end_false
#print axioms Verif.Props.C95_product
#print axioms Verif.Props.C95_dda_partial
#print axioms Verif.Props.C95_dda_false
#print axioms Verif.Props.C95_rows_false
#print axioms Verif.Props.C95_types
#print axioms Verif.Props.C95_sizes_partial
#print axioms Verif.Props.C95_sizes_false
#print axioms Verif.Props.C95_kernel_partial
#print axioms Verif.Props.C95_kernel_false
#print axioms Verif.Props.C95_circular
#print axioms Verif.Props.C95_circular_false
#print axioms Verif.Props.C95_mirror_partial
#print axioms Verif.Props.C95_mirror_false
#print axioms Verif.Props.C95_solvers
#print axioms Verif.Props.C95_qr_false
#print axioms Verif.Props.C95_valid
