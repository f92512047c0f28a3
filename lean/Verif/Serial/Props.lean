import Verif.Serial.Model
import Mathlib.Tactic.Ring
import Mathlib.Tactic.FinCases
import Mathlib.Data.Fintype.Basic
/-!
C60: a descriptor that is accepted for a dense block type describes exactly the block's memory.
-/
namespace Verif.Ser

/-- where the descriptor puts an element -/
def place {D : Nat} (i : Desc) (e : Fin D → Fin 3) (x : Fin D → Nat) : Int := ((List.finRange D).map fun d => (x d : Int) * i.stride (e d)).sum

/-- dimension `d` of a block in a descriptor -/
def emb1 : Fin 1 → Fin 3 := ![0]
def emb2 : Fin 2 → Fin 3 := ![0, 1]

/-- what acceptance of a descriptor of the right dimension says about its strides -/
theorem check_ordering {t : Ty} {D : Nat} {d0 d1 d2 : Fin 3} {i : Desc} (h : check t D d0 d1 d2 i = true) : ordering d0 d1 d2 i = true := by
  simp only [check] at h
  split at h
  · split at h
    · simp at h
    · split at h
      · simp at h
      · split at h
        · simp at h
        · exact h
  · split at h
    · simp at h
    · split at h
      · simp at h
      · exact h

theorem ordering1 {d0 d1 d2 : Fin 3} {i : Desc} (h : ordering d0 d1 d2 i = true) (hd : i.dims = 1) : i.stride d0 = 1 := by
  by_contra hne
  rw [ordering, if_pos ⟨hd, hne⟩] at h
  simp at h

theorem ordering2 {d0 d1 d2 : Fin 3} {i : Desc} (h : ordering d0 d1 d2 i = true) (hd : i.dims = 2) : i.stride d1 = 1 ∧ i.stride d0 = i.size d1 := by
  rw [ordering, if_neg (by omega)] at h
  by_cases h1 : i.stride d1 = 1
  · rw [if_neg (by simp [h1]), if_neg (by omega)] at h
    by_cases h2 : i.stride d0 < 0 ∨ (i.stride d0).toNat ≠ i.size d1
    · rw [if_pos ⟨hd, h2⟩] at h; simp at h
    · exact ⟨h1, by omega⟩
  · rw [if_pos ⟨hd, h1⟩] at h; simp at h

theorem ordering3 {d0 d1 d2 : Fin 3} {i : Desc} (h : ordering d0 d1 d2 i = true) (hd : i.dims = 3) :
    i.stride d2 = 1 ∧ i.stride d0 = (i.size d2 * i.size d1 % W₆₄ : Nat) := by
  rw [ordering, if_neg (by omega), if_neg (by omega)] at h
  by_cases h1 : i.stride d2 = 1
  · rw [if_neg (by simp [h1]), if_neg (by omega)] at h
    by_cases h2 : i.stride d0 < 0 ∨ (i.stride d0).toNat ≠ i.size d2 * i.size d1 % W₆₄
    · rw [if_pos ⟨hd, h2⟩] at h; simp at h
    · exact ⟨h1, by omega⟩
  · rw [if_pos ⟨hd, h1⟩] at h; simp at h

theorem check_own {t : Ty} {d0 d1 d2 : Fin 3} {i : Desc} (hv : i.valueType = t.code) (h : ordering d0 d1 d2 i = true) :
    check t i.dims d0 d1 d2 i = true := by
  rw [check, hv]
  by_cases hi : isIntegral t.code = true
  · rw [if_pos hi, if_neg (by simp [hi]), if_neg (by simp), if_neg (by simp), h]
  · rw [if_neg hi, if_neg (by simp), if_neg (by simp), h]

theorem toSigned_small {n : Nat} (h : n < W₆₃) : toSigned n = n := by
  rw [toSigned, Nat.mod_eq_of_lt (by omega), if_pos h]

end Verif.Ser

namespace Verif.Props
open Verif.Ser Verif.Lay

/-- C60, type codes: the code of an integral type tells that it is one, whether it is unsigned, and that it has 1, 2, 4 or 8 bytes; codes of other types do not tell they are
integral. -/
theorem C60_codes :
    (∀ b u, isIntegral (Ty.int b u).code = true ∧ isUnsigned (Ty.int b u).code = u ∧ sizeCode (Ty.int b u).code = [1, 2, 4, 8].getD b.val 0) ∧
    ∀ t : Ty, isIntegral t.code = true → ∃ b u, t = .int b u := by
  refine ⟨by decide, ?_⟩
  intro t h
  rcases t with _ | _ | _ | _ | _ | _ | ⟨b, u⟩ <;> first | exact ⟨b, u, rfl⟩ | exact absurd h (by decide)

example : sizeCode (Ty.int 3 true).code = 8 := by decide

/-- C60, element types: a descriptor written for a block of one of the element types is accepted only for that element type. -/
theorem C60_types (t t' : Ty) (D : Nat) (d0 d1 d2 : Fin 3) (i : Desc) (hi : i.valueType = t'.code) (h : check t D d0 d1 d2 i = true) : t = t' := by
  have key : ∀ t t' : Ty, (if isIntegral t.code then isIntegral t'.code = true ∧ isUnsigned t.code = isUnsigned t'.code ∧ sizeCode t.code = sizeCode t'.code
      else t.code = t'.code) → t = t' := by
    intro t t'
    rcases t with _ | _ | _ | _ | _ | _ | ⟨b, u⟩ <;> rcases t' with _ | _ | _ | _ | _ | _ | ⟨b', u'⟩ <;>
      first | decide | (revert b u b' u'; decide) | (revert b u; decide) | (revert b' u'; decide)
  refine key t t' ?_
  simp only [check, hi] at h
  split at h
  · rename_i hint
    rw [if_pos hint]
    split at h
    · simp at h
    · rename_i h1
      split at h
      · simp at h
      · rename_i h2
        split at h
        · simp at h
        · rename_i h3
          exact ⟨by simpa using h1, by simpa using h2, by simpa using h3⟩
  · rename_i hint
    rw [if_neg hint]
    split at h
    · simp at h
    · rename_i h1; simpa using h1

/-- C60, dimension, for element types that are not integral: only descriptors of the block's dimension are accepted.
Missing: integral element types, see `C60_dims_false`. -/
theorem C60_dims_partial (t : Ty) (ht : isIntegral t.code = false) (D : Nat) (d0 d1 d2 : Fin 3) (i : Desc) (h : check t D d0 d1 d2 i = true) : i.dims = D := by
  simp only [check, ht] at h
  rw [if_neg (by simp)] at h
  split at h
  · simp at h
  · split at h
    · simp at h
    · rename_i h2; simpa using Eq.symm (by simpa using h2)

/-- C60, one dimension: an accepted descriptor puts every element where the dense block that is rebound to the memory puts it. -/
theorem C60_accept_1 (t : Ty) (i : Desc) (hd : i.dims = 1) (h : check t 1 0 1 2 i = true) (x : Fin 1 → Nat) :
    place i emb1 x = (dense1 fun d => i.size (emb1 d)).index x := by
  have := ordering1 (check_ordering h) hd
  simp [place, emb1, dense1, this, List.finRange]

/-- C60, two dimensions, row-major. -/
theorem C60_accept_2row (t : Ty) (i : Desc) (hd : i.dims = 2) (h : check t 2 0 1 2 i = true) (x : Fin 2 → Nat)
    (hx : ∀ d, x d < i.size (emb2 d)) (hs : i.size 0 * i.size 1 ≤ W₆₄) :
    place i emb2 x = (dense2row fun d => i.size (emb2 d)).index x := by
  obtain ⟨h1, h2⟩ := ordering2 (check_ordering h) hd
  have hx0 := hx 0
  have hx1 := hx 1
  simp only [emb2, Matrix.cons_val_zero, Matrix.cons_val_one] at hx0 hx1
  have hlt : x 0 * i.size 1 + x 1 < W₆₄ := by
    have : (x 0 + 1) * i.size 1 ≤ i.size 0 * i.size 1 := Nat.mul_le_mul_right _ hx0
    rw [Nat.add_mul] at this; omega
  simp only [place, emb2, dense2row, List.finRange, List.ofFn_succ, List.ofFn_zero, List.map_cons, List.map_nil, List.sum_cons, List.sum_nil, w,
    Fin.succ_zero_eq_one, Matrix.cons_val_zero, Matrix.cons_val_one, h1, h2]
  rw [Nat.mod_eq_of_lt hlt]
  push_cast; ring

/-- C60, two dimensions, column-major. -/
theorem C60_accept_2col (t : Ty) (i : Desc) (hd : i.dims = 2) (h : check t 2 1 0 2 i = true) (x : Fin 2 → Nat)
    (hx : ∀ d, x d < i.size (emb2 d)) (hs : i.size 0 * i.size 1 ≤ W₆₄) :
    place i emb2 x = (dense2col fun d => i.size (emb2 d)).index x := by
  obtain ⟨h1, h2⟩ := ordering2 (check_ordering h) hd
  have hx0 := hx 0
  have hx1 := hx 1
  simp only [emb2, Matrix.cons_val_zero, Matrix.cons_val_one] at hx0 hx1
  have hlt : x 0 + x 1 * i.size 0 < W₆₄ := by
    have : (x 1 + 1) * i.size 0 ≤ i.size 1 * i.size 0 := Nat.mul_le_mul_right _ hx1
    rw [Nat.add_mul, Nat.mul_comm (i.size 1)] at this; omega
  simp only [place, emb2, dense2col, List.finRange, List.ofFn_succ, List.ofFn_zero, List.map_cons, List.map_nil, List.sum_cons, List.sum_nil, w,
    Fin.succ_zero_eq_one, Matrix.cons_val_zero, Matrix.cons_val_one, h1, h2]
  rw [Nat.mod_eq_of_lt hlt]
  push_cast; ring

/-- the orders of a three-dimensional block -/
def IsOrder (d0 d1 d2 : Fin 3) : Prop := d0 ≠ d1 ∧ d0 ≠ d2 ∧ d1 ≠ d2

theorem sum3 {d0 d1 d2 : Fin 3} (ho : IsOrder d0 d1 d2) (f : Fin 3 → Int) : ((List.finRange 3).map f).sum = f d0 + f d1 + f d2 := by
  have : ((List.finRange 3).map f).sum = f 0 + f 1 + f 2 := by
    simp [List.finRange, List.ofFn_succ]; ring
  rw [this]
  obtain ⟨h1, h2, h3⟩ := ho
  fin_cases d0 <;> fin_cases d1 <;> fin_cases d2 <;> simp at h1 h2 h3 ⊢ <;> ring

/-- C60, three dimensions, any order – for descriptors whose middle stride (which is not checked) is right.
Missing: other middle strides, see `C60_stride_false`. -/
theorem C60_accept_3_partial (t : Ty) (d0 d1 d2 : Fin 3) (ho : IsOrder d0 d1 d2) (i : Desc) (hd : i.dims = 3) (h : check t 3 d0 d1 d2 i = true)
    (hmid : i.stride d1 = i.size d2) (x : Fin 3 → Nat) (hx : ∀ d, x d < i.size d) (hs : i.size d0 * i.size d1 * i.size d2 ≤ W₆₄)
    (hw : i.size d1 * i.size d2 < W₆₄) : place i id x = (dense3 d0 d1 d2 i.size).index x := by
  obtain ⟨h1, h2⟩ := ordering3 (check_ordering h) hd
  have hlt : x d0 * i.size d1 * i.size d2 + x d1 * i.size d2 + x d2 < W₆₄ := by
    have a1 : (x d0 + 1) * (i.size d1 * i.size d2) ≤ i.size d0 * (i.size d1 * i.size d2) := Nat.mul_le_mul_right _ (hx d0)
    have a2 : (x d1 + 1) * i.size d2 ≤ i.size d1 * i.size d2 := Nat.mul_le_mul_right _ (hx d1)
    have a3 := hx d2
    rw [Nat.add_mul, Nat.one_mul] at a1 a2
    rw [Nat.mul_assoc] at hs
    rw [Nat.mul_assoc]
    omega
  rw [Nat.mod_eq_of_lt (by rw [Nat.mul_comm]; exact hw)] at h2
  rw [place, sum3 ho]
  simp only [dense3, w, id, h1, h2, hmid]
  rw [Nat.mod_eq_of_lt hlt]
  push_cast; ring

/-- C60, own descriptors: what a dense block writes about itself is accepted for its type, for every element type, order and size. -/
theorem C60_own_1 (t : Ty) (f : Nat) (s : Fin 1 → Nat) : check t 1 0 1 2 (describe1 t f s) = true := by
  have : ordering 0 1 2 (describe1 t f s) = true := by simp [ordering, describe1]
  exact check_own rfl this

theorem C60_own_2row (t : Ty) (f : Nat) (s : Fin 2 → Nat) (h : s 1 < W₆₃) : check t 2 0 1 2 (describe2 t f (dense2row s)) = true := by
  have : ordering 0 1 2 (describe2 t f (dense2row s)) = true := by
    simp [ordering, describe2, dense2row, toSigned_small h, toSigned_small (show 1 < W₆₃ by omega)]
  exact check_own rfl this

theorem C60_own_2col (t : Ty) (f : Nat) (s : Fin 2 → Nat) (h : s 0 < W₆₃) : check t 2 1 0 2 (describe2 t f (dense2col s)) = true := by
  have : ordering 1 0 2 (describe2 t f (dense2col s)) = true := by
    simp [ordering, describe2, dense2col, toSigned_small h, toSigned_small (show 1 < W₆₃ by omega)]
  exact check_own rfl this

theorem C60_own_3 (t : Ty) (f : Nat) (d0 d1 d2 : Fin 3) (ho : IsOrder d0 d1 d2) (s : Fin 3 → Nat) (h : s d1 * s d2 < W₆₃) :
    check t 3 d0 d1 d2 (describe3 t f (dense3 d0 d1 d2 s)) = true := by
  have : ordering d0 d1 d2 (describe3 t f (dense3 d0 d1 d2 s)) = true := by
    have e : w (s d1 * s d2) = s d1 * s d2 := Nat.mod_eq_of_lt (by omega)
    have e' : s d2 * s d1 % W₆₄ = s d1 * s d2 := by rw [Nat.mul_comm]; exact e
    simp [ordering, describe3, dense3, ho.1, ho.2.1, toSigned_small (show 1 < W₆₃ by omega), e, toSigned_small h, e']
    rw [← Int.natCast_mul]
    exact ⟨Int.natCast_nonneg _, Int.toNat_natCast _⟩
  exact check_own rfl this

/-- how many scalars make up an element: one array of elements, or (in two arrays or interleaved) real and imaginary parts -/
def scalars (format : Nat) : Nat := if format = 1 then 1 else 2

/-- C60, own descriptors: the storage size is the number of array entries that hold the elements (complex elements in a `split` or `interleaved` format take
two each), and the other members are the block's. -/
theorem C60_storage (t : Ty) (f : Nat) (s1 : Fin 1 → Nat) (s2 : Fin 2 → Nat) (s3 : Fin 3 → Nat) (d0 d1 d2 : Fin 3)
    (h1 : 2 * s1 0 < W₆₄) (h2 : 2 * (s2 0 * s2 1) < W₆₄) (h3 : 2 * (s3 0 * s3 1 * s3 2) < W₆₄) :
    (describe1 t f s1).storage = scalars f * s1 0 ∧ (describe2 t f (dense2row s2)).storage = scalars f * (s2 0 * s2 1) ∧
    (describe2 t f (dense2col s2)).storage = scalars f * (s2 0 * s2 1) ∧
    (describe3 t f (dense3 d0 d1 d2 s3)).storage = scalars f * (s3 0 * s3 1 * s3 2) ∧
    (∀ d, (describe1 t f s1).size (emb1 d) = s1 d) ∧ (∀ d, (describe2 t f (dense2row s2)).size (emb2 d) = s2 d) ∧
    (∀ d, (describe2 t f (dense2col s2)).size (emb2 d) = s2 d) ∧ (∀ d, (describe3 t f (dense3 d0 d1 d2 s3)).size d = s3 d) ∧
    (describe1 t f s1).format = f ∧ (describe2 t f (dense2row s2)).format = f ∧ (describe2 t f (dense2col s2)).format = f ∧
    (describe3 t f (dense3 d0 d1 d2 s3)).format = f := by
  refine ⟨?_, ?_, ?_, ?_, ?_, ?_, ?_, fun d => rfl, rfl, rfl, rfl, rfl⟩
  · unfold describe1 scalars; dsimp only; split <;> simp_all <;> omega
  · unfold describe2 scalars dense2row; dsimp only; split <;> simp_all <;> omega
  · unfold describe2 scalars dense2col; dsimp only; split <;> simp_all <;> omega
  · unfold describe3 scalars dense3; dsimp only; split <;> simp_all <;> omega
  · intro d; fin_cases d; rfl
  · intro d; fin_cases d <;> rfl
  · intro d; fin_cases d <;> rfl

/-- a 3 × 4 block of split complex floats takes 24 entries -/
example : (describe2 .cfloat 2 (dense2row ![3, 4])).storage = 24 := by decide

/-- a 2 × 3 × 4 block of floats -/
example : check .float 3 0 1 2 (describe3 .float 1 (dense3 0 1 2 ![2, 3, 4])) = true := by decide

/-! ### Where it fails -/

/-- For integral element types the dimension is not compared (l.139-149: the comparison is in the other branch): a matrix is accepted for a vector
block. -/
theorem C60_dims_false : check (.int 2 false) 1 0 1 2 (describe2 (.int 2 false) 1 (dense2row ![2, 3])) = true ∧
    (describe2 (.int 2 false) 1 (dense2row ![2, 3])).dims = 2 := by
  decide

/-- `describe_data` of a view that is accessed directly records the number of its elements as storage size, not the extent of its memory: for every other
element of a vector the described elements lie outside of the described storage. -/
theorem C60_storage_false : ∃ (n : Nat) (s : Int), 0 < s ∧ ∀ old, ∃ x : Fin 1 → Nat, x 0 < (describeData1 .float 1 n s old).size 0 ∧
    ((describeData1 .float 1 n s old).storage : Int) ≤ place (describeData1 .float 1 n s old) emb1 x :=
  ⟨3, 2, by decide, fun old => ⟨![2], by simp [describeData1], by simp [describeData1, place, emb1, List.finRange]⟩⟩

/-- Rows of 4 elements that lie 5 apart. -/
def gapDesc : Desc := ⟨Ty.float.code, 3, 1, ![2, 3, 4], ![12, 5, 1], 24⟩

/-- Three-dimensional descriptors are accepted whatever the middle stride is (l.126-128): here rows of 4 elements lie 5 apart, and element (0, 1, 0) is
not where the dense block looks for it. -/
theorem C60_stride_false : check .float 3 0 1 2 gapDesc = true ∧ place gapDesc id ![0, 1, 0] = 5 ∧ (dense3 0 1 2 gapDesc.size).index ![0, 1, 0] = 4 := by
  decide

/-- The storage format is not looked at: the same descriptor is accepted whatever format it states, so memory that holds split complex values is
accepted for a block that reads interleaved ones. -/
theorem C60_format_false (t : Ty) (D : Nat) (d0 d1 d2 : Fin 3) (i : Desc) (f : Nat) : check t D d0 d1 d2 { i with format := f } = check t D d0 d1 d2 i := rfl

end Verif.Props
#print axioms Verif.Props.C60_codes
