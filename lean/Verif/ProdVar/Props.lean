import Verif.ProdVar.Model
import Verif.Matvec.Props
import Mathlib.Tactic.Linarith
/-!
C102: the variants of the matrix product.
-/
namespace Verif.Props
open Verif.Sig Verif.Mv Verif.Pvar

section
variable {T : Type}

/-- Specification: `R` is the product of `A` and of the matrix with the elements `g` of those of `B`. -/
def IsProduct [Semiring T] (g : T → T) (A B R : Mat T) : Prop :=
  R.rows = A.rows ∧ R.cols = B.cols ∧ ∀ i < A.rows, ∀ j < B.cols, R.f i j = ∑ k ∈ Finset.range A.cols, A.f i k * g (B.f k j)

theorem pvr_get (A : Mat T) {i j : Nat} (hi : i < A.rows) (hj : j < A.cols) : A.get i j = some (A.f i j) := by simp [Mat.get, hi, hj]

theorem pvr_congr {σ : Type} (n : Nat) (s : σ) (b b' : σ → Nat → Option σ) (h : ∀ k < n, ∀ s, b s k = b' s k) : loop n s b = loop n s b' := by
  unfold loop
  induction n with
  | zero => rfl
  | succ n ih =>
    rw [List.range_succ, List.foldlM_append, List.foldlM_append, ih fun k hk => h k (by omega)]
    congr 1
    funext s
    simp [h n (by omega)]

theorem pvr_fill (M : Mat T) (g : Nat → Nat → T → T) (body : Mat T → Nat → Nat → Option (Mat T))
    (hbody : ∀ i < M.rows, ∀ j < M.cols, ∀ M' : Mat T, M'.rows = M.rows → M'.cols = M.cols → body M' i j = M'.put i j (g i j (M'.f i j))) :
    ∃ M', loop M.rows M (fun s i => loop M.cols s fun s j => body s i j) = some M' ∧ M'.rows = M.rows ∧ M'.cols = M.cols ∧
      ∀ i < M.rows, ∀ j < M.cols, M'.f i j = g i j (M.f i j) :=
  matFill_spec _ _ M List.nodup_range List.nodup_range (by simp) (by simp) g body hbody

theorem pvr_tmp [Semiring T] (A B C : Mat T) (h : A.cols = B.rows) (hr : C.rows = A.rows) (hc : C.cols = B.cols) :
    ∃ R, ijkTmp A B C = some R ∧ IsProduct id A B R := by
  obtain ⟨R, e, h1, h2, h3⟩ := pvr_fill (zeroed C) (fun i j _ => ∑ k ∈ Finset.range A.cols, A.f i k * B.f k j)
    (fun C i j => do
      let tmp ← loop A.cols (0 : T) fun tmp k => do some (tmp + (← A.get i k) * (← B.get k j))
      C.put i j tmp) (by
    intro i hi j hj M' _ _
    rw [loop_sum A.cols 0 _ (fun k => A.f i k * B.f k j) (by
      intro k s hk
      rw [pvr_get A (by rw [← hr]; exact hi) hk, pvr_get B (by omega) (by rw [← hc]; exact hj)]; rfl), zero_add]
    rfl)
  refine ⟨R, ?_, h1.trans hr, h2.trans hc, fun i hi j hj => h3 i (by rw [← hr] at hi; exact hi) j (by rw [← hc] at hj; exact hj)⟩
  rw [← e]; unfold ijkTmp; rw [← hr, ← hc]; rfl

theorem pvr_dots [Semiring T] (A B C : Mat T) (h : A.cols = B.rows) (hr : C.rows = A.rows) (hc : C.cols = B.cols) :
    ∃ R, dots A B C = some R ∧ IsProduct id A B R := by
  obtain ⟨R, e, h1, h2, h3⟩ := pvr_fill C (fun i j _ => ∑ k ∈ Finset.range A.cols, A.f i k * B.f k j)
    (fun C i j => do C.put i j (← dot (← row A i) (← col B j))) (by
    intro i hi j hj M' _ _
    rw [row, if_pos (by omega), col, if_pos (by omega)]
    show (dot (⟨A.cols, fun k => A.f i k⟩ : Vec T) ⟨B.rows, fun k => B.f k j⟩).bind _ = _
    rw [C50_dot _ _ h]; rfl)
  refine ⟨R, ?_, h1.trans hr, h2.trans hc, fun i hi j hj => h3 i (by omega) j (by omega)⟩
  rw [← e]; unfold dots
  rw [hr, hc]
  refine pvr_congr _ _ _ _ fun i hi C => ?_
  rw [row, if_pos hi]; rfl

/-- one element of the triple loop -/
theorem pvr_entry [Semiring T] (A B C : Mat T) (p i j : Nat) (hp : p ≤ A.cols) (h : A.cols = B.rows) (hi : i < A.rows) (hj : j < B.cols)
    (hi' : i < C.rows) (hj' : j < C.cols) :
    loop p C (fun C k => do C.put i j ((← A.get i k) * (← B.get k j) + (← C.get i j))) =
      C.put i j ((∑ k ∈ Finset.range p, A.f i k * B.f k j) + C.f i j) := by
  obtain ⟨R, e, hR⟩ := loop_inv (fun q (R : Mat T) => C.put i j ((∑ k ∈ Finset.range q, A.f i k * B.f k j) + C.f i j) = some R) p C
    (fun C k => do C.put i j ((← A.get i k) * (← B.get k j) + (← C.get i j))) (by
      simp only [Mat.put, if_pos (And.intro hi' hj'), Finset.range_zero, Finset.sum_empty, zero_add, Option.some.injEq]
      congr 1
      funext r c
      by_cases hrc : r = i ∧ c = j
      · rw [if_pos hrc, hrc.1, hrc.2]
      · rw [if_neg hrc]) (by
      intro k R hk hR
      rw [Mat.put, if_pos ⟨hi', hj'⟩, Option.some.injEq] at hR
      subst hR
      refine ⟨_, ?_, by rw [Mat.put, if_pos ⟨hi', hj'⟩]⟩
      rw [pvr_get A hi (by omega), pvr_get B (by omega) hj, pvr_get _ (by exact hi') (by exact hj')]
      simp only [Option.bind_eq_bind, Option.bind_some, Mat.put, if_pos (And.intro hi' hj'), Option.some.injEq, and_self, if_true]
      congr 1
      funext r c
      by_cases hrc : r = i ∧ c = j
      · rw [if_pos hrc, if_pos hrc, Finset.sum_range_succ, ← add_assoc, add_comm (A.f i k * B.f k j)]
      · rw [if_neg hrc, if_neg hrc, if_neg hrc])
  rw [e, hR]

theorem pvr_ijk [Semiring T] (A B C : Mat T) (h : A.cols = B.rows) (hr : C.rows = A.rows) (hc : C.cols = B.cols) :
    ∃ R, ijk A B C = some R ∧ IsProduct id A B R := by
  obtain ⟨R, e, h1, h2, h3⟩ := pvr_fill (zeroed C) (fun i j x => (∑ k ∈ Finset.range A.cols, A.f i k * B.f k j) + x)
    (fun C i j => loop A.cols C fun C k => do C.put i j ((← A.get i k) * (← B.get k j) + (← C.get i j))) (by
    intro i hi j hj M' hr' hc'
    have hi2 : i < C.rows := hi
    have hj2 : j < C.cols := hj
    exact pvr_entry A B M' A.cols i j le_rfl h (by omega) (by omega) (by rw [hr']; exact hi) (by rw [hc']; exact hj))
  refine ⟨R, ?_, h1.trans hr, h2.trans hc, fun i hi j hj => ?_⟩
  · rw [← e]; unfold ijk; rw [← hr, ← hc]; rfl
  · rw [h3 i (by rw [← hr] at hi; exact hi) j (by rw [← hc] at hj; exact hj)]
    exact add_zero _

/-- one column step -/
theorem pvr_axpy [Semiring T] (C : Mat T) (j : Nat) (a : Vec T) (b : T) (hj : j < C.cols) (ha : a.n = C.rows) :
    ∃ C', axpy C j a b = some C' ∧ C'.rows = C.rows ∧ C'.cols = C.cols ∧
      ∀ i < C.rows, ∀ c, C'.f i c = if c = j then a.f i * b + C.f i c else C.f i c := by
  obtain ⟨C', e, h1, h2, h3⟩ := loop_inv (fun q (R : Mat T) => R.rows = C.rows ∧ R.cols = C.cols ∧
      ∀ i < C.rows, ∀ c, R.f i c = if c = j ∧ i < q then a.f i * b + C.f i c else C.f i c) C.rows C
    (fun C i => do C.put i j ((← a.get i) * b + (← C.get i j))) ⟨rfl, rfl, by simp⟩ (by
      rintro k R hk ⟨r1, r2, r3⟩
      refine ⟨⟨R.rows, R.cols, fun r c => if r = k ∧ c = j then a.f k * b + R.f k j else R.f r c⟩, ?_, r1, r2, ?_⟩
      · rw [Vec.get, if_pos (by omega), pvr_get R (by omega) (by omega)]
        simp only [Option.bind_eq_bind, Option.bind_some, Mat.put]
        rw [if_pos ⟨by omega, by omega⟩]
      · intro i hi c
        show (if i = k ∧ c = j then a.f k * b + R.f k j else R.f i c) = _
        by_cases hik : i = k ∧ c = j
        · obtain ⟨rfl, rfl⟩ := hik
          rw [if_pos ⟨rfl, rfl⟩, r3 i hi, if_neg (by omega), if_pos ⟨rfl, by omega⟩]
        · rw [if_neg hik, r3 i hi]
          by_cases hc : c = j ∧ i < k
          · rw [if_pos hc, if_pos ⟨hc.1, by omega⟩]
          · rw [if_neg hc, if_neg (by rintro ⟨h1, h2⟩; exact hc ⟨h1, by have : i ≠ k := fun h => hik ⟨h, h1⟩; omega⟩)])
  refine ⟨C', ?_, h1, h2, fun i hi c => by rw [h3 i hi]; simp [hi]⟩
  rw [axpy, col, if_pos hj]
  show (if a.n = C.rows then loop C.rows C _ else none) = _
  rw [if_pos ha, ← e]

theorem pvr_loops [Semiring T] (A B C : Mat T) (h : A.cols = B.rows) (hr : C.rows = A.rows) (hc : C.cols = B.cols) :
    ∃ R, saxpyLoops A B (zeroed C) B.cols A.cols = some R ∧ IsProduct id A B R := by
  obtain ⟨R, e, h1, h2, h3⟩ := loop_inv (fun q (R : Mat T) => R.rows = A.rows ∧ R.cols = B.cols ∧
      ∀ i < A.rows, ∀ c, R.f i c = if c < q then ∑ k ∈ Finset.range A.cols, A.f i k * B.f k c else 0) B.cols (zeroed C)
    (fun C j => loop A.cols C fun C k => do axpy C j (← col A k) (← B.get k j)) ⟨hr, hc, fun _ _ _ => rfl⟩ (by
      rintro j R hj ⟨r1, r2, r3⟩
      obtain ⟨R', e, s1, s2, s3⟩ := loop_inv (fun q (R' : Mat T) => R'.rows = A.rows ∧ R'.cols = B.cols ∧
          ∀ i < A.rows, ∀ c, R'.f i c = if c = j then ∑ k ∈ Finset.range q, A.f i k * B.f k c else R.f i c) A.cols R
        (fun C k => do axpy C j (← col A k) (← B.get k j)) ⟨r1, r2, by
          intro i hi c
          by_cases hcj : c = j
          · rw [if_pos hcj, r3 i hi, if_neg (by omega)]; rfl
          · rw [if_neg hcj]⟩ (by
          rintro k S hk ⟨t1, t2, t3⟩
          obtain ⟨S', e, u1, u2, u3⟩ := pvr_axpy S j ⟨A.rows, fun l => A.f l k⟩ (B.f k j) (by omega) t1.symm
          refine ⟨S', ?_, u1.trans t1, u2.trans t2, ?_⟩
          · rw [col, if_pos hk, pvr_get B (by omega) hj]; exact e
          · intro i hi c
            rw [u3 i (by omega), t3 i hi]
            by_cases hcj : c = j
            · rw [if_pos hcj, if_pos hcj, if_pos hcj, Finset.sum_range_succ, add_comm, hcj]
            · rw [if_neg hcj, if_neg hcj, if_neg hcj])
      refine ⟨R', e, s1, s2, fun i hi c => ?_⟩
      rw [s3 i hi]
      by_cases hcj : c = j
      · rw [if_pos hcj, if_pos (by omega)]
      · rw [if_neg hcj, r3 i hi]
        by_cases hlt : c < j
        · rw [if_pos hlt, if_pos (by omega)]
        · rw [if_neg hlt, if_neg (by omega)])
  exact ⟨R, e, h1, h2, fun i hi j hj => by rw [h3 i hi, if_pos hj]; rfl⟩

/-- a store or sum of matrices -/
theorem pvr_store [Semiring T] (add : Bool) (C R : Mat T) (hr : C.rows = R.rows) (hc : C.cols = R.cols) :
    ∃ C', store add C R = some C' ∧ C'.rows = C.rows ∧ C'.cols = C.cols ∧
      ∀ i < C.rows, ∀ j < C.cols, C'.f i j = if add then C.f i j + R.f i j else R.f i j := by
  obtain ⟨C', e, h1, h2, h3⟩ := pvr_fill C (fun i j x => if add then x + R.f i j else R.f i j)
    (fun C i j => do
      let r ← R.get i j
      let c ← C.get i j
      C.put i j (if add then c + r else r)) (by
    intro i hi j hj M' hr' hc'
    rw [pvr_get R (by omega) (by omega), pvr_get M' (by omega) (by omega)]; rfl)
  exact ⟨C', by rw [store, if_pos ⟨hr, hc⟩, ← hr, ← hc]; exact e, h1, h2, h3⟩

/-- the sum of outer products -/
theorem pvr_outer [Semiring T] (conj : T → T) (cx : Bool) (A B C : Mat T) (h : A.cols = B.rows) (hr : C.rows = A.rows) (hc : C.cols = B.cols)
    (h0 : 0 < A.rows) (hp : 0 < A.cols) (hcx : cx = true ∨ ∀ k < B.rows, ∀ j < B.cols, conj (B.f k j) = B.f k j) :
    ∃ R, outerSum conj cx A B C = some R ∧ IsProduct conj A B R := by
  have ho : ∀ k < A.cols, ∃ R, (do outer conj cx 1 (← col A k) (← row B k)) = some R ∧ R.rows = A.rows ∧ R.cols = B.cols ∧
      ∀ i < A.rows, ∀ j < B.cols, R.f i j = A.f i k * conj (B.f k j) := by
    intro k hk
    obtain ⟨R, e, h1, h2, h3⟩ := C50_outer_partial conj cx 1 (⟨A.rows, fun l => A.f l k⟩ : Vec T) ⟨B.cols, fun l => B.f k l⟩
      (hcx.imp id fun hx => hx k (by omega))
    refine ⟨R, ?_, h1, h2, fun i hi j hj => by rw [h3 i hi j hj]; exact congrArg (· * _) (one_mul _)⟩
    rw [col, if_pos hk, row, if_pos (by omega)]; exact e
  obtain ⟨R0, e0, a1, a2, a3⟩ := ho 0 hp
  obtain ⟨C0, f0, b1, b2, b3⟩ := pvr_store false C R0 (by omega) (by omega)
  obtain ⟨R, e, h1, h2, h3⟩ := loop_inv (fun q (R : Mat T) => R.rows = A.rows ∧ R.cols = B.cols ∧
      ∀ i < A.rows, ∀ j < B.cols, R.f i j = ∑ k ∈ Finset.range (q + 1), A.f i k * conj (B.f k j)) (A.cols - 1) C0
    (fun C k => do store true C (← outer conj cx 1 (← col A (k + 1)) (← row B (k + 1)))) ⟨by omega, by omega, by
      intro i hi j hj
      rw [b3 i (by omega) j (by omega), Finset.sum_range_one]; exact a3 i hi j hj⟩ (by
      rintro k S hk ⟨t1, t2, t3⟩
      obtain ⟨R1, e1, c1, c2, c3⟩ := ho (k + 1) (by omega)
      obtain ⟨S', f1, d1, d2, d3⟩ := pvr_store true S R1 (by omega) (by omega)
      refine ⟨S', ?_, by omega, by omega, fun i hi j hj => ?_⟩
      · rw [col, if_pos (by omega), row, if_pos (by omega)] at e1 ⊢
        have e1' : outer conj cx 1 (⟨A.rows, fun l => A.f l (k + 1)⟩ : Vec T) ⟨B.cols, fun l => B.f (k + 1) l⟩ = some R1 := e1
        show (outer conj cx 1 (⟨A.rows, fun l => A.f l (k + 1)⟩ : Vec T) ⟨B.cols, fun l => B.f (k + 1) l⟩).bind _ = _
        rw [e1']; exact f1
      · rw [d3 i (by omega) j (by omega), if_pos rfl, t3 i hi j hj, c3 i hi j hj, Finset.sum_range_succ _ (k + 1)])
  refine ⟨R, ?_, h1, h2, fun i hi j hj => ?_⟩
  · rw [col, if_pos hp, row, if_pos (by omega)] at e0
    have e0' : outer conj cx 1 (⟨A.rows, fun l => A.f l 0⟩ : Vec T) ⟨B.cols, fun l => B.f 0 l⟩ = some R0 := e0
    unfold outerSum
    rw [row, if_pos h0, col, if_pos hp, row, if_pos (by omega)]
    show ((outer conj cx 1 (⟨A.rows, fun l => A.f l 0⟩ : Vec T) ⟨B.cols, fun l => B.f 0 l⟩).bind fun R => (store false C R).bind fun C => _) = _
    rw [e0', Option.bind_some, f0, Option.bind_some]; exact e
  · rw [h3 i hi j hj, Nat.sub_add_cancel hp]

/-- **C102 (loops over indices).** The variants 4 and 6 to 10 of the product give the product of the matrices, whatever was in the result before, for
all sizes, also of 0. -/
theorem C102_index [Semiring T] (A B C : Mat T) (h : A.cols = B.rows) (hr : C.rows = A.rows) (hc : C.cols = B.cols) :
    (∃ R, saxpySizes A B C = some R ∧ IsProduct id A B R) ∧ (∃ R, ijk A B C = some R ∧ IsProduct id A B R) ∧
    (∃ R, ijkTmp A B C = some R ∧ IsProduct id A B R) ∧ ∃ R, dots A B C = some R ∧ IsProduct id A B R :=
  ⟨pvr_loops A B C h hr hc, pvr_ijk A B C h hr hc, pvr_tmp A B C h hr hc, pvr_dots A B C h hr hc⟩

example : (ijk (⟨2, 2, fun i k => 3 * i + k + 1⟩ : Mat ℤ) ⟨2, 1, fun k _ => k + 5⟩ ⟨2, 1, fun _ _ => 99⟩).map (fun R => [R.f 0 0, R.f 1 0]) = some [17, 50] := rfl

/-- **C102, partial (loops using first rows).** The variants 3 and 5 give the product of matrices that have rows.  Missing: matrices without, see
`C102_rows_false`. -/
theorem C102_rows_partial [Semiring T] (A B C : Mat T) (h : A.cols = B.rows) (hr : C.rows = A.rows) (hc : C.cols = B.cols)
    (ha : 0 < A.rows) (hb : 0 < B.rows) : ∃ R, saxpyRows A B C = some R ∧ IsProduct id A B R := by
  obtain ⟨R, e, hR⟩ := pvr_loops A B C h hr hc
  refine ⟨R, ?_, hR⟩
  rw [saxpyRows, row, if_pos hb, row, if_pos ha]; exact e

example : (saxpyRows (⟨2, 2, fun i k => 3 * i + k + 1⟩ : Mat ℤ) ⟨2, 1, fun k _ => k + 5⟩ ⟨2, 1, fun _ _ => 99⟩).map (fun R => [R.f 0 0, R.f 1 0]) = some [17, 50] := rfl

/-- **C102 is false (first rows).** If one of the matrices has no rows the variants 2, 3 and 5 ask for a row that is not there, where the other variants have
the product: nothing, or zeros. -/
theorem C102_rows_false [Semiring T] (conj : T → T) (cx : Bool) (A B C : Mat T) (h : A.cols = B.rows) (hr : C.rows = A.rows) (hc : C.cols = B.cols)
    (h0 : A.rows = 0 ∨ B.rows = 0) :
    saxpyRows A B C = none ∧ outerSum conj cx A B C = none ∧ ∃ R, saxpySizes A B C = some R ∧ IsProduct id A B R := by
  refine ⟨?_, ?_, pvr_loops A B C h hr hc⟩
  · rw [saxpyRows]
    by_cases hb : 0 < B.rows
    · rw [row, if_pos hb, row, if_neg (by omega)]; rfl
    · rw [row, if_neg hb]; rfl
  · rw [outerSum]
    by_cases ha : 0 < A.rows
    · rw [row, if_pos ha, col, if_neg (by omega)]; rfl
    · rw [row, if_neg ha]; rfl

/-- **C102, partial (outer products).** Variant 2 gives the product of real matrices, or of complex ones if the second is real.  Missing: other complex
matrices, see `C102_outer_false`, and matrices without rows. -/
theorem C102_outer_partial [Semiring T] (conj : T → T) (cx : Bool) (A B C : Mat T) (h : A.cols = B.rows) (hr : C.rows = A.rows) (hc : C.cols = B.cols)
    (h0 : 0 < A.rows) (hp : 0 < B.rows) (hreal : ∀ k < B.rows, ∀ j < B.cols, conj (B.f k j) = B.f k j) :
    ∃ R, outerSum conj cx A B C = some R ∧ IsProduct id A B R := by
  obtain ⟨R, e, h1, h2, h3⟩ := pvr_outer conj cx A B C h hr hc h0 (by omega) (Or.inr hreal)
  refine ⟨R, e, h1, h2, fun i hi j hj => ?_⟩
  rw [h3 i hi j hj]
  refine Finset.sum_congr rfl fun k hk => ?_
  rw [hreal k (by have := Finset.mem_range.mp hk; omega) j hj]; rfl

example : (outerSum id false (⟨2, 2, fun i k => 3 * i + k + 1⟩ : Mat ℤ) ⟨2, 1, fun k _ => k + 5⟩ ⟨2, 1, fun _ _ => 99⟩).map (fun R => [R.f 0 0, R.f 1 0]) = some [17, 50] := rfl

/-- **C102 is false (outer products of complex matrices).** The outer product conjugates its second argument: variant 2 multiplies with the conjugate of the
second matrix.  For 1 and `i` it gives `-i`. -/
theorem C102_outer_false :
    (∀ (T : Type) [Semiring T] (conj : T → T) (A B C : Mat T), A.cols = B.rows → C.rows = A.rows → C.cols = B.cols → 0 < A.rows → 0 < A.cols →
      ∃ R, outerSum conj true A B C = some R ∧ IsProduct conj A B R) ∧
    ∃ R, outerSum (star : ℤ√(-1) → ℤ√(-1)) true ⟨1, 1, fun _ _ => 1⟩ ⟨1, 1, fun _ _ => ⟨0, 1⟩⟩ ⟨1, 1, fun _ _ => 0⟩ = some R ∧ R.f 0 0 = ⟨0, -1⟩ ∧
      ¬ IsProduct id ⟨1, 1, fun _ _ => 1⟩ ⟨1, 1, fun _ _ => ⟨0, 1⟩⟩ R := by
  refine ⟨fun T _ conj A B C h hr hc h0 hp => pvr_outer conj true A B C h hr hc h0 hp (Or.inl rfl), ?_⟩
  obtain ⟨R, e, h1, h2, h3⟩ := pvr_outer (star : ℤ√(-1) → ℤ√(-1)) true ⟨1, 1, fun _ _ => 1⟩ ⟨1, 1, fun _ _ => ⟨0, 1⟩⟩ ⟨1, 1, fun _ _ => 0⟩ rfl rfl rfl
    (by decide) (by decide) (Or.inl rfl)
  have h4 : R.f 0 0 = ⟨0, -1⟩ := by rw [h3 0 (by decide) 0 (by decide)]; rfl
  refine ⟨R, e, h4, fun h => ?_⟩
  have h5 := h.2.2 0 (by decide) 0 (by decide)
  rw [h4] at h5
  exact absurd h5 (by decide)

/-- **C102 is false (bytes).** For matrices of two or more rows the memory reported is the number of rows times that of the three matrices, the bytes read
are those of one row of each argument, and none are said to be written. -/
theorem C102_bytes_false (M s : Nat) (hM : 2 ≤ M) (hs : 0 < s) :
    (reported M s).2.2 = M * (actual M s).2.2 ∧ (actual M s).2.2 < (reported M s).2.2 ∧ (reported M s).1 < (actual M s).1 ∧
    (reported M s).2.1 = 0 ∧ 0 < (actual M s).2.1 := by
  have h1 : 0 < M * s := Nat.mul_pos (by omega) hs
  have h2 : 0 < M * M * s := Nat.mul_pos (Nat.mul_pos (by omega) (by omega)) hs
  refine ⟨?_, ?_, ?_, rfl, h2⟩
  · show M * (3 * M * M * s) = M * (3 * (M * M * s)); ring
  · show 3 * (M * M * s) < M * (3 * M * M * s)
    have : M * (3 * M * M * s) = M * (3 * (M * M * s)) := by ring
    rw [this]; nlinarith
  · show M * (2 * s) < 2 * (M * M * s)
    have e1 : M * (2 * s) = 2 * (M * s) := by ring
    have e2 : 2 * (M * M * s) = M * (2 * (M * s)) := by ring
    rw [e1, e2]; nlinarith

example : reported 16 4 = (128, 0, 49152) ∧ actual 16 4 = (2048, 1024, 3072) := by decide

end

#print axioms C102_index
#print axioms C102_rows_partial
#print axioms C102_rows_false
#print axioms C102_outer_partial
#print axioms C102_outer_false
#print axioms C102_bytes_false

end Verif.Props
