import Mathlib.Data.Complex.Basic
import Mathlib.Tactic.FinCases
import Verif.Cv.Lemmas

/-!
# C74: the C-VSIPL back end

Views bound to user data, ownership, products, filters, transforms, corrected convolutions, solvers.
-/

namespace Verif.Props

open Verif Verif.Cv Verif.Sig

/-! ## Views -/

/-- **C74, partial (views of vectors).** With a stride that is not negative, a view of at least one element lies in the block bound for it, and the last element of
the block is the last of the view, so no more storage is claimed than the view has.  Missing: negative strides and empty views, see `C74_reversed_false` and
`C74_empty_false`. -/
theorem C74_view_partial (off : ℕ) (s : ℤ) (n : ℕ) (hs : 0 ≤ s) (hn : 1 ≤ n) (hw : (off : ℤ) + ((n : ℤ) - 1) * s + 1 < (W₆₄ : ℤ)) :
    Cv.Spec.Fits1 (mkViewS off s n).blk off s n ∧ ((mkViewS off s n).blk : ℤ) = off + ((n - 1 : ℕ) : ℤ) * s + 1 ∧
      ∀ (T : Type) (mem : ℤ → T) (i : ℕ), (mkViewS off s n).get mem i = mem (off + i * s) := by
  have h0 : 0 ≤ ((n : ℤ) - 1) * s := mul_nonneg (by omega) hs
  have e : ((mkViewS off s n).blk : ℤ) = off + ((n : ℤ) - 1) * s + 1 := by
    show ((toIdx (off + ((n : ℤ) - 1) * s + 1) : ℕ) : ℤ) = _
    rw [cv_toIdx (by omega) hw, Int.toNat_of_nonneg (by omega)]
  refine ⟨fun i hi => ?_, ?_, fun T mem i => rfl⟩
  · have h1 : 0 ≤ (i : ℤ) * s := mul_nonneg (by omega) hs
    have h2 : (i : ℤ) * s ≤ ((n : ℤ) - 1) * s := mul_le_mul_of_nonneg_right (by omega) hs
    rw [e]
    exact ⟨by omega, by omega⟩
  · rw [e, Nat.cast_sub hn, Nat.cast_one]

example : (0 : ℤ) ≤ 3 ∧ 1 ≤ 5 ∧ ((2 : ℕ) : ℤ) + (((5 : ℕ) : ℤ) - 1) * 3 + 1 < (W₆₄ : ℤ) := by norm_num

/-- **C74, partial (views of matrices).** The same for matrices, with either order of dimensions.  Missing: as for vectors. -/
theorem C74_mview_partial (off : ℕ) (sr sc : ℤ) (r c : ℕ) (hsr : 0 ≤ sr) (hsc : 0 ≤ sc) (hr : 1 ≤ r) (hc : 1 ≤ c)
    (hw : (off : ℤ) + ((r : ℤ) - 1) * sr + ((c : ℤ) - 1) * sc + 1 < (W₆₄ : ℤ)) :
    Cv.Spec.Fits2 (mkMView off sr r sc c).blk off sr r sc c ∧
      ((mkMView off sr r sc c).blk : ℤ) = off + ((r - 1 : ℕ) : ℤ) * sr + ((c - 1 : ℕ) : ℤ) * sc + 1 := by
  have h0 : 0 ≤ ((r : ℤ) - 1) * sr := mul_nonneg (by omega) hsr
  have h0' : 0 ≤ ((c : ℤ) - 1) * sc := mul_nonneg (by omega) hsc
  have e : ((mkMView off sr r sc c).blk : ℤ) = off + ((r : ℤ) - 1) * sr + ((c : ℤ) - 1) * sc + 1 := by
    show ((toIdx _ : ℕ) : ℤ) = _
    rw [cv_toIdx (by omega) hw, Int.toNat_of_nonneg (by omega)]
  refine ⟨fun i hi j hj => ?_, ?_⟩
  · have h1 : 0 ≤ (i : ℤ) * sr := mul_nonneg (by omega) hsr
    have h2 : (i : ℤ) * sr ≤ ((r : ℤ) - 1) * sr := mul_le_mul_of_nonneg_right (by omega) hsr
    have h3 : 0 ≤ (j : ℤ) * sc := mul_nonneg (by omega) hsc
    have h4 : (j : ℤ) * sc ≤ ((c : ℤ) - 1) * sc := mul_le_mul_of_nonneg_right (by omega) hsc
    rw [e]
    exact ⟨by omega, by omega⟩
  · rw [e, Nat.cast_sub hr, Nat.cast_sub hc, Nat.cast_one]

example : (0 : ℤ) ≤ 1 ∧ 1 ≤ 3 ∧ ((0 : ℕ) : ℤ) + (((3 : ℕ) : ℤ) - 1) * 1 + (((4 : ℕ) : ℤ) - 1) * 3 + 1 < (W₆₄ : ℤ) := by norm_num

/-- Dense matrix views of either order lie in their block and have distinct addresses. -/
theorem C74_dense (r c : ℕ) (rm : Bool) : Cv.Spec.Fits2 (r * c) 0 (mkMViewD r c rm).sr r (mkMViewD r c rm).sc c ∧ (mkMViewD r c rm).blk = r * c ∧
    (mkMViewD r c rm).off = 0 ∧ Cv.Spec.Distinct (mkMViewD r c rm).sr (mkMViewD r c rm).sc r c := by
  refine ⟨fun i hi j hj => ?_, rfl, rfl, fun i hi j hj i' hi' j' hj' e => ?_⟩
  · cases rm
    · show 0 ≤ 0 + (i : ℤ) * 1 + j * (r : ℤ) ∧ 0 + (i : ℤ) * 1 + j * (r : ℤ) < ((r * c : ℕ) : ℤ)
      have : (j + 1) * r ≤ c * r := Nat.mul_le_mul_right _ hj
      rw [Nat.add_mul, Nat.one_mul, Nat.mul_comm c r] at this
      have h2 : (j : ℤ) * r = ((j * r : ℕ) : ℤ) := by rw [Nat.cast_mul]
      rw [h2]
      omega
    · show 0 ≤ 0 + (i : ℤ) * (c : ℤ) + j * 1 ∧ 0 + (i : ℤ) * (c : ℤ) + j * 1 < ((r * c : ℕ) : ℤ)
      have : (i + 1) * c ≤ r * c := Nat.mul_le_mul_right _ hi
      rw [Nat.add_mul, Nat.one_mul] at this
      have h2 : (i : ℤ) * c = ((i * c : ℕ) : ℤ) := by rw [Nat.cast_mul]
      rw [h2]
      omega
  · cases rm
    · have e' : (i : ℤ) * 1 + j * (r : ℤ) = i' * 1 + j' * (r : ℤ) := e
      have e2 : i + r * j = i' + r * j' := by
        have : ((i + r * j : ℕ) : ℤ) = ((i' + r * j' : ℕ) : ℤ) := by
          rw [Nat.cast_add, Nat.cast_add, Nat.cast_mul, Nat.cast_mul]; linarith
        exact_mod_cast this
      have hm := congrArg (· % r) e2
      simp only [Nat.add_mul_mod_self_left, Nat.mod_eq_of_lt hi, Nat.mod_eq_of_lt hi'] at hm
      subst hm
      refine ⟨rfl, Nat.eq_of_mul_eq_mul_left (show 0 < r by omega) (by omega)⟩
    · have e' : (i : ℤ) * (c : ℤ) + j * 1 = i' * (c : ℤ) + j' * 1 := e
      have e2 : j + c * i = j' + c * i' := by
        have : ((j + c * i : ℕ) : ℤ) = ((j' + c * i' : ℕ) : ℤ) := by
          rw [Nat.cast_add, Nat.cast_add, Nat.cast_mul, Nat.cast_mul]; linarith
        exact_mod_cast this
      have hm := congrArg (· % c) e2
      simp only [Nat.add_mul_mod_self_left, Nat.mod_eq_of_lt hj, Nat.mod_eq_of_lt hj'] at hm
      subst hm
      refine ⟨Nat.eq_of_mul_eq_mul_left (show 0 < c by omega) (by omega), rfl⟩

/-- **C74 is false (reversed views).** A view of a reversed vector of four elements lies outside the block: its second element is before the first of the block. -/
theorem C74_reversed_false : ¬ Cv.Spec.Fits1 (mkViewS 0 (-1) 4).blk (mkViewS 0 (-1) 4).off (mkViewS 0 (-1) 4).s 4 := by
  intro h
  exact absurd (h 1 (by norm_num)).1 (by norm_num [mkViewS])

/-- **C74 is false (empty views).** For an empty vector with stride 2 the block claims 2^64 - 1 elements of storage. -/
theorem C74_empty_false : (mkViewS 0 2 0).blk = 18446744073709551615 := by
  norm_num [mkViewS, toIdx]
  omega

/-! ## Ownership -/

/-- **Ownership of blocks.** Whatever wrappers are copied, dropped or detached, the block is destroyed at most once and never while a wrapper still owns it; without
`detach` it is destroyed exactly once when the last wrapper is gone. -/
theorem C74_owner (ops : List BOp) : (ops.foldl bstep ⟨[true], 0⟩).dead + (ops.foldl bstep ⟨[true], 0⟩).own.count true ≤ 1 ∧
    ((∀ o ∈ ops, ∀ i, o ≠ .detach i) → (ops.foldl bstep ⟨[true], 0⟩).own = [] → (ops.foldl bstep ⟨[true], 0⟩).dead = 1) := by
  have key : ∀ (ops : List BOp) (st : BSt), (ops.foldl bstep st).dead + (ops.foldl bstep st).own.count true ≤ st.dead + st.own.count true ∧
      ((∀ o ∈ ops, ∀ i, o ≠ .detach i) → (ops.foldl bstep st).dead + (ops.foldl bstep st).own.count true = st.dead + st.own.count true) := by
    intro ops
    induction ops with
    | nil => intro st; exact ⟨le_rfl, fun _ => rfl⟩
    | cons o ops ih =>
      intro st
      obtain ⟨h1, h2⟩ := ih (bstep st o)
      have hs : (bstep st o).dead + (bstep st o).own.count true ≤ st.dead + st.own.count true ∧
          ((∀ i, o ≠ .detach i) → (bstep st o).dead + (bstep st o).own.count true = st.dead + st.own.count true) := by
        cases o with
        | copy i =>
          cases hi : st.own[i]? with
          | none =>
            have e : bstep st (.copy i) = st := by simp only [bstep, hi]
            rw [e]; exact ⟨le_rfl, fun _ => rfl⟩
          | some b =>
            have e : bstep st (.copy i) = ⟨st.own.set i false ++ [b], st.dead⟩ := by simp only [bstep, hi]
            have := count_set_false st.own i b hi
            rw [e]
            simp only [List.count_append]
            cases b <;> simp at this ⊢ <;> omega
        | drop i =>
          cases hi : st.own[i]? with
          | none =>
            have e : bstep st (.drop i) = st := by simp only [bstep, hi]
            rw [e]; exact ⟨le_rfl, fun _ => rfl⟩
          | some b =>
            have e : bstep st (.drop i) = ⟨st.own.eraseIdx i, if b then st.dead + 1 else st.dead⟩ := by simp only [bstep, hi]
            have := count_erase st.own i b hi
            rw [e]
            cases b <;> simp at this ⊢ <;> omega
        | detach i =>
          refine ⟨?_, fun h => absurd rfl (h i)⟩
          show st.dead + (st.own.set i false).count true ≤ _
          cases hi : st.own[i]? with
          | none =>
            rw [List.set_eq_of_length_le (by simpa using hi)]
          | some b =>
            have := count_set_false st.own i b hi
            omega
      refine ⟨le_trans h1 hs.1, fun h => ?_⟩
      rw [List.foldl_cons, h2 fun o' ho' => h o' (List.mem_cons_of_mem _ ho'), hs.2 (h o List.mem_cons_self)]
  obtain ⟨h1, h2⟩ := key ops ⟨[true], 0⟩
  refine ⟨h1, fun h he => ?_⟩
  have := h2 h
  rw [he] at this
  simpa using this

/-- A copy returned from a function whose local wrapper goes away. -/
example : [BOp.copy 0, .drop 0, .copy 0, .drop 1, .drop 0].foldl bstep ⟨[true], 0⟩ = ⟨[], 1⟩ := by decide

/-- **C74 is false (views are not destroyed).** The views made of user data are never destroyed: after `k` calls of a filter, two views each, `4 k` objects of the
library remain. -/
theorem C74_leak_false (k : ℕ) : liveAfter 2 k = 4 * k := by
  unfold liveAfter
  induction k with
  | zero => rfl
  | succ k ih => rw [List.range_succ, List.foldl_append, ih]; simp; omega

/-! ## Enumerations -/

/-- **C74, partial (enumerations).** Storage of Q, the supports of convolutions and the operations without conjugation are passed on as they are.  Missing: the
hint, see `C74_hint_false`; conjugation and zero padding, see `C74_conj_false`. -/
theorem C74_enum_partial : (∀ s, storage s = s) ∧ (∀ s, s ≠ .minZeropad → support s = s) ∧ (∀ o, o ≠ .conj → matOp o = o) ∧ hint .noise = .noise :=
  ⟨fun s => by cases s <;> rfl, fun s h => by cases s <;> first | rfl | exact absurd rfl h, fun o h => by cases o <;> first | rfl | exact absurd rfl h, rfl⟩

/-- **C74 is false (the hint).** Who asks for speed is given little space, and who asks for little space is given speed. -/
theorem C74_hint_false : hint .time = .space ∧ hint .space = .time := ⟨rfl, rfl⟩

/-- **C74 is false (conjugation, zero padding).** Conjugation is passed to the library as conjugate transposition (by `rsol` and `prodq`, which do not refuse it), and
minimal support with zero padding as full support. -/
theorem C74_conj_false : matOp .conj = .herm ∧ support .minZeropad = .full := ⟨rfl, rfl⟩

/-! ## Products -/

/-- **C74, partial (dot products).** For interleaved storage or stride 1 the dot products are the sums of products, with the second argument conjugated where asked.
Missing: split storage with other strides, see `C74_split_false`. -/
theorem C74_dot_partial {T : Type} [Semiring T] [StarRing T] (pa pb : Bool) (a b : ℤ → T) (sa sb : ℤ) (n : ℕ) (ha : pa = true → sa = 1) (hb : pb = true → sb = 1) :
    dot pa pb a b sa sb n = ∑ i ∈ Finset.range n, a (i * sa) * b (i * sb) ∧
      dotj pa pb a b sa sb n = ∑ i ∈ Finset.range n, a (i * sa) * star (b (i * sb)) := by
  have hg : ∀ (p : Bool) (s : ℤ) (x : ℤ → T) (i : ℕ), (p = true → s = 1) → (constView p 0 s n).get x i = x (i * s) := by
    intro p s x i h
    cases p
    · show x (((0 : ℕ) : ℤ) + i * s) = _
      rw [Nat.cast_zero, zero_add]
    · rw [h rfl]
      show x (((0 : ℕ) : ℤ) + i * 1) = _
      rw [Nat.cast_zero, zero_add]
  unfold dot dotj
  simp only [hg _ _ _ _ ha, hg _ _ _ _ hb, and_self]

/-- Split storage with stride 1 and interleaved storage with stride -3. -/
example : ((true = true) → (1 : ℤ) = 1) ∧ (false = true → (-3 : ℤ) = 1) := ⟨fun _ => rfl, fun h => nomatch h⟩

/-- **C74 is false (split storage).** The dot product of a column of a matrix in split storage, stride 2, with a vector reads the first row instead: offset and stride
are dropped. -/
theorem C74_split_false : dot true false (fun k : ℤ => (k : ℚ)) (fun _ => (1 : ℚ)) 2 1 3 = 3 ∧
    ∑ i ∈ Finset.range 3, (((i : ℤ) * 2 : ℤ) : ℚ) * 1 = 6 := by
  constructor
  · simp [dot, constView, mkView, mkViewS, CView.get, Finset.sum_range_succ]; norm_num
  · simp [Finset.sum_range_succ]; norm_num

/-- **C74, partial (matrix products).** Vector-matrix, matrix-vector and matrix-matrix products are the sums that define them, for every order of dimensions and all
strides; vectors in split storage need stride 1.  Missing: other strides in split storage, see `C74_split_false`. -/
theorem C74_prod_partial {T : Type} [CommSemiring T] (p : Bool) (x a b : ℤ → T) (sx sr sc br bc : ℤ) (m n k : ℕ) (hp : p = true → sx = 1) :
    (∀ j, prodVM p x sx a sr sc m n j = ∑ i ∈ Finset.range m, x (i * sx) * a (i * sr + j * sc)) ∧
      (∀ i, prodMV p a sr sc m n x sx i = ∑ j ∈ Finset.range n, a (i * sr + j * sc) * x (j * sx)) ∧
      ∀ i j, prodMM a sr sc m n b br bc k i j = ∑ l ∈ Finset.range n, a (i * sr + l * sc) * b (l * br + j * bc) := by
  have hg : ∀ (n : ℕ) (i : ℕ), (constView p 0 sx n).get x i = x (i * sx) := by
    intro n i
    cases p
    · show x (((0 : ℕ) : ℤ) + i * sx) = _
      rw [Nat.cast_zero, zero_add]
    · rw [hp rfl]
      show x (((0 : ℕ) : ℤ) + i * 1) = _
      rw [Nat.cast_zero, zero_add]
  have hm : ∀ (y : ℤ → T) (s t : ℤ) (r c i j : ℕ), (mkMView 0 s r t c).get y i j = y (i * s + j * t) := by
    intro y s t r c i j
    show y (((0 : ℕ) : ℤ) + i * s + j * t) = _
    rw [Nat.cast_zero, zero_add]
  refine ⟨fun j => ?_, fun i => ?_, fun i j => ?_⟩
  · unfold prodVM mvprod
    refine Finset.sum_congr rfl fun i _ => ?_
    rw [hm, hg, mul_comm]
    congr 2; ring
  · unfold prodMV mvprod
    refine Finset.sum_congr rfl fun j _ => ?_
    rw [hm, hg]
  · unfold prodMM
    refine Finset.sum_congr rfl fun l _ => ?_
    rw [hm, hm]

/-! ## Filters -/

/-- **C74, partial (filters).** With a positive stride the filter reads and writes element `i` at `i * stride`, inside the block.  Missing: negative strides, see
`C74_fir_false`. -/
theorem C74_fir_partial (s : ℤ) (n : ℕ) (hs : 0 < s) (hn : 1 ≤ n) (hw : ((n : ℤ) - 1) * s + 1 < (W₆₄ : ℤ)) :
    (∀ (T : Type) (mem : ℤ → T) (i : ℕ), (firView s n).get mem i = mem (i * s)) ∧ Cv.Spec.Fits1 (firView s n).blk 0 s n := by
  have e : firOff s n = 0 := by rw [firOff, if_pos hs]
  have ev : firView s n = mkViewS 0 s n := by rw [firView, e]
  rw [ev]
  obtain ⟨h1, -, h3⟩ := C74_view_partial 0 s n hs.le hn (by simpa using hw)
  refine ⟨fun T mem i => ?_, by simpa using h1⟩
  rw [h3, Nat.cast_zero, zero_add]

example : (0 : ℤ) < 2 ∧ 1 ≤ 8 ∧ (((8 : ℕ) : ℤ) - 1) * 2 + 1 < (W₆₄ : ℤ) := by norm_num

/-- **C74 is false (filters on reversed vectors).** The pointer passed is that of the first element.  For stride -1 and `n` elements the filter reads the `n` elements
after it, in reversed order, none of which belongs to the vector. -/
theorem C74_fir_false (n : ℕ) (h1 : 1 ≤ n) (hw : n < W₆₄) (i : ℕ) (hi : i < n) (mem : ℤ → ℤ) (hm : ∀ a, mem a = a) :
    (firView (-1) n).get mem i = n - i ∧ ∀ j : ℕ, (firView (-1) n).get mem i ≠ j * (-1) := by
  have e : firOff (-1) n = n := by
    rw [firOff, if_neg (by norm_num), show -(-1 : ℤ) * ((n : ℤ) - 1) + 1 = n by ring, cv_toIdx (by omega) (by omega)]
    omega
  have e2 : (firView (-1) n).get mem i = n - i := by
    show mem ((firOff (-1) n : ℤ) + i * (-1)) = _
    rw [hm, e]; ring
  refine ⟨e2, fun j => ?_⟩
  rw [e2]
  omega

example : (1 : ℕ) ≤ 16 ∧ 16 < W₆₄ ∧ 5 < 16 := by norm_num

/-! ## Transforms -/

/-- **C74, partial (multiple transforms).** For any transform of the library, out of place, with `n` elements read and `m` written per vector: if the elements of the
result have distinct addresses, every row, or every column, of the result is the transform of that of the argument, and nothing else is written.  In split storage the
element strides of argument and result must agree.  Missing: other split storage, see `C74_stride_false`. -/
theorem C74_fftm_partial {T U : Type} (sw : Bool) (f : List T → ℕ → U) (n m : ℕ) (inR inC outR outC : ℤ) (rows cols : ℕ) (inp : ℤ → T) (out : ℤ → U) :
    (Cv.Spec.Distinct outR outC rows m → (sw = true → inC = outC) →
      Cv.Spec.RowsOf f rows n m inR inC outR outC inp (fftmOut sw true f n m inR inC outR outC rows cols inp out) ∧
      ∀ a, (∀ i < rows, ∀ j < m, a ≠ (i : ℤ) * outR + j * outC) → fftmOut sw true f n m inR inC outR outC rows cols inp out a = out a) ∧
    (Cv.Spec.Distinct outR outC m cols → (sw = true → inR = outR) →
      Cv.Spec.ColsOf f cols n m inR inC outR outC inp (fftmOut sw false f n m inR inC outR outC rows cols inp out) ∧
      ∀ a, (∀ i < m, ∀ j < cols, a ≠ (i : ℤ) * outR + j * outC) → fftmOut sw false f n m inR inC outR outC rows cols inp out a = out a) := by
  constructor
  · intro hd hsw
    have e : (if sw then outC else inC) = inC := by cases sw <;> simp at hsw ⊢; exact hsw.symm
    have key := rows_fold (fun i _ => f ((List.range n).map fun j : ℕ => inp (i * inR + j * inC))) outR outC m rows out hd (fun _ _ _ _ => rfl) rows le_rfl
    refine ⟨fun r hr c hc => ?_, fun a ha => ?_⟩
    · have := key.1 r hr c hc
      rw [if_pos hr] at this
      simp only [fftmOut, if_true, e]
      exact this
    · simp only [fftmOut, if_true, e]
      exact key.2 a ha
  · intro hd hsw
    have e : (if sw then outR else inR) = inR := by cases sw <;> simp at hsw ⊢; exact hsw.symm
    have key := rows_fold (fun i _ => f ((List.range n).map fun j : ℕ => inp (i * inC + j * inR))) outC outR m cols out
      (fun i hi j hj i' hi' j' hj' h => (hd j hj i hi j' hj' i' hi' (by linarith)).symm) (fun _ _ _ _ => rfl) cols le_rfl
    refine ⟨fun c hc r hr => ?_, fun a ha => ?_⟩
    · have := key.1 c hc r hr
      rw [if_pos hc] at this
      simp only [fftmOut, Bool.false_eq_true, if_false, e]
      rw [show (r : ℤ) * outR + c * outC = c * outC + r * outR by ring, this]
      congr 2
      funext j
      congr 1; ring
    · simp only [fftmOut, Bool.false_eq_true, if_false, e]
      exact key.2 a fun i hi j hj h => ha j hj i hi (by linarith)

/-- Row-major storage has distinct addresses. -/
example : Cv.Spec.Distinct 5 1 4 5 := by
  intro i hi j hj i' hi' j' hj' e
  omega

/-- **C74 is false (split storage, transforms).** Rows of a column-major argument in split storage, transformed into a row-major result (here the identity as
transform): row 0 of the 2 by 2 matrix is `0, 2`, and `0, 1` is read. -/
theorem C74_stride_false : ¬ Cv.Spec.RowsOf (fun (l : List ℤ) k => l.getD k 0) 2 2 2 1 2 2 1 (fun a => a)
    (fftmOut true true (fun (l : List ℤ) k => l.getD k 0) 2 2 1 2 2 1 2 2 (fun a => a) fun _ => 0) := by
  intro h
  have := h 0 (by norm_num) 1 (by norm_num)
  revert this
  decide

/-- **Multiple transforms in place.** Every row, or column, of the result is the transform of that of the argument, although rows are overwritten one by one, and
nothing else is written. -/
theorem C74_inplace {T : Type} (f : List T → ℕ → T) (sr sc : ℤ) (rows cols : ℕ) (mem : ℤ → T) (hd : Cv.Spec.Distinct sr sc rows cols) :
    Cv.Spec.RowsOf f rows cols cols sr sc sr sc mem (fftmIn true f sr sc rows cols mem) ∧
      Cv.Spec.ColsOf f cols rows rows sr sc sr sc mem (fftmIn false f sr sc rows cols mem) ∧
      ∀ ax a, (∀ i < rows, ∀ j < cols, a ≠ (i : ℤ) * sr + j * sc) → fftmIn ax f sr sc rows cols mem a = mem a := by
  have key1 := rows_fold (fun i (mem : ℤ → T) => f ((List.range cols).map fun j : ℕ => mem (i * sr + j * sc))) sr sc cols rows mem hd
    (fun i _ mem' h => by
      congr 1
      exact List.map_congr_left fun j hj => h j (List.mem_range.1 hj)) rows le_rfl
  have key2 := rows_fold (fun i (mem : ℤ → T) => f ((List.range rows).map fun j : ℕ => mem (i * sc + j * sr))) sc sr rows cols mem
    (fun i hi j hj i' hi' j' hj' h => (hd j hj i hi j' hj' i' hi' (by linarith)).symm)
    (fun i _ mem' h => by
      congr 1
      exact List.map_congr_left fun j hj => h j (List.mem_range.1 hj)) cols le_rfl
  refine ⟨fun r hr c hc => ?_, fun c hc r hr => ?_, fun ax a ha => ?_⟩
  · have := key1.1 r hr c hc
    rw [if_pos hr] at this
    simp only [fftmIn, if_true]
    exact this
  · have := key2.1 c hc r hr
    rw [if_pos hc] at this
    simp only [fftmIn, Bool.false_eq_true, if_false]
    rw [show (r : ℤ) * sr + c * sc = c * sc + r * sr by ring, this]
    congr 2
    funext j
    congr 1; ring
  · cases ax
    · simp only [fftmIn, Bool.false_eq_true, if_false]
      exact key2.2 a fun i hi j hj h => ha j hj i hi (by linarith)
    · simp only [fftmIn, if_true]
      exact key1.2 a ha

/-- **C74 is false (real transforms).** The view of the result of a real transform of length `n > 2` has `n` elements, though the result has `n/2 + 1`: it is bound to
storage after the result. -/
theorem C74_real_false (n : ℕ) (h : 2 < n) (hw : n < W₆₄) : n / 2 + 1 < (fftOutView 1 n).blk := by
  have : (fftOutView 1 n).blk = n := by
    show toIdx (((0 : ℕ) : ℤ) + ((n : ℤ) - 1) * 1 + 1) = n
    rw [cv_toIdx (by omega) (by omega)]
    omega
  rw [this]; omega

example : (2 : ℕ) < 1024 ∧ 1024 < W₆₄ := by norm_num

/-! ## Convolution -/

/-- **C74, partial (corrected convolutions).** Where the output has at least as many elements as are corrected, the corrected elements are the convolution with the
whole kernel, given or completed by symmetry, for full support and for same support, and the others stay as the library left them.  Missing: shorter outputs, see
`C74_fix_false`. -/
theorem C74_conv_partial {T : Type} [Semiring T] (c : ℕ → T) (M D : ℕ) (inp out : Vec T) (hw : out.n < W₆₄) :
    ((M + 1) / 2 ≤ out.n → ∃ r, fixFull c M ((M + 1) / 2) D inp out = some r ∧ r.n = out.n ∧
      ∀ n, r.f n = if out.n - (M + 1) / 2 ≤ n ∧ n < out.n then Cv.Spec.convAt c M inp.f inp.n ((n * D : ℕ) : ℤ) else out.f n) ∧
    (M ≤ out.n → ∃ r, fixFull (readEven c M) (2 * M) M D inp out = some r ∧ r.n = out.n ∧
      ∀ n, r.f n = if out.n - M ≤ n ∧ n < out.n then Cv.Spec.convAt (Cv.Spec.evenKernel c M) (2 * M) inp.f inp.n ((n * D : ℕ) : ℤ) else out.f n) ∧
    (1 ≤ out.n → ∃ r, fixSame c M (M / 2) D inp out = some r ∧ r.n = out.n ∧
      ∀ n, r.f n = if n = out.n - 1 then Cv.Spec.convAt c M inp.f inp.n (((out.n - 1) * D + M / 2 : ℕ) : ℤ) else out.f n) ∧
    (1 ≤ out.n → ∃ r, fixSame (readEven c M) (2 * M) M D inp out = some r ∧ r.n = out.n ∧
      ∀ n, r.f n = if n = out.n - 1 then Cv.Spec.convAt (Cv.Spec.evenKernel c M) (2 * M) inp.f inp.n (((out.n - 1) * D + M : ℕ) : ℤ) else out.f n) := by
  have hsame : ∀ (h : ℕ → T) (K half : ℕ), 1 ≤ out.n → ∃ r, fixSame h K half D inp out = some r ∧ r.n = out.n ∧
      ∀ n, r.f n = if n = out.n - 1 then Cv.Spec.convAt h K inp.f inp.n (((out.n - 1) * D + half : ℕ) : ℤ) else out.f n := by
    intro h K half h1
    have e : toIdx ((out.n : ℤ) - 1) = out.n - 1 := by
      rw [cv_toIdx (by omega) (by omega)]; omega
    refine ⟨⟨out.n, fun k => if k = out.n - 1 then Cv.Spec.convAt h K inp.f inp.n (((out.n - 1) * D + half : ℕ) : ℤ) else out.f k⟩, ?_, rfl, fun n => rfl⟩
    simp only [fixSame, e, fixSum_eq, Option.bind_some, Vec.put]
    rw [if_pos (by omega)]
  refine ⟨fun h => fixFull_eq c M _ D inp out h hw, fun h => ?_, hsame c M _, fun h => ?_⟩
  · have := fixFull_eq (readEven c M) (2 * M) M D inp out h hw
    rwa [readEven_eq] at this ⊢
  · have := hsame (readEven c M) (2 * M) M h
    rwa [readEven_eq] at this ⊢

/-- Nine coefficients and an output of 25. -/
example : (9 + 1) / 2 ≤ 25 ∧ 9 ≤ 25 ∧ 25 < W₆₄ := by norm_num

/-- **C74 is false (few outputs).** Three coefficients of a symmetric kernel, three inputs and decimation 8 give one output for full support, but three are corrected:
the second is written far outside. -/
theorem C74_fix_false : (outputSize .full 6 3 8 = 1) ∧ ∀ (c : ℕ → ℤ) (inp : ℕ → ℤ) (out : ℕ → ℤ),
    fixFull (readEven c 3) (2 * 3) 3 8 ⟨3, inp⟩ ⟨1, out⟩ = none := by
  refine ⟨by decide, fun c inp out => ?_⟩
  unfold fixFull loop
  rw [show List.range 3 = [0, 1, 2] from rfl]
  simp only [List.foldlM_cons, fixSum_eq, Option.bind_some, Vec.put]
  norm_num [toIdx]

/-! ## Solvers -/

/-- The contract of the library: a decomposition that succeeds gives solutions. -/
def CvLibOk {n k : ℕ} {K F : Type} [CommRing K] [StarRing K] (lib : Lib (Matrix (Fin n) (Fin n) K) (Matrix (Fin n) (Fin k) K) F) : Prop :=
  ∀ a f, lib.dec a = some f → ∀ o b, o ≠ .conj → ∃ x, lib.sol f o b = some x ∧ o.app a * x = b

/-- **C74, partial (solving).** After a decomposition that returned `true`, `solve` returns `true` with a solution of `op(A) X = B` for every operation it does not
refuse, and of `A X = B` for Cholesky decompositions.  Missing: copies and failed decompositions, see `C74_copy_false` and `C74_status_false`. -/
theorem C74_solve_partial {n k : ℕ} {K F : Type} [CommRing K] [StarRing K] (lib : Lib (Matrix (Fin n) (Fin n) K) (Matrix (Fin n) (Fin k) K) F) (hl : CvLibOk lib)
    (s : Solver (Matrix (Fin n) (Fin n) K) F) (a : Matrix (Fin n) (Fin n) K) (hs : (s.decompose lib a).1 = true) (b : Matrix (Fin n) (Fin k) K) :
    (∀ cx o r, (s.decompose lib a).2.solveLu lib cx o b = some r → r.1 = true ∧ o.app a * r.2 = b) ∧
      ((s.decompose lib a).2.solveChol lib b).1 = true ∧ a * ((s.decompose lib a).2.solveChol lib b).2 = b := by
  unfold Solver.decompose at *
  cases hd : lib.dec a with
  | none => rw [hd] at hs; cases hs
  | some f =>
    refine ⟨fun cx o r hr => ?_, rfl, ?_⟩
    · unfold Solver.solveLu at hr
      by_cases hc : o = .conj ∨ (o = .trans ∧ cx = true) ∨ (o = .herm ∧ cx = false)
      · rw [if_pos hc] at hr; cases hr
      · rw [if_neg hc] at hr
        have hoc : o ≠ .conj := fun h => hc (.inl h)
        have ho : matOp o = o := by cases o <;> first | rfl | exact absurd rfl hoc
        obtain ⟨x, hx, hax⟩ := hl a f hd o b hoc
        simp only [Option.some.injEq] at hr
        subst hr
        refine ⟨rfl, ?_⟩
        show o.app a * libSolve lib (.ok f) (matOp o) b = b
        rw [ho, libSolve, hx]
        exact hax
    · obtain ⟨x, hx, hax⟩ := hl a f hd .ntrans b (by simp)
      show a * libSolve lib (.ok f) .ntrans b = b
      rw [libSolve, hx]
      exact hax

/-- A library for matrices of one element. -/
def cvTiny : Lib (Matrix (Fin 1) (Fin 1) ℚ) (Matrix (Fin 1) (Fin 1) ℚ) ℚ :=
  ⟨fun a => if a 0 0 = 0 then none else some (a 0 0), fun f _ b => some (Matrix.of fun _ _ => b 0 0 / f)⟩

theorem cvTiny_ok : CvLibOk cvTiny := by
  intro a f h o b ho
  have h' : (if a 0 0 = 0 then none else some (a 0 0)) = some f := h
  by_cases h0 : a 0 0 = 0
  · rw [if_pos h0] at h'; cases h'
  · rw [if_neg h0, Option.some.injEq] at h'
    refine ⟨Matrix.of fun _ _ => b 0 0 / f, rfl, ?_⟩
    ext i j
    fin_cases i; fin_cases j
    have e : o.app a 0 0 = a 0 0 := by cases o <;> rfl
    simp only [Matrix.mul_apply, Fin.zero_eta, Finset.univ_unique, Fin.default_eq_zero, Fin.isValue, Finset.sum_singleton, Matrix.of_apply, e]
    rw [← h', mul_div_cancel₀ _ h0]

example : ((Solver.new : Solver (Matrix (Fin 1) (Fin 1) ℚ) ℚ).decompose cvTiny (Matrix.of fun _ _ => 2)).1 = true := by
  norm_num [Solver.decompose, cvTiny]

/-- **C74 is false (copies of solvers).** The copy of a solver that holds a decomposition has none: `solve` returns `true` and the right sides, not the solution. -/
theorem C74_copy_false : ∃ (a b : Matrix (Fin 1) (Fin 1) ℚ), ((Solver.new : Solver _ ℚ).decompose cvTiny a).1 = true ∧
    ∀ r, ((Solver.new : Solver _ ℚ).decompose cvTiny a).2.copy.solveLu cvTiny false .ntrans b = some r → r.1 = true ∧ a * r.2 ≠ b := by
  refine ⟨Matrix.of fun _ _ => 2, Matrix.of fun _ _ => 1, by norm_num [Solver.decompose, cvTiny], fun r hr => ?_⟩
  have hr' : some (true, (Matrix.of fun _ _ => (1 : ℚ) : Matrix (Fin 1) (Fin 1) ℚ)) = some r := by
    rw [← hr]; rfl
  simp only [Option.some.injEq] at hr'
  subst hr'
  refine ⟨rfl, fun h => ?_⟩
  have := congrFun (congrFun h 0) 0
  simp [Matrix.mul_apply] at this

/-- **C74 is false (failures are not reported).** After a decomposition that failed, `solve` returns `true` and the right sides; `qrd::decompose` returns `true` itself. -/
theorem C74_status_false {M B F : Type} (lib : Lib M B F) (s : Solver M F) (m : M) (h : lib.dec m = none) (b : B) (cx : Bool) :
    (s.decompose lib m).1 = false ∧ (s.decompose lib m).2.solveLu lib cx .ntrans b = some (true, b) ∧ (s.decompose lib m).2.solveChol lib b = (true, b) ∧
      (s.decomposeQr lib m).1 = true := by
  unfold Solver.decomposeQr Solver.decompose
  rw [h]
  refine ⟨rfl, ?_, rfl, rfl⟩
  unfold Solver.solveLu
  rw [if_neg (by simp)]
  rfl

example : cvTiny.dec (Matrix.of fun _ _ => 0) = none := by norm_num [cvTiny]

/-- **C74 is false (refused operations).** For real matrices conjugate transposition is transposition, and for complex ones transposition is meaningful, but both are
refused with an exception. -/
theorem C74_refused_false {M B F : Type} (lib : Lib M B F) (s : Solver M F) (b : B) : s.solveLu lib false .herm b = none ∧ s.solveLu lib true .trans b = none :=
  ⟨rfl, rfl⟩

/-! ## Products with Q -/

/-- **C74, partial (sizes for products with Q).** Without conjugate transposition, the sizes required of the arguments are those of the product with `op(Q)`, of the
left or right side.  Missing: conjugate transposition, see `C74_herm_false`. -/
theorem C74_prodq_partial (st : Storage) (tr : Cv.Spec.MatOp) (ht : tr ≠ .herm) (m n : ℕ) (b x : ℕ × ℕ) :
    (prodqPre st tr true m n b x ↔
      b.1 = (tr.size m (if st = .saveq1 then n else m)).2 ∧ x = ((tr.size m (if st = .saveq1 then n else m)).1, b.2)) ∧
    (prodqPre st tr false m n b x ↔
      b.2 = (tr.size m (if st = .saveq1 then n else m)).1 ∧ x = (b.1, (tr.size m (if st = .saveq1 then n else m)).2)) := by
  obtain ⟨x1, x2⟩ := x
  cases st <;> cases tr <;> first | exact absurd rfl ht | simp [prodqPre, prodqSize, Cv.Spec.MatOp.size, Prod.ext_iff] <;> omega

/-- **C74 is false (conjugate transposition).** For `Q` of 5 rows and 3 columns, `Qᴴ B` with `B` of 5 rows is refused, and `B` of 3 rows is required: rows and columns
are exchanged twice. -/
theorem C74_herm_false : ¬ prodqPre .saveq1 .herm true 5 3 (5, 2) (3, 2) ∧ prodqPre .saveq1 .herm true 5 3 (3, 2) (5, 2) ∧
    Cv.Spec.MatOp.size .herm 5 3 = (3, 5) := by decide

/-- **C74 is false (greater results).** `Q B` has more rows than `B` when `Q` has more rows than columns: the intermediate matrix has the size of `B`, and the copy to
the result reads outside of it. -/
theorem C74_outside_false (m n k : ℕ) (h : n < m) : prodqPre .saveq1 .ntrans true m n (n, k) (m, k) ∧ ¬ prodqInside (n, k) (m, k) := by
  refine ⟨by simp [prodqPre, prodqSize], fun hh => ?_⟩
  have : m ≤ n := hh.1
  omega

example : (3 : ℕ) < 5 := by norm_num

/-- **C74 is false (the value returned).** `prodq` returns the status of the library as it is: `false` for success, `true` for failure. -/
theorem C74_return_false : prodqRet 0 = false ∧ ∀ s, s ≠ 0 → prodqRet s = true :=
  ⟨rfl, fun s h => by simp [prodqRet, h]⟩

end Verif.Props
