import Verif.Views.Lemmas
import Mathlib.Data.List.Perm.Basic
/-!
Properties of views of stored data.

* C22: the address computed from `ptr()` and the strides is the one `get` and `put` access.
* C23: put/get laws through any stack of views; in-range indices reach in-range parent elements.
* C24: reported dimension orders list dimensions from largest to smallest stride; `Permute_order` does not.
* C25: the real and imaginary part views are lenses onto complex elements.
-/
namespace Verif.Props
open Verif Vw Spec

/-- the stack used in the examples: a diagonal of the transpose of a subset of a slice of a permuted 4x5x6 array -/
def stack : View :=
  .diag 1 (.transposed (.subset [⟨3, -1, 4⟩, ⟨1, 1, 3⟩] (.sliced 0 2 (.permuted [1, 2, 0] (.base [4, 5, 6] [30, 6, 1] 1000)))))

theorem stack_wf : stack.WF := by
  have f1 : Fits ⟨3, -1, 4⟩ := fits_of_ends (by decide) (by decide) (by decide) (by decide) (by decide)
  have f2 : Fits ⟨1, 1, 3⟩ := fits_of_ends (by decide) (by decide) (by decide) (by decide) (by decide)
  refine ⟨⟨⟨⟨⟨⟨rfl, by decide, by decide, by decide⟩, rfl, by decide⟩, by decide, by decide, by decide⟩, by decide, ?_, ?_⟩, rfl⟩, rfl, by decide, by decide⟩
  · intro d hd
    simp only [List.mem_cons, List.not_mem_nil, or_false] at hd
    rcases hd with rfl | rfl
    · exact f1
    · exact f2
  · refine .cons (Or.inr (by decide)) (.cons (Or.inr (by decide)) .nil)

/-- **C22.** Direct access to any stack of views: pointer plus sum of stride times index is the address of the element `get`/`put` access. -/
theorem C22_address (v : View) (h : v.WF) (i : List Nat) (hi : InRange i v.sizes) :
    v.access i = (v.ptr.1, v.ptr.2 + View.dot v.strides i) := address h hi

example : stack.sizes = [3] ∧ stack.strides = [29] ∧ stack.ptr = (0, 1044) ∧ stack.access [2] = (0, 1102) := by decide

/-- The hypotheses on the parts of complex data are satisfiable, split and interleaved. -/
example : (View.component false 1 stack).access [2] = (0, 2205) ∧ (View.component true 1 stack).access [2] = (1, 1102) := by decide

/-- **C23.** In-range indices of a view always reach in-range elements of the block it was made from. -/
theorem C23_in_range (v : View) (h : v.WF) (i : List Nat) (hi : InRange i v.sizes) : InRange (v.toParent i) v.parent.sizes :=
  toParent_range h hi

/-- **C23.** A value stored through a stack of views is read back; all other elements of the view keep their value; and one address
of memory changes. -/
theorem C23_put_get {V : Type} (v : View) (h : v.WF) (hd : v.Distinct) (mem : Nat × Int → V) (i : List Nat) (hi : InRange i v.sizes) (x : V) :
    vget v (vput v mem i x) i = x ∧ (∀ j, InRange j v.sizes → j ≠ i → vget v (vput v mem i x) j = vget v mem j) ∧
    ∃ a, ∀ b, b ≠ a → vput v mem i x b = mem b := by
  refine ⟨by simp [vget, vput], ?_, v.access i, ?_⟩
  · intro j hj hn
    unfold vget vput
    rw [Function.update_of_ne]
    exact fun he => hn (access_inj h hd hj hi he)
  · intro b hb
    exact Function.update_of_ne hb _ _

/-- the element of the stored block that a stack of views designates -/
def baseIdx : View → List Nat → List Nat
  | .base _ _ _, i => i
  | .subset dom v, i => baseIdx v (View.toParent (.subset dom v) i)
  | .sliced D k v, i => baseIdx v (View.toParent (.sliced D k v) i)
  | .sliced2 D1 D2 k l v, i => baseIdx v (View.toParent (.sliced2 D1 D2 k l v) i)
  | .transposed v, i => baseIdx v (View.toParent (.transposed v) i)
  | .permuted p v, i => baseIdx v (View.toParent (.permuted p v) i)
  | .diag off v, i => baseIdx v (View.toParent (.diag off v) i)
  | .component _ _ v, i => baseIdx v i

/-- extent, strides and address of the stored block below a stack -/
def stored : View → List Nat × List Int × Int
  | .base e s p => (e, s, p)
  | .subset _ v | .sliced _ _ v | .sliced2 _ _ _ _ v | .transposed v | .permuted _ v | .diag _ v | .component _ _ v => stored v

theorem base_range (v : View) (h : v.WF) : ∀ i, InRange i v.sizes → InRange (baseIdx v i) (stored v).1 := by
  induction v with
  | base => exact fun _ hi => hi
  | subset dom v ih => exact fun i hi => ih h.1 _ (toParent_range h hi)
  | sliced D k v ih => exact fun i hi => ih h.1 _ (toParent_range h hi)
  | sliced2 D1 D2 k l v ih => exact fun i hi => ih h.1 _ (toParent_range h hi)
  | transposed v ih => exact fun i hi => ih h.1 _ (toParent_range h hi)
  | permuted p v ih => exact fun i hi => ih h.1 _ (toParent_range h hi)
  | diag off v ih => exact fun i hi => ih h.1 _ (toParent_range h hi)
  | component s c v ih => exact fun i hi => ih h.1 i hi

theorem base_access (v : View) (hw : v.whole) : ∀ i, v.access i = (0, (stored v).2.2 + View.dot (stored v).2.1 (baseIdx v i)) := by
  induction v with
  | base => exact fun _ => rfl
  | subset dom v ih => exact fun i => ih hw _
  | sliced D k v ih => exact fun i => ih hw _
  | sliced2 D1 D2 k l v ih => exact fun i => ih hw _
  | transposed v ih => exact fun i => ih hw _
  | permuted p v ih => exact fun i => ih hw _
  | diag off v ih => exact fun i => ih hw _
  | component s c v ih => simp [View.whole] at hw

/-- **C23.** All the way down: what is accessed is an element of the stored block, at an in-range index. -/
theorem C23_stored (v : View) (h : v.WF) (hw : v.whole) (i : List Nat) (hi : InRange i v.sizes) :
    InRange (baseIdx v i) (stored v).1 ∧ v.access i = (0, (stored v).2.2 + View.dot (stored v).2.1 (baseIdx v i)) :=
  ⟨base_range v h i hi, base_access v hw i⟩

example : stack.WF ∧ stack.whole ∧ InRange [2] stack.sizes ∧ baseIdx stack [2] = [3, 2, 0] :=
  ⟨stack_wf, rfl, ⟨by decide, trivial⟩, by decide⟩

/-- **C23.** A diagonal has exactly the elements of the matrix on it. -/
theorem C23_diag_exact (n m : Nat) (hn : n < W₆₃) (hm : m < W₆₃) (off : Int) (h1 : -(n : Int) ≤ off) (h2 : off ≤ m) (x : Nat) :
    x < diagSize off n m ↔ (0 ≤ off ∧ (x : Int) < n ∧ x + off < m) ∨ (off < 0 ∧ (x : Int) - off < n ∧ (x : Int) < m) := by
  unfold diagSize
  by_cases ho : off ≥ 0
  · have e1 : (toIdx ((m : Int) - off) : Int) = m - off := toIdx_of_fits (by omega) (by omega)
    rw [if_pos ho]
    omega
  · have e1 : (toIdx ((n : Int) + off) : Int) = n + off := toIdx_of_fits (by omega) (by omega)
    rw [if_neg ho]
    omega

example : diagSize 2 3 4 = 2 ∧ diagSize (-2) 3 4 = 1 ∧ diagSize 1 3 4 = 3 := by decide

/-- **C23, where it fails.** The constructor of a diagonal view checks nothing.  Diagonal 5 of a 3x4 matrix is not empty: the unsigned
difference wraps, the view has 3 elements and its element 0 is element (0,5) of the matrix. -/
theorem C23_diag_unchecked_false : ∃ (v : View) (off : Int) (i : List Nat), v.WF ∧ InRange i (View.diag off v).sizes ∧
    ¬ InRange ((View.diag off v).toParent i) v.sizes :=
  ⟨.base [3, 4] [4, 1] 0, 5, [0], ⟨rfl, by decide, by decide, by decide⟩, ⟨by decide, trivial⟩, fun h => absurd h.2.1 (by decide)⟩

/-! ### C24 -/

/-- an order lists all the dimensions, from largest to smallest stride -/
def Descending (o : List Nat) (st : List Int) : Prop :=
  o.Perm (List.range st.length) ∧ o.Pairwise fun a b => st.getD b 0 ≤ st.getD a 0

/-- strides of a dense 3-D block with order `o` (row-major in the order of `o`) and extents `s` -/
def IsDense3 (o : List Nat) (st : List Int) (s : Nat → Nat) : Prop :=
  st.length = 3 ∧ st.getD (o.getD 2 0) 0 = 1 ∧ st.getD (o.getD 1 0) 0 = s (o.getD 2 0) ∧ st.getD (o.getD 0 0) 0 = s (o.getD 2 0) * s (o.getD 1 0)

def orders3 : List (List Nat) := [[0,1,2],[1,0,2],[1,2,0],[2,1,0],[2,0,1],[0,2,1]]

theorem dense_desc (o : List Nat) (ho : o ∈ orders3) (st : List Int) (s : Nat → Nat) (hs : ∀ d, 0 < s d) (h : IsDense3 o st s) :
    Descending o st := by
  obtain ⟨hl, h2, h1, h0⟩ := h
  have p2 : (1 : Int) ≤ s (o.getD 2 0) := by have := hs (o.getD 2 0); omega
  have p1 : (1 : Int) ≤ s (o.getD 1 0) := by have := hs (o.getD 1 0); omega
  have p0 : (s (o.getD 2 0) : Int) ≤ s (o.getD 2 0) * s (o.getD 1 0) := by
    have := Int.mul_le_mul_of_nonneg_left p1 (show (0 : Int) ≤ s (o.getD 2 0) by omega)
    omega
  constructor
  · rw [hl]
    revert ho
    clear h2 h1 h0 p2 p1 p0
    revert o
    decide
  · have ho' : o = [o.getD 0 0, o.getD 1 0, o.getD 2 0] := by
      clear h2 h1 h0 p2 p1 p0
      revert ho
      revert o
      decide
    rw [ho']
    simp only [List.pairwise_cons, List.mem_cons, List.not_mem_nil, or_false, forall_eq_or_imp, forall_eq, IsEmpty.forall_iff, implies_true,
      List.Pairwise.nil, and_true]
    omega

/-- **C24.** Transposition keeps reported orders correct. -/
theorem C24_transposed (v : View) (h : v.WF) (h2 : v.sizes.length = 2) (o : List Nat) (ho : Descending o v.strides) :
    Descending (transposeOrder o) (View.transposed v).strides := by
  obtain ⟨s, t, e⟩ := len2 ((sizes_len h).1.trans h2)
  obtain ⟨hp, hw⟩ := ho
  rw [e] at hp hw
  have hl : o.length = 2 := by simpa using hp.length_eq
  obtain ⟨a, b, rfl⟩ := len2 hl
  have hab : (a = 0 ∧ b = 1) ∨ (a = 1 ∧ b = 0) := by
    have ha : a ∈ List.range 2 := hp.subset (by simp)
    have hb : b ∈ List.range 2 := hp.subset (by simp)
    have hn : [a, b].Nodup := hp.nodup_iff.2 List.nodup_range
    simp only [List.mem_range] at ha hb
    simp at hn
    omega
  rcases hab with ⟨rfl, rfl⟩ | ⟨rfl, rfl⟩
  · refine ⟨by show List.Perm _ (List.range 2); decide, ?_⟩
    simpa [transposeOrder, View.strides, e] using hw
  · refine ⟨by show List.Perm _ (List.range 2); decide, ?_⟩
    simpa [transposeOrder, View.strides, e] using hw

example : Descending [0, 1] (View.base [3, 4] [4, 1] 0).strides ∧ (View.transposed (.base [3, 4] [4, 1] 0)).strides = [1, 4] ∧ transposeOrder [0, 1] = [1, 0] := by
  refine ⟨⟨by decide, by decide⟩, by decide, by decide⟩

/-- **C24.** Slicing a 3-D view at a fixed index of any dimension keeps reported orders correct, and the slice has unit stride
in its last dimension of that order whenever the parent has and `unit_stride_preserved`. -/
theorem C24_sliced (v : View) (h : v.WF) (h3 : v.sizes.length = 3) (o : List Nat) (ho : Descending o v.strides) (D k : Nat) (hD : D < 3) :
    Descending (slicedOrder o D) (View.sliced D k v).strides ∧
    (unitStridePreserved o 3 D = true → v.strides.getD (o.getD 2 0) 0 = 1 →
      (View.sliced D k v).strides.getD ((slicedOrder o D).getD 1 0) 0 = 1) := by
  obtain ⟨s, t, u, e⟩ := len3 ((sizes_len h).1.trans h3)
  obtain ⟨hp, hw⟩ := ho
  rw [e] at hp hw
  have hl : o.length = 3 := by simpa using hp.length_eq
  have hmem : o ∈ orders3 := by
    obtain ⟨a, b, c, rfl⟩ := len3 hl
    have ha : a ∈ List.range 3 := hp.subset (by simp)
    have hb : b ∈ List.range 3 := hp.subset (by simp)
    have hc : c ∈ List.range 3 := hp.subset (by simp)
    have hn : [a, b, c].Nodup := hp.nodup_iff.2 List.nodup_range
    have : ∀ a ∈ List.range 3, ∀ b ∈ List.range 3, ∀ c ∈ List.range 3, [a, b, c].Nodup → [a, b, c] ∈ orders3 := by decide
    exact this a ha b hb c hc hn
  simp only [orders3, List.mem_cons, List.not_mem_nil, or_false] at hmem
  have hD' : D = 0 ∨ D = 1 ∨ D = 2 := by omega
  rcases hmem with rfl | rfl | rfl | rfl | rfl | rfl <;> rcases hD' with rfl | rfl | rfl <;>
    simp [Descending, slicedOrder, unitStridePreserved, View.strides, e, sliceDim, List.range, List.range.loop] at hw ⊢ <;>
    first
      | (refine ⟨?_, ?_⟩ <;> first | omega | exact List.Perm.swap 0 1 [])
      | omega

example : slicedOrder [1, 2, 0] 1 = [1, 0] ∧ Descending [1, 2, 0] [1, 20, 4] ∧ Descending (slicedOrder [1, 2, 0] 1) [1, 4] :=
  ⟨by decide, ⟨by decide, by decide⟩, ⟨by decide, by decide⟩⟩

/-- the dimension of the permuted view that shows the parent's dimension `d` -/
def viewDim (p : List Nat) (d : Nat) : Nat := p.idxOf d

/-- **C24, where it fails.** `Permute_order` composes in the wrong order: for the permutation (1,2,0) of a dense 2x3x4 block
it reports (1,2,0), though the strides of the view are 4, 1, 12. -/
theorem C24_permuted_false : ∃ (v : View) (p o : List Nat), v.WF ∧ (View.permuted p v).WF ∧ Descending o v.strides ∧
    ¬ Descending (permuteOrder p o) (View.permuted p v).strides := by
  refine ⟨.base [2, 3, 4] [12, 4, 1] 0, [1, 2, 0], [0, 1, 2], ⟨rfl, by decide, by decide, by decide⟩,
    ⟨⟨rfl, by decide, by decide, by decide⟩, rfl, by decide⟩, ⟨by decide, by decide⟩, ?_⟩
  rintro ⟨-, h⟩
  revert h
  decide

/-- **C24.** The order a permuted view reports is correct exactly when it lists, in the parent's order, the view dimensions showing them;
for instance for all permutations that exchange two dimensions of row-major data.
Missing: the other permutations, see `C24_permuted_false`. -/
theorem C24_permuted_partial (v : View) (h : v.WF) (h3 : v.sizes.length = 3) (o p : List Nat) (ho : o ∈ orders3) (hp : p ∈ orders3)
    (hs : v.strides.getD (o.getD 1 0) 0 < v.strides.getD (o.getD 0 0) 0 ∧ v.strides.getD (o.getD 2 0) 0 < v.strides.getD (o.getD 1 0) 0) :
    Descending (permuteOrder p o) (View.permuted p v).strides ↔ permuteOrder p o = o.map (viewDim p) := by
  obtain ⟨s, t, u, e⟩ := len3 ((sizes_len h).1.trans h3)
  rw [e] at hs
  simp only [orders3, List.mem_cons, List.not_mem_nil, or_false] at ho hp
  rcases ho with rfl | rfl | rfl | rfl | rfl | rfl <;> rcases hp with rfl | rfl | rfl | rfl | rfl | rfl <;>
    simp only [Descending, permuteOrder, View.strides, e, viewDim, List.range, List.range.loop, List.getD_cons_zero, List.getD_cons_succ,
      List.map_cons, List.map_nil, List.pairwise_cons, List.mem_cons, List.not_mem_nil, or_false, forall_eq_or_imp, forall_eq,
      IsEmpty.forall_iff, implies_true, List.Pairwise.nil, and_true, List.length_cons, List.length_nil] at hs ⊢ <;>
    first
      | (refine iff_of_false ?_ (by decide); rintro ⟨-, hh⟩; omega)
      | (refine iff_of_true ⟨by decide, ?_⟩ (by decide); omega)

/-- The permutations that exchange two dimensions of row-major data (and the identity) report the right order; the two rotations do not.
Missing: the two rotations, see `C24_permuted_false`. -/
theorem C24_exchange_partial : ∀ p ∈ [[0, 1, 2], [1, 0, 2], [0, 2, 1], [2, 1, 0]], permuteOrder p [0, 1, 2] = [0, 1, 2].map (viewDim p) := by
  decide

example : ∃ p ∈ orders3, permuteOrder p [0, 1, 2] ≠ [0, 1, 2].map (viewDim p) := by decide

/-- **C24.** Dense data reports its own order correctly. -/
theorem C24_dense (o : List Nat) (ho : o ∈ orders3) (st : List Int) (s : Nat → Nat) (hs : ∀ d, 0 < s d) (h : IsDense3 o st s) :
    Descending o st := dense_desc o ho st s hs h

example : IsDense3 [2, 0, 1] [3, 1, 6] (fun d => [2, 3, 4].getD d 1) := ⟨rfl, by decide, by decide, by decide⟩

/-! ### C25 -/

theorem parts_ne (split : Bool) (v : View) (h : v.WF) (i j : List Nat) (hi : InRange i v.sizes) (hj : InRange j v.sizes) :
    (View.component split 0 v).access i ≠ (View.component split 1 v).access j := by
  have a1 := address h hi
  have a2 := address h hj
  intro he
  simp only [View.access, a1, a2] at he
  cases split
  · simp only [Bool.false_eq_true, if_false, Prod.mk.injEq, true_and] at he
    omega
  · simp at he

/-- **C25.** Storing through the view of one part changes only that scalar: it is the store of one scalar to the part's address. -/
theorem C25_put {V : Type} (split : Bool) (c : Nat) (hc : c ≤ 1) (v : View) (h : v.WF) (mem : Nat × Int → V) (i : List Nat)
    (hi : InRange i v.sizes) (x : V) : componentPut split c v mem i x = vput (.component split c v) mem i x := by
  have hne := parts_ne split v h i i hi hi
  have hc' : c = 0 ∨ c = 1 := by omega
  funext a
  unfold componentPut cput cget vput vget
  rcases hc' with rfl | rfl
  · simp only [if_true]
    by_cases h1 : a = (View.component split 1 v).access i
    · subst h1
      rw [Function.update_self, Function.update_of_ne hne.symm]
    · rw [Function.update_of_ne h1]
  · simp only [Nat.one_ne_zero, if_false]
    by_cases h1 : a = (View.component split 1 v).access i
    · subst h1
      rw [Function.update_self, Function.update_self]
    · rw [Function.update_of_ne h1, Function.update_of_ne h1]
      by_cases h0 : a = (View.component split 0 v).access i
      · subst h0
        rw [Function.update_self]
      · rw [Function.update_of_ne h0]

/-- **C25.** After storing one part of an element: that element has the new part and the old other part, all other elements are unchanged,
and every element is the recombination of what the two part views read. -/
theorem C25_lens {V : Type} (split : Bool) (v : View) (h : v.WF) (hw : v.whole) (hd : v.Distinct) (mem : Nat × Int → V) (i : List Nat)
    (hi : InRange i v.sizes) (x : V) :
    cget split v (componentPut split 0 v mem i x) i = (x, (cget split v mem i).2) ∧
    cget split v (componentPut split 1 v mem i x) i = ((cget split v mem i).1, x) ∧
    (∀ c ≤ 1, ∀ j, InRange j v.sizes → j ≠ i → cget split v (componentPut split c v mem i x) j = cget split v mem j) ∧
    (∀ z, cget split v (cput split v mem i z) i = z) ∧ cput split v mem i (cget split v mem i) = mem := by
  have hne : ∀ i j, InRange i v.sizes → InRange j v.sizes → _ := fun i j hi hj => parts_ne split v h i j hi hj
  have w0 : (View.component split 0 v).WF := ⟨h, by decide, hw⟩
  have w1 : (View.component split 1 v).WF := ⟨h, by decide, hw⟩
  refine ⟨?_, ?_, ?_, ?_, ?_⟩
  · rw [C25_put split 0 (by decide) v h mem i hi]
    unfold cget vget vput
    rw [Function.update_self, Function.update_of_ne (hne i i hi hi).symm]
  · rw [C25_put split 1 (by decide) v h mem i hi]
    unfold cget vget vput
    rw [Function.update_self, Function.update_of_ne (hne i i hi hi)]
  · intro c hc j hj hn
    rw [C25_put split c hc v h mem i hi]
    unfold cget vget vput
    have hc' : c = 0 ∨ c = 1 := by omega
    rcases hc' with rfl | rfl
    · rw [Function.update_of_ne (fun he => hn (access_inj w0 hd hj hi he)), Function.update_of_ne (hne i j hi hj).symm]
    · rw [Function.update_of_ne (fun he => hn (access_inj w1 hd hj hi he)), Function.update_of_ne (hne j i hj hi)]
  · rintro ⟨a, b⟩
    unfold cget cput vget vput
    rw [Function.update_self, Function.update_of_ne (hne i i hi hi), Function.update_self]
  · unfold cget cput vget vput
    funext a
    by_cases h1 : a = (View.component split 1 v).access i
    · subst h1; rw [Function.update_self]
    · rw [Function.update_of_ne h1]
      by_cases h0 : a = (View.component split 0 v).access i
      · subst h0; rw [Function.update_self]
      · rw [Function.update_of_ne h0]

/-- the last value a history stores to a part of an element (specification) -/
def lastStore {V : Type} (c : Nat) (i : List Nat) (old : V) : List (Nat × List Nat × V) → V
  | [] => old
  | (c', i', x) :: l => lastStore c i (if c' = c ∧ i' = i then x else old) l

/-- **C25.** For every history of stores to parts, each part of each element has the value last stored to it. -/
theorem C25_history {V : Type} (split : Bool) (v : View) (h : v.WF) (hw : v.whole) (hd : v.Distinct) (i : List Nat) (hi : InRange i v.sizes) :
    ∀ (l : List (Nat × List Nat × V)) (mem : Nat × Int → V), (∀ e ∈ l, e.1 ≤ 1 ∧ InRange e.2.1 v.sizes) →
      cget split v (partStores split v mem l) i = (lastStore 0 i (cget split v mem i).1 l, lastStore 1 i (cget split v mem i).2 l)
  | [], mem, _ => rfl
  | (c, j, x) :: l, mem, hl => by
      obtain ⟨hc, hj⟩ := hl (c, j, x) (by simp)
      simp only [] at hc hj
      have ih := C25_history split v h hw hd i hi l (componentPut split c v mem j x) (fun e he => hl e (by simp [he]))
      obtain ⟨l1, l2, l3, -, -⟩ := C25_lens split v h hw hd mem j hj x
      simp only [partStores, lastStore]
      rw [ih]
      have hc' : c = 0 ∨ c = 1 := by omega
      by_cases hij : i = j
      · subst hij
        rcases hc' with rfl | rfl
        · rw [l1]; simp
        · rw [l2]; simp
      · rw [l3 c hc i hi hij]
        have hji : ¬ j = i := fun he => hij he.symm
        simp [hji]

example : stack.WF ∧ stack.whole ∧ stack.Distinct ∧ InRange [1] stack.sizes ∧
    cget false stack (partStores false stack (fun a => a.2) [(0, [1], 7), (1, [2], 8), (0, [1], 9)]) [1] = (9, 2147) ∧
    cget true stack (partStores true stack (fun a => a.2) [(1, [1], 7)]) [1] = (1073, 7) := by
  refine ⟨stack_wf, rfl, ⟨?_, by decide⟩, ⟨by decide, trivial⟩, by decide, by decide⟩
  intro i j hi hj he
  obtain ⟨x, y, z, rfl, hx, hy, hz⟩ := inr3 hi
  obtain ⟨x', y', z', rfl, hx', hy', hz'⟩ := inr3 hj
  simp only [View.dot] at he
  have : x = x' ∧ y = y' ∧ z = z' := by omega
  rw [this.1, this.2.1, this.2.2]

end Verif.Props
