import Verif.Views.Model
import Verif.Map.Spec
import Verif.Domain.Lemmas
import Mathlib.Tactic.Ring
import Mathlib.Data.List.Basic
import Mathlib.Data.List.GetD
import Mathlib.Tactic.LinearCombination
/-! Lemmas about view stacks. -/
namespace Verif.Vw
open Verif Spec

/-- the view's elements are those of the stored block, not parts of them -/
def View.whole : View → Bool
  | .base _ _ _ => true
  | .subset _ v | .sliced _ _ v | .sliced2 _ _ _ _ v | .transposed v | .permuted _ v | .diag _ v => v.whole
  | .component _ _ _ => false

/-- what the view constructors require (or assert) of their arguments -/
def View.WF : View → Prop
  | .base ext str _ => str.length = ext.length ∧ 1 ≤ ext.length ∧ ext.length ≤ 3 ∧ ∀ n ∈ ext, n < W₆₃
  | .subset dom v => v.WF ∧ dom.length = v.sizes.length ∧ (∀ d ∈ dom, Fits d) ∧
      List.Forall₂ (fun (d : Dom) n => d.length = 0 ∨ (d.first < n ∧ d.last < n)) dom v.sizes
  | .sliced D i v => v.WF ∧ 2 ≤ v.sizes.length ∧ D < v.sizes.length ∧ i < v.sizes.getD D 0
  | .sliced2 D1 D2 i j v => v.WF ∧ v.sizes.length = 3 ∧ D1 < D2 ∧ D2 < 3 ∧ i < v.sizes.getD D1 0 ∧ j < v.sizes.getD D2 0
  | .transposed v => v.WF ∧ v.sizes.length = 2
  | .permuted p v => v.WF ∧ v.sizes.length = 3 ∧ p ∈ [[0,1,2],[1,0,2],[1,2,0],[2,1,0],[2,0,1],[0,2,1]]
  | .diag off v => v.WF ∧ v.sizes.length = 2 ∧ -(v.sizes.getD 0 0 : Int) < off ∧ off < v.sizes.getD 1 0
  | .component _ c v => v.WF ∧ c ≤ 1 ∧ v.whole

theorem fits_small {d : Dom} (hf : Fits d) : d.length < W₆₃ ∨ d.length = 0 := by
  exact Or.inl hf.length_lt

theorem sizes_len {v : View} (h : v.WF) : v.strides.length = v.sizes.length ∧ 1 ≤ v.sizes.length ∧ v.sizes.length ≤ 3 ∧ ∀ n ∈ v.sizes, n < W₆₃ := by
  induction v with
  | base ext str p => exact h
  | subset dom v ih =>
    obtain ⟨h1, h2, h3, h4⟩ := h
    obtain ⟨i1, i2, i3, i4⟩ := ih h1
    refine ⟨by simp [View.strides, View.sizes, i1, h2], by simp [View.sizes, h2, i2], by simp [View.sizes, h2, i3], ?_⟩
    intro n hn
    simp only [View.sizes, List.mem_map] at hn
    obtain ⟨d, hd, rfl⟩ := hn
    rcases fits_small (h3 d hd) with h | h <;> omega
  | sliced D k v ih =>
    obtain ⟨h1, h2, h3, h4⟩ := h
    obtain ⟨i1, i2, i3, i4⟩ := ih h1
    refine ⟨by simp [View.strides, View.sizes, i1], by simp [View.sizes]; omega, by simp [View.sizes]; omega, ?_⟩
    intro n hn
    simp only [View.sizes, List.mem_map, List.mem_range] at hn
    obtain ⟨d, hd, rfl⟩ := hn
    have : sliceDim D d < v.sizes.length := by unfold sliceDim; split <;> omega
    rw [List.getD_eq_getElem _ _ this]
    exact i4 _ (List.getElem_mem _)
  | sliced2 D1 D2 k l v ih =>
    obtain ⟨h1, h2, h3, h4, h5, h6⟩ := h
    obtain ⟨i1, i2, i3, i4⟩ := ih h1
    refine ⟨by simp [View.strides, View.sizes, i1], by simp [View.sizes, h2], by simp [View.sizes, h2], ?_⟩
    intro n hn
    simp only [View.sizes, List.mem_map, List.mem_range] at hn
    obtain ⟨d, hd, rfl⟩ := hn
    have : sliceDim2 D1 D2 d < v.sizes.length := by unfold sliceDim2; split <;> (try split) <;> omega
    rw [List.getD_eq_getElem _ _ this]
    exact i4 _ (List.getElem_mem _)
  | transposed v ih =>
    obtain ⟨h1, h2⟩ := h
    obtain ⟨i1, i2, i3, i4⟩ := ih h1
    refine ⟨rfl, by simp [View.sizes], by simp [View.sizes], ?_⟩
    intro n hn
    simp only [View.sizes, List.mem_cons, List.not_mem_nil, or_false] at hn
    rw [List.getD_eq_getElem _ _ (by omega), List.getD_eq_getElem _ _ (by omega)] at hn
    rcases hn with rfl | rfl <;> exact i4 _ (List.getElem_mem _)
  | permuted p v ih =>
    obtain ⟨h1, h2, h3⟩ := h
    obtain ⟨i1, i2, i3, i4⟩ := ih h1
    refine ⟨rfl, by simp [View.sizes], by simp [View.sizes], ?_⟩
    intro n hn
    simp only [View.sizes, List.mem_map, List.mem_range] at hn
    obtain ⟨d, hd, rfl⟩ := hn
    have hp : p.getD d 0 < 3 := by
      have : ∀ p ∈ [[0,1,2],[1,0,2],[1,2,0],[2,1,0],[2,0,1],[0,2,1]], ∀ d < 3, p.getD d 0 < 3 := by decide
      exact this p h3 d hd
    rw [List.getD_eq_getElem _ _ (by omega)]
    exact i4 _ (List.getElem_mem _)
  | diag off v ih =>
    obtain ⟨h1, h2, h3, h4⟩ := h
    obtain ⟨i1, i2, i3, i4⟩ := ih h1
    refine ⟨rfl, by simp [View.sizes], by simp [View.sizes], ?_⟩
    intro n hn
    simp only [View.sizes, List.mem_singleton] at hn
    subst hn
    have : v.sizes.getD 0 0 < W₆₃ := by
      rw [List.getD_eq_getElem _ _ (by omega)]; exact i4 _ (List.getElem_mem _)
    unfold diagSize
    split <;> omega
  | component s c v ih =>
    obtain ⟨h1, h2, h3⟩ := h
    obtain ⟨i1, i2, i3, i4⟩ := ih h1
    exact ⟨by simpa [View.strides, View.sizes] using i1, i2, i3, i4⟩

theorem len1 {α : Type} {l : List α} (h : l.length = 1) : ∃ a, l = [a] := List.length_eq_one_iff.1 h
theorem len2 {α : Type} {l : List α} (h : l.length = 2) : ∃ a b, l = [a, b] := List.length_eq_two.1 h
theorem len3 {α : Type} {l : List α} (h : l.length = 3) : ∃ a b c, l = [a, b, c] := List.length_eq_three.1 h

theorem inr1 {i : List Nat} {a : Nat} (h : InRange i [a]) : ∃ x, i = [x] ∧ x < a := by
  match i, h with
  | [x], h => exact ⟨x, rfl, h.1⟩
theorem inr2 {i : List Nat} {a b : Nat} (h : InRange i [a, b]) : ∃ x y, i = [x, y] ∧ x < a ∧ y < b := by
  match i, h with
  | [x, y], h => exact ⟨x, y, rfl, h.1, h.2.1⟩
theorem inr3 {i : List Nat} {a b c : Nat} (h : InRange i [a, b, c]) : ∃ x y z, i = [x, y, z] ∧ x < a ∧ y < b ∧ z < c := by
  match i, h with
  | [x, y, z], h => exact ⟨x, y, z, rfl, h.1, h.2.1, h.2.2.1⟩

/-- addresses of a subset -/
theorem subset_dot : ∀ (ss : List Int) (ds : List Dom) (i : List Nat) (p : Int), ss.length = ds.length → InRange i (ds.map Dom.length) →
    (∀ d ∈ ds, Fits d) → p + View.dot ss (domainNth ds i) = View.addFirsts ss ds p + View.dot (List.zipWith (fun s (d : Dom) => s * d.stride) ss ds) i
  | [], [], [], _, _, _, _ => rfl
  | s :: ss, d :: ds, x :: i, p, hl, hi, hf => by
      simp only [List.map_cons] at hi
      have ih := subset_dot ss ds i (p + d.first * s) (by simpa using hl) hi.2 (fun e he => hf e (by simp [he]))
      have hn := nth_eq (hf d (by simp)) hi.1
      simp only [domainNth, View.dot, View.addFirsts, List.zipWith_cons_cons]
      rw [hn]
      simp only [elem]
      linear_combination ih
  | [], _ :: _, _, _, h, _, _ => by simp at h
  | _ :: _, [], _, _, h, _, _ => by simp at h
  | [], [], _ :: _, _, _, h, _ => h.elim
  | _ :: _, _ :: _, [], _, _, h, _ => h.elim

/-- all elements of a domain lie between its first and its last -/
theorem between {d : Dom} (hf : Fits d) {n i : Nat} (hi : i < d.length) (h1 : d.first < n) (h2 : d.last < n) : d.nth i < n := by
  have e := nth_eq hf hi
  have hl : (d.last : Int) = elem d (d.length - 1) := last_eq hf (by omega)
  simp only [elem] at e hl
  have h3 : (d.first : Int) < n := by omega
  have h4 : (d.first : Int) + d.stride * ((d.length - 1 : Nat) : Int) < n := by rw [Int.mul_comm] at hl; rw [Int.mul_comm]; omega
  by_cases hs : 0 ≤ d.stride
  · have : d.stride * (i : Int) ≤ d.stride * ((d.length - 1 : Nat) : Int) := Int.mul_le_mul_of_nonneg_left (by omega) hs
    rw [Int.mul_comm] at e; rw [Int.mul_comm] at this
    omega
  · have : d.stride * (i : Int) ≤ 0 := Int.mul_nonpos_of_nonpos_of_nonneg (by omega) (by omega)
    rw [Int.mul_comm] at e; rw [Int.mul_comm] at this
    omega

theorem subset_range : ∀ (ds : List Dom) (ns i : List Nat), InRange i (ds.map Dom.length) → (∀ d ∈ ds, Fits d) → (∀ n ∈ ns, n < W₆₃) →
    List.Forall₂ (fun (d : Dom) n => d.length = 0 ∨ (d.first < n ∧ d.last < n)) ds ns → InRange (domainNth ds i) ns
  | [], [], [], _, _, _, _ => trivial
  | d :: ds, n :: ns, x :: i, hi, hf, hn, h => by
      simp only [List.map_cons] at hi
      cases h with
      | cons h1 h2 =>
        refine ⟨?_, subset_range ds ns i hi.2 (fun e he => hf e (by simp [he])) (fun e he => hn e (by simp [he])) h2⟩
        rcases h1 with h0 | ⟨h1, h2⟩
        · have := hi.1; omega
        · exact between (hf d (by simp)) hi.1 h1 h2
  | [], _ :: _, _, _, _, _, h => by cases h
  | _ :: _, [], _, _, _, _, h => by cases h
  | [], [], _ :: _, h, _, _, _ => h.elim
  | _ :: _, _ :: _, [], h, _, _, _ => h.elim

theorem subset_inj : ∀ (ds : List Dom) (i j : List Nat), InRange i (ds.map Dom.length) → InRange j (ds.map Dom.length) → (∀ d ∈ ds, Fits d) →
    (∀ d ∈ ds, d.stride = 0 → d.length ≤ 1) → domainNth ds i = domainNth ds j → i = j
  | [], [], [], _, _, _, _, _ => rfl
  | d :: ds, x :: i, y :: j, hi, hj, hf, h0, he => by
      simp only [List.map_cons] at hi hj
      simp only [domainNth, List.cons.injEq] at he
      rw [subset_inj ds i j hi.2 hj.2 (fun e he => hf e (by simp [he])) (fun e he => h0 e (by simp [he])) he.2]
      have e1 := nth_eq (hf d (by simp)) hi.1
      have e2 := nth_eq (hf d (by simp)) hj.1
      rw [he.1] at e1
      have e3 := e1.symm.trans e2
      simp only [elem] at e3
      have hx := hi.1
      have hy := hj.1
      by_cases hs : d.stride = 0
      · have := h0 d (by simp) hs
        have : x = y := by omega
        rw [this]
      · have e4 : (x : Int) * d.stride = y * d.stride := by linarith
        have : (x : Int) = y := Int.eq_of_mul_eq_mul_right hs e4
        have : x = y := by omega
        rw [this]
  | [], _ :: _, _, h, _, _, _, _ => h.elim
  | _ :: _, [], _, h, _, _, _, _ => h.elim
  | [], [], _ :: _, _, h, _, _, _ => h.elim
  | _ :: _, _ :: _, [], _, h, _, _, _ => h.elim

/-- the block a view is made of (itself for a stored block) -/
def View.parent : View → View
  | .base e s p => .base e s p
  | .subset _ v | .sliced _ _ v | .sliced2 _ _ _ _ v | .transposed v | .permuted _ v | .diag _ v | .component _ _ v => v

theorem View.WF.parent {v : View} (h : v.WF) : v.parent.WF := by
  cases v <;> first | exact h | exact h.1

/-- in-range view indices reach in-range parent elements -/
theorem toParent_range {v : View} (h : v.WF) {i : List Nat} (hi : InRange i v.sizes) : InRange (v.toParent i) v.parent.sizes := by
  have hp := sizes_len h.parent
  cases v with
  | base => exact hi
  | subset dom v => exact subset_range dom _ i hi h.2.2.1 hp.2.2.2 h.2.2.2
  | sliced D k v =>
    obtain ⟨h1, h2, h3, h4⟩ := h
    simp only [View.parent] at hp ⊢
    have hc : v.sizes.length = 2 ∨ v.sizes.length = 3 := by omega
    rcases hc with hc | hc
    · obtain ⟨a, b, e⟩ := len2 hc
      have hD : D = 0 ∨ D = 1 := by omega
      simp only [View.sizes, e] at hi
      rw [e] at h4 ⊢
      rcases hD with rfl | rfl <;> obtain ⟨x, rfl, hx⟩ := inr1 (a := _) hi <;> simp_all [View.toParent, sliceDim]
    · obtain ⟨a, b, c, e⟩ := len3 hc
      have hD : D = 0 ∨ D = 1 ∨ D = 2 := by omega
      simp only [View.sizes, e] at hi
      rw [e] at h4 ⊢
      rcases hD with rfl | rfl | rfl <;> obtain ⟨x, y, rfl, hx, hy⟩ := inr2 (a := _) (b := _) hi <;>
        simp_all [View.toParent, sliceDim]
  | sliced2 D1 D2 k l v =>
    obtain ⟨h1, h2, h3, h4, h5, h6⟩ := h
    simp only [View.parent] at hp ⊢
    obtain ⟨a, b, c, e⟩ := len3 h2
    have hD : (D1 = 0 ∧ D2 = 1) ∨ (D1 = 0 ∧ D2 = 2) ∨ (D1 = 1 ∧ D2 = 2) := by omega
    simp only [View.sizes, e] at hi
    rw [e] at h5 h6 ⊢
    rcases hD with ⟨rfl, rfl⟩ | ⟨rfl, rfl⟩ | ⟨rfl, rfl⟩ <;> obtain ⟨x, rfl, hx⟩ := inr1 (a := _) hi <;>
      simp_all [View.toParent, sliceDim2]
  | transposed v =>
    obtain ⟨h1, h2⟩ := h
    simp only [View.parent] at hp ⊢
    obtain ⟨a, b, e⟩ := len2 h2
    simp only [View.sizes, e] at hi
    rw [e]
    obtain ⟨x, y, rfl, hx, hy⟩ := inr2 (a := _) (b := _) hi
    simp_all [View.toParent]
  | permuted p v =>
    obtain ⟨h1, h2, h3⟩ := h
    simp only [View.parent] at hp ⊢
    obtain ⟨a, b, c, e⟩ := len3 h2
    simp only [View.sizes, e] at hi
    rw [e]
    simp only [List.mem_cons, List.not_mem_nil, or_false] at h3
    rcases h3 with rfl | rfl | rfl | rfl | rfl | rfl <;> obtain ⟨x, y, z, rfl, hx, hy, hz⟩ := inr3 (a := _) (b := _) (c := _) hi <;>
      simp_all [View.toParent, List.idxOf, List.findIdx, List.findIdx.go, List.range, List.range.loop]
  | diag off v =>
    obtain ⟨h1, h2, h3, h4⟩ := h
    simp only [View.parent] at hp ⊢
    obtain ⟨a, b, e⟩ := len2 h2
    simp only [View.sizes, e] at hi
    rw [e] at h3 h4 hp ⊢
    obtain ⟨x, rfl, hx⟩ := inr1 (a := _) hi
    have ha := hp.2.2.2 a (by simp)
    have hb := hp.2.2.2 b (by simp)
    simp only [List.getD_cons_zero, List.getD_cons_succ] at h3 h4 hx
    unfold diagSize at hx
    simp only [View.toParent]
    by_cases ho : off ≥ 0
    · rw [if_pos ho] at hx ⊢
      have e1 : (toIdx ((b : Int) - off) : Int) = b - off := toIdx_of_fits (by omega) (by omega)
      have e2 : (toIdx ((x : Int) + off) : Int) = x + off := toIdx_of_fits (by omega) (by omega)
      simp only [List.getD_cons_zero]
      exact ⟨by omega, by omega, trivial⟩
    · rw [if_neg ho] at hx ⊢
      have e1 : (toIdx ((a : Int) + off) : Int) = a + off := toIdx_of_fits (by omega) (by omega)
      have e2 : (toIdx ((x : Int) - off) : Int) = x - off := toIdx_of_fits (by omega) (by omega)
      simp only [List.getD_cons_zero]
      exact ⟨by omega, by omega, trivial⟩
  | component s c v => exact hi

theorem dot_scale (k : Int) : ∀ (s : List Int) (i : List Nat), View.dot (s.map fun x => k * x) i = k * View.dot s i
  | [], _ => by simp [View.dot]
  | _ :: _, [] => by simp [View.dot]
  | a :: s, x :: i => by
      simp only [List.map_cons, View.dot, dot_scale k s i]
      ring

/-- the address of direct access is the address `get` and `put` use -/
theorem address {v : View} (h : v.WF) : ∀ {i : List Nat}, InRange i v.sizes → v.access i = (v.ptr.1, v.ptr.2 + View.dot v.strides i) := by
  induction v with
  | base => exact fun _ => rfl
  | subset dom v ih =>
    intro i hi
    have hr := toParent_range h hi
    have hl := sizes_len h.1
    show v.access (View.toParent (.subset dom v) i) = _
    rw [ih h.1 hr]
    exact Prod.ext rfl (subset_dot _ _ _ _ (hl.1.trans h.2.1.symm) hi h.2.2.1)
  | sliced D k v ih =>
    intro i hi
    have hr := toParent_range h hi
    have hl := sizes_len h.1
    show v.access (View.toParent (.sliced D k v) i) = _
    rw [ih h.1 hr]
    obtain ⟨h1, h2, h3, h4⟩ := h
    have hc : v.sizes.length = 2 ∨ v.sizes.length = 3 := by omega
    rcases hc with hc | hc
    · obtain ⟨a, b, e⟩ := len2 hc
      obtain ⟨s, t, e'⟩ := len2 (hl.1.trans hc)
      have hD : D = 0 ∨ D = 1 := by omega
      simp only [View.sizes, e] at hi
      rcases hD with rfl | rfl <;> obtain ⟨x, rfl, hx⟩ := inr1 (a := _) hi <;>
        simp [View.toParent, sliceDim, View.ptr, View.strides, e', View.dot] <;> ring
    · obtain ⟨a, b, c, e⟩ := len3 hc
      obtain ⟨s, t, u, e'⟩ := len3 (hl.1.trans hc)
      have hD : D = 0 ∨ D = 1 ∨ D = 2 := by omega
      simp only [View.sizes, e] at hi
      rcases hD with rfl | rfl | rfl <;> obtain ⟨x, y, rfl, hx, hy⟩ := inr2 (a := _) (b := _) hi <;>
        simp [View.toParent, sliceDim, View.ptr, View.strides, e', View.dot, List.range, List.range.loop] <;> ring
  | sliced2 D1 D2 k l v ih =>
    intro i hi
    have hr := toParent_range h hi
    have hl := sizes_len h.1
    show v.access (View.toParent (.sliced2 D1 D2 k l v) i) = _
    rw [ih h.1 hr]
    obtain ⟨h1, h2, h3, h4, h5, h6⟩ := h
    obtain ⟨a, b, c, e⟩ := len3 h2
    obtain ⟨s, t, u, e'⟩ := len3 (hl.1.trans h2)
    have hD : (D1 = 0 ∧ D2 = 1) ∨ (D1 = 0 ∧ D2 = 2) ∨ (D1 = 1 ∧ D2 = 2) := by omega
    simp only [View.sizes, e] at hi
    rcases hD with ⟨rfl, rfl⟩ | ⟨rfl, rfl⟩ | ⟨rfl, rfl⟩ <;> obtain ⟨x, rfl, hx⟩ := inr1 (a := _) hi <;>
      simp [View.toParent, sliceDim2, View.ptr, View.strides, e', View.dot] <;> ring
  | transposed v ih =>
    intro i hi
    have hr := toParent_range h hi
    have hl := sizes_len h.1
    show v.access (View.toParent (.transposed v) i) = _
    rw [ih h.1 hr]
    obtain ⟨a, b, e⟩ := len2 h.2
    obtain ⟨s, t, e'⟩ := len2 (hl.1.trans h.2)
    simp only [View.sizes, e] at hi
    obtain ⟨x, y, rfl, hx, hy⟩ := inr2 (a := _) (b := _) hi
    simp [View.toParent, View.ptr, View.strides, e', View.dot]; ring
  | permuted p v ih =>
    intro i hi
    have hr := toParent_range h hi
    have hl := sizes_len h.1
    show v.access (View.toParent (.permuted p v) i) = _
    rw [ih h.1 hr]
    obtain ⟨h1, h2, h3⟩ := h
    obtain ⟨a, b, c, e⟩ := len3 h2
    obtain ⟨s, t, u, e'⟩ := len3 (hl.1.trans h2)
    simp only [View.sizes, e] at hi
    simp only [List.mem_cons, List.not_mem_nil, or_false] at h3
    rcases h3 with rfl | rfl | rfl | rfl | rfl | rfl <;> obtain ⟨x, y, z, rfl, hx, hy, hz⟩ := inr3 (a := _) (b := _) (c := _) hi <;>
      simp [View.toParent, View.ptr, View.strides, e', View.dot, List.idxOf, List.findIdx, List.findIdx.go, List.range, List.range.loop] <;> ring
  | diag off v ih =>
    intro i hi
    have hr := toParent_range h hi
    have hl := sizes_len h.1
    show v.access (View.toParent (.diag off v) i) = _
    rw [ih h.1 hr]
    obtain ⟨h1, h2, h3, h4⟩ := h
    obtain ⟨a, b, e⟩ := len2 h2
    obtain ⟨s, t, e'⟩ := len2 (hl.1.trans h2)
    simp only [View.parent] at hr
    rw [e] at hr h3 h4
    rw [e] at hl
    simp only [View.sizes, e] at hi
    obtain ⟨x, rfl, hx⟩ := inr1 (a := _) hi
    have ha := hl.2.2.2 a (by simp)
    have hb := hl.2.2.2 b (by simp)
    simp only [List.getD_cons_zero, List.getD_cons_succ] at h3 h4 hx
    have hx' : x < a ∧ x < b := by
      unfold diagSize at hx; split at hx <;> omega
    by_cases ho : off ≥ 0
    · have e2 : (toIdx ((x : Int) + off) : Int) = x + off := toIdx_of_fits (by omega) (by omega)
      simp [View.toParent, View.ptr, View.strides, e', View.dot, if_pos ho, e2]; ring
    · have e2 : (toIdx ((x : Int) - off) : Int) = x - off := toIdx_of_fits (by omega) (by omega)
      simp [View.toParent, View.ptr, View.strides, e', View.dot, if_neg ho, e2]; ring
  | component s c v ih =>
    intro i hi
    have := ih h.1 hi
    simp only [View.access, this, View.ptr, View.strides]
    cases s
    · simp [dot_scale]; ring
    · simp

/-- no dimension of a subset repeats an element -/
def View.Distinct : View → Prop
  | .base ext str _ => ∀ i j, InRange i ext → InRange j ext → dot str i = dot str j → i = j
  | .subset dom v => v.Distinct ∧ ∀ d ∈ dom, d.stride = 0 → d.length ≤ 1
  | .sliced _ _ v | .sliced2 _ _ _ _ v | .transposed v | .permuted _ v | .diag _ v | .component _ _ v => v.Distinct

theorem toParent_inj {v : View} (h : v.WF) (hd : v.Distinct) {i j : List Nat} (hi : InRange i v.sizes) (hj : InRange j v.sizes)
    (he : v.toParent i = v.toParent j) : i = j := by
  have hp := sizes_len h.parent
  cases v with
  | base => exact he
  | subset dom v => exact subset_inj dom i j hi hj h.2.2.1 hd.2 he
  | sliced D k v =>
    obtain ⟨h1, h2, h3, h4⟩ := h
    simp only [View.parent] at hp
    have hc : v.sizes.length = 2 ∨ v.sizes.length = 3 := by omega
    rcases hc with hc | hc
    · obtain ⟨a, b, e⟩ := len2 hc
      have hD : D = 0 ∨ D = 1 := by omega
      simp only [View.sizes, e] at hi hj
      rcases hD with rfl | rfl <;> obtain ⟨x, rfl, hx⟩ := inr1 (a := _) hi <;> obtain ⟨x', rfl, hx'⟩ := inr1 (a := _) hj <;>
        simp_all [View.toParent]
    · obtain ⟨a, b, c, e⟩ := len3 hc
      have hD : D = 0 ∨ D = 1 ∨ D = 2 := by omega
      simp only [View.sizes, e] at hi hj
      rcases hD with rfl | rfl | rfl <;> obtain ⟨x, y, rfl, hx, hy⟩ := inr2 (a := _) (b := _) hi <;>
        obtain ⟨x', y', rfl, hx', hy'⟩ := inr2 (a := _) (b := _) hj <;> simp_all [View.toParent]
  | sliced2 D1 D2 k l v =>
    obtain ⟨h1, h2, h3, h4, h5, h6⟩ := h
    obtain ⟨a, b, c, e⟩ := len3 h2
    have hD : (D1 = 0 ∧ D2 = 1) ∨ (D1 = 0 ∧ D2 = 2) ∨ (D1 = 1 ∧ D2 = 2) := by omega
    simp only [View.sizes, e] at hi hj
    rcases hD with ⟨rfl, rfl⟩ | ⟨rfl, rfl⟩ | ⟨rfl, rfl⟩ <;> obtain ⟨x, rfl, hx⟩ := inr1 (a := _) hi <;>
      obtain ⟨x', rfl, hx'⟩ := inr1 (a := _) hj <;> simp_all [View.toParent]
  | transposed v =>
    obtain ⟨a, b, e⟩ := len2 h.2
    simp only [View.sizes, e] at hi hj
    obtain ⟨x, y, rfl, hx, hy⟩ := inr2 (a := _) (b := _) hi
    obtain ⟨x', y', rfl, hx', hy'⟩ := inr2 (a := _) (b := _) hj
    simp_all [View.toParent]
  | permuted p v =>
    obtain ⟨h1, h2, h3⟩ := h
    obtain ⟨a, b, c, e⟩ := len3 h2
    simp only [View.sizes, e] at hi hj
    simp only [List.mem_cons, List.not_mem_nil, or_false] at h3
    rcases h3 with rfl | rfl | rfl | rfl | rfl | rfl <;> obtain ⟨x, y, z, rfl, hx, hy, hz⟩ := inr3 (a := _) (b := _) (c := _) hi <;>
      obtain ⟨x', y', z', rfl, hx', hy', hz'⟩ := inr3 (a := _) (b := _) (c := _) hj <;>
      simp_all [View.toParent, List.idxOf, List.findIdx, List.findIdx.go, List.range, List.range.loop]
  | diag off v =>
    obtain ⟨h1, h2, h3, h4⟩ := h
    simp only [View.sizes] at hi hj
    obtain ⟨x, rfl, hx⟩ := inr1 (a := _) hi
    obtain ⟨x', rfl, hx'⟩ := inr1 (a := _) hj
    by_cases ho : off ≥ 0 <;> simp_all [View.toParent]
  | component s c v => exact he

/-- different indices access different addresses -/
theorem access_inj {v : View} (h : v.WF) (hd : v.Distinct) : ∀ {i j : List Nat}, InRange i v.sizes → InRange j v.sizes →
    v.access i = v.access j → i = j := by
  induction v with
  | base ext str p =>
    intro i j hi hj he
    simp only [View.access, Prod.mk.injEq, true_and] at he
    exact hd i j hi hj (by omega)
  | component s c v ih =>
    intro i j hi hj he
    refine ih h.1 hd hi hj ?_
    rw [address h.1 hi, address h.1 hj]
    have a1 := address h.1 hi
    have a2 := address h.1 hj
    simp only [View.access, a1, a2] at he
    cases s
    · simp only [Bool.false_eq_true, if_false, Prod.mk.injEq, true_and] at he
      have : v.ptr.2 + View.dot v.strides i = v.ptr.2 + View.dot v.strides j := by omega
      rw [this]
    · simp only [if_true, Prod.mk.injEq, true_and] at he
      rw [he]
  | subset dom v ih =>
    intro i j hi hj he
    exact toParent_inj h hd hi hj (ih h.1 hd.1 (toParent_range h hi) (toParent_range h hj) he)
  | sliced D k v ih =>
    intro i j hi hj he
    exact toParent_inj h hd hi hj (ih h.1 hd (toParent_range h hi) (toParent_range h hj) he)
  | sliced2 D1 D2 k l v ih =>
    intro i j hi hj he
    exact toParent_inj h hd hi hj (ih h.1 hd (toParent_range h hi) (toParent_range h hj) he)
  | transposed v ih =>
    intro i j hi hj he
    exact toParent_inj h hd hi hj (ih h.1 hd (toParent_range h hi) (toParent_range h hj) he)
  | permuted p v ih =>
    intro i j hi hj he
    exact toParent_inj h hd hi hj (ih h.1 hd (toParent_range h hi) (toParent_range h hj) he)
  | diag off v ih =>
    intro i j hi hj he
    exact toParent_inj h hd hi hj (ih h.1 hd (toParent_range h hi) (toParent_range h hj) he)

end Verif.Vw
