import Verif.Access.Model
import Verif.Views.Lemmas
/-! Lemmas about the choice of access. -/
namespace Verif.Acc
open Verif Spec Lay Vw

/-- the dimension orders of blocks -/
def orders : Nat → List (List Nat)
  | 1 => [[0, 1, 2]]
  | 2 => [[0, 1, 2], [1, 0, 2]]
  | 3 => [[0, 1, 2], [0, 2, 1], [1, 0, 2], [1, 2, 0], [2, 0, 1], [2, 1, 0]]
  | _ => []

/-- the view is made from a stored block with layout `c.ly`, and its parts are taken of complex data in the format the block declares -/
def Typed (c : Ctx) : View → Prop
  | .base ext _ _ => ext.length = c.ly.dim ∧ c.ly.order ∈ orders c.ly.dim ∧ c.ly.fmt ≠ .any ∧ (c.cx = false → c.ly.fmt = .array)
  | .subset _ v | .sliced _ _ v | .sliced2 _ _ _ _ v | .transposed v | .permuted _ v | .diag _ v => Typed c v
  | .component s _ v => Typed c v ∧ isCx c v = true ∧ s = decide ((declared c.ly v).fmt = .split)

/-- the stored block keeps the promise of its own packing -/
def Honest (c : Ctx) : View → Prop
  | .base ext st p => Seen.Meets c.ly.packing (seenDirect c (.base ext st p))
  | .subset _ v | .sliced _ _ v | .sliced2 _ _ _ _ v | .transposed v | .permuted _ v | .diag _ v | .component _ _ v => Honest c v

theorem off_eq_dot (st : List Int) (i : List Nat) : View.dot st i = Seen.off st i := by
  induction st generalizing i with
  | nil => cases i <;> rfl
  | cons s ss ih =>
    cases i with
    | nil => rfl
    | cons k ks =>
      show (k : Int) * s + View.dot ss ks = _
      rw [ih ks]
      simp [Seen.off]

theorem off1 (s : Int) (x : Nat) : Seen.off [s] [x] = x * s := by simp [Seen.off]
theorem off2 (s t : Int) (x y : Nat) : Seen.off [s, t] [x, y] = x * s + y * t := by simp [Seen.off]
theorem off3 (s t u : Int) (x y z : Nat) : Seen.off [s, t, u] [x, y, z] = x * s + (y * t + z * u) := by simp [Seen.off]

theorem orders_dim {n : Nat} {o : List Nat} (h : o ∈ orders n) : n = 1 ∨ n = 2 ∨ n = 3 := by
  match n, h with
  | 1, _ => simp
  | 2, _ => simp
  | 3, _ => simp

theorem fmt_of_part (c : Ctx) (v : View) (h : Typed c v) : (isCx c v = false → (declared c.ly v).fmt = .array) ∧ (declared c.ly v).fmt ≠ .any := by
  induction v with
  | base ext st p => exact ⟨h.2.2.2, h.2.2.1⟩
  | subset d v ih => exact ih h
  | sliced D k v ih => exact ih h
  | sliced2 a b k l v ih => exact ih h
  | transposed v ih => exact ih h
  | permuted p v ih => exact ih h
  | diag o v ih => exact ih h
  | component s k v ih => exact ⟨fun _ => rfl, by simp [declared]⟩

/-- the declared number of dimensions and order are those of the view -/
theorem declared_shape (c : Ctx) (v : View) (h : v.WF) (ht : Typed c v) :
    (declared c.ly v).dim = v.sizes.length ∧ (declared c.ly v).order ∈ orders v.sizes.length := by
  induction v with
  | base ext st p => exact ⟨ht.1.symm, by have := ht.2.1; rw [← ht.1] at this; exact this⟩
  | subset d v ih =>
    obtain ⟨i1, i2⟩ := ih h.1 ht
    have e : (View.subset d v).sizes.length = v.sizes.length := by simpa [View.sizes] using h.2.1
    exact ⟨by rw [e]; exact i1, by rw [e]; exact i2⟩
  | sliced D k v ih =>
    obtain ⟨i1, i2⟩ := ih h.1 ht
    have hl := (sizes_len h.1).2.2.1
    have h2 := h.2.1
    have e : (View.sliced D k v).sizes.length = v.sizes.length - 1 := by simp [View.sizes]
    refine ⟨by rw [e]; simp only [declared, i1], ?_⟩
    rw [e]
    show sliceOrder _ _ D ∈ _
    rw [i1]
    rcases (by omega : v.sizes.length = 2 ∨ v.sizes.length = 3) with q | q
    · rw [q]; simp [sliceOrder, orders]
    · rw [q]
      simp only [sliceOrder]
      (repeat' split) <;> simp_all [orders]
  | sliced2 a b k l v ih =>
    obtain ⟨i1, i2⟩ := ih h.1 ht
    have e : (View.sliced2 a b k l v).sizes.length = 1 := by simp [View.sizes, h.2.1]
    refine ⟨by rw [e]; simp only [declared, i1, h.2.1], by rw [e]; simp [declared, orders]⟩
  | transposed v ih =>
    obtain ⟨i1, i2⟩ := ih h.1 ht
    have e : (View.transposed v).sizes.length = 2 := by simp [View.sizes]
    rw [h.2] at i1 i2
    refine ⟨by rw [e]; exact i1, ?_⟩
    rw [e]
    simp only [declared]
    revert i2
    generalize (declared c.ly v).order = o
    revert o
    decide
  | permuted p v ih =>
    obtain ⟨i1, i2⟩ := ih h.1 ht
    have e : (View.permuted p v).sizes.length = 3 := by simp [View.sizes]
    rw [h.2.1] at i1 i2
    refine ⟨by rw [e]; exact i1, ?_⟩
    rw [e]
    have hp := h.2.2
    have q : ∀ o ∈ orders 3, ∀ p ∈ [[0,1,2],[1,0,2],[1,2,0],[2,1,0],[2,0,1],[0,2,1]], permuteOrder p o ∈ orders 3 := by decide
    exact q _ i2 p hp
  | diag o v ih =>
    have e : (View.diag o v).sizes.length = 1 := by simp [View.sizes]
    exact ⟨by rw [e]; rfl, by rw [e]; simp [declared, orders]⟩
  | component s k v ih =>
    obtain ⟨i1, i2⟩ := ih h.1 ht.1
    exact ⟨i1, i2⟩

/-- every packing but `any` promises adjacent lines -/
theorem adjacent_of_meets {p : Packing} {s : Seen} (h : s.Meets p) (hu : unitStride p = true) : s.Adjacent := by
  cases p with
  | any => simp [unitStride] at hu
  | dense => exact h.1
  | unitStride => exact h
  | aligned => exact h
  | alignedTo A => exact h.1

/-- the promise of a compatible packing -/
theorem meets_of_ok {r p : Packing} {s : Seen} (h : s.Meets p) (hok : packingOk r p = true) : s.Meets r := by
  simp only [packingOk, Bool.or_eq_true, beq_iff_eq, Bool.and_eq_true] at hok
  rcases hok with (rfl | rfl) | ⟨rfl, h2⟩
  · exact h
  · trivial
  · exact adjacent_of_meets h h2

/-- a slice keeps unit stride as `unit_stride_preserved` says -/
theorem slice_adjacent (c : Ctx) (v : View) (D k : Nat) (h : (View.sliced D k v).WF) (ht : Typed c v)
    (hu : unitStridePreserved (declared c.ly v).order (declared c.ly v).dim D = true) (ha : (seenDirect c v).Adjacent) :
    (seenDirect c (.sliced D k v)).Adjacent := by
  obtain ⟨i1, i2⟩ := declared_shape c v h.1 ht
  obtain ⟨hw, h2, hD, -⟩ := h
  have hl := sizes_len hw
  simp only [Seen.Adjacent, Seen.minor, seenDirect, declared, View.strides] at ha ⊢
  rw [i1] at ha hu ⊢
  rcases (by omega : v.sizes.length = 2 ∨ v.sizes.length = 3) with q | q
  · obtain ⟨s, t, e⟩ := len2 (hl.1.trans q)
    rw [q] at ha hu i2 hD ⊢
    rw [e] at ha ⊢
    generalize (declared c.ly v).order = o at *
    simp only [orders, List.mem_cons, List.not_mem_nil, or_false] at i2
    rcases i2 with rfl | rfl <;> (rcases (by omega : D = 0 ∨ D = 1) with rfl | rfl) <;>
      simp [unitStridePreserved, sliceOrder, sliceDim, List.range, List.range.loop] at ha hu ⊢ <;> assumption
  · obtain ⟨s, t, u, e⟩ := len3 (hl.1.trans q)
    rw [q] at ha hu i2 hD ⊢
    rw [e] at ha ⊢
    generalize (declared c.ly v).order = o at *
    simp only [orders, List.mem_cons, List.not_mem_nil, or_false] at i2
    rcases i2 with rfl | rfl | rfl | rfl | rfl | rfl <;> (rcases (by omega : D = 0 ∨ D = 1 ∨ D = 2) with rfl | rfl | rfl) <;>
      simp [unitStridePreserved, sliceOrder, sliceDim, List.range, List.range.loop] at ha hu ⊢ <;> assumption

theorem slice2_adjacent (c : Ctx) (v : View) (a b k l : Nat) (h : (View.sliced2 a b k l v).WF) (ht : Typed c v)
    (h1 : a ≠ (declared c.ly v).order.getD 2 0) (h2 : b ≠ (declared c.ly v).order.getD 2 0) (ha : (seenDirect c v).Adjacent) :
    (seenDirect c (.sliced2 a b k l v)).Adjacent := by
  obtain ⟨i1, i2⟩ := declared_shape c v h.1 ht
  obtain ⟨hw, q, hab, hb, -⟩ := h
  have hl := sizes_len hw
  simp only [Seen.Adjacent, Seen.minor, seenDirect, declared, View.strides] at ha ⊢
  obtain ⟨s, t, u, e⟩ := len3 (hl.1.trans q)
  rw [i1, q] at ha
  rw [q] at i2
  rw [i1, q]
  rw [e] at ha ⊢
  generalize (declared c.ly v).order = o at *
  simp only [orders, List.mem_cons, List.not_mem_nil, or_false] at i2
  rcases i2 with rfl | rfl | rfl | rfl | rfl | rfl <;>
    (rcases (by omega : (a = 0 ∧ b = 1) ∨ (a = 0 ∧ b = 2) ∨ (a = 1 ∧ b = 2)) with ⟨rfl, rfl⟩ | ⟨rfl, rfl⟩ | ⟨rfl, rfl⟩) <;>
    simp [sliceDim2, List.range, List.range.loop] at ha h1 h2 ⊢ <;> assumption

/-- what a part of split data shows of the promise of the whole -/
theorem part_meets (c : Ctx) (v : View) (s : Bool) (k : Nat) (hw : (View.component s k v).WF) (ht : Typed c (.component s k v))
    (hs : (declared c.ly v).fmt = .split) (p : Packing) (h : (seenDirect c v).Meets p) : (seenDirect c (.component s k v)).Meets p := by
  obtain ⟨ht1, hcx, hsp⟩ := ht
  have hs1 : s = true := by rw [hsp]; simp [hs]
  subst hs1
  have hst : (View.component true k v).strides = v.strides := by simp [View.strides]
  have hu : (seenDirect c (.component true k v)).unit = (seenDirect c v).unit := by
    simp [seenDirect, unitOf, isCx, hcx, hs]
  have hadj : (seenDirect c v).Adjacent → (seenDirect c (.component true k v)).Adjacent := by
    intro ha
    simp only [Seen.Adjacent, Seen.minor, seenDirect, declared, hst] at ha ⊢
    exact ha
  have hcont : (seenDirect c v).Contiguous → (seenDirect c (.component true k v)).Contiguous := by
    intro hc i hi
    have := hc i hi
    simp only [Seen.number, seenDirect, declared, hst] at this ⊢
    exact this
  have hlines : ∀ A, (seenDirect c v).Lines A → (seenDirect c (.component true k v)).Lines A := by
    intro A hl a ha i hi h0
    have hk : k ≤ 1 := hw.2.1
    have hin : a ∈ (seenDirect c v).starts := by
      simp only [seenDirect, startsOf, isCx, declared, hcx, hs, unitOf, View.ptr] at ha ⊢
      simp at ha ⊢
      rcases (by omega : k = 0 ∨ k = 1) with rfl | rfl
      · left; exact ha
      · right; exact ha
    have := hl a hin i hi h0
    rw [hu]
    simp only [seenDirect, hst] at this ⊢
    exact this
  cases p with
  | any => trivial
  | dense => exact ⟨hadj h.1, hcont h.2⟩
  | unitStride => exact hadj h
  | aligned => exact hadj h
  | alignedTo A => exact ⟨hadj h.1, hlines A h.2⟩

/-- a view keeps the promise of the packing it declares -/
theorem declared_meets (c : Ctx) (v : View) (h : v.WF) (ht : Typed c v) (hb : Honest c v) : (seenDirect c v).Meets (declared c.ly v).packing := by
  induction v with
  | base ext st p => exact hb
  | subset d v ih => trivial
  | sliced D k v ih =>
    show Seen.Meets (if _ then _ else _) _
    split
    · rename_i hc
      exact slice_adjacent c v D k h ht hc.2 (adjacent_of_meets (ih h.1 ht hb) hc.1)
    · trivial
  | sliced2 a b k l v ih =>
    show Seen.Meets (if _ then _ else _) _
    split
    · rename_i hc
      exact slice2_adjacent c v a b k l h ht hc.2.1 hc.2.2 (adjacent_of_meets (ih h.1 ht hb) hc.1)
    · trivial
  | transposed v ih => trivial
  | permuted p v ih => trivial
  | diag o v ih => trivial
  | component s k v ih =>
    show Seen.Meets (if _ then _ else _) _
    split
    · rename_i hs
      exact part_meets c v s k h ht hs _ (ih h.1 ht.1 hb)
    · trivial

end Verif.Acc
