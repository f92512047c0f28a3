import Verif.Select.Model
import Verif.Signal.Lemmas
import Mathlib.Data.List.GetD
import Mathlib.Tactic.Ring
/-!
C44, C45, C46, C47.
-/
namespace Verif.Props
open Verif.Sig Verif.Sel

section
variable {ι T : Type}

/-! ### indexbool -/

/-- specification: after looking at the elements listed in `L`, the count is the number of true ones and the view starts with
them in order and is otherwise unchanged -/
def Indexed (p : ι → Bool) (orig : Vec ι) (L : List ι) (st : Nat × Vec ι) : Prop :=
  st.1 = L.countP p ∧ st.2.n = orig.n ∧
    ∀ k < orig.n, (∀ h : k < (L.filter p).length, st.2.f k = (L.filter p)[k]) ∧ ((L.filter p).length ≤ k → st.2.f k = orig.f k)

theorem indexStep_spec (p : ι → Bool) (orig : Vec ι) (L : List ι) (st : Nat × Vec ι) (x : ι) (h : Indexed p orig L st) :
    ∃ st', indexStep (p x) x st = some st' ∧ Indexed p orig (L ++ [x]) st' := by
  obtain ⟨h1, h2, h3⟩ := h
  rw [List.countP_eq_length_filter] at h1
  unfold indexStep
  by_cases hp : p x
  · have e : (L ++ [x]).filter p = L.filter p ++ [x] := by simp [hp]
    rw [if_pos hp]
    by_cases hlt : st.1 < st.2.n
    · rw [if_pos hlt]
      refine ⟨(st.1 + 1, ⟨st.2.n, fun k => if k = st.1 then x else st.2.f k⟩), ?_, ?_, h2, fun k hk => ?_⟩
      · simp [Vec.put, hlt]
      · simp [List.countP_eq_length_filter, e, h1]
      · simp only [e]
        obtain ⟨a, b⟩ := h3 k hk
        refine ⟨fun h => ?_, fun h => ?_⟩
        · by_cases hk' : k = st.1
          · subst hk'
            simp [h1]
          · simp only [if_neg hk']
            rw [List.length_append, List.length_singleton] at h
            rw [List.getElem_append_left (by omega)]
            exact a (by omega)
        · rw [List.length_append, List.length_singleton] at h
          simp only [if_neg (show ¬ k = st.1 by omega)]
          exact b (by omega)
    · rw [if_neg hlt]
      refine ⟨_, rfl, ?_, h2, fun k hk => ?_⟩
      · simp [List.countP_eq_length_filter, e, h1]
      · obtain ⟨a, b⟩ := h3 k hk
        simp only [e]
        refine ⟨fun h => ?_, fun h => ?_⟩
        · rw [List.getElem_append_left (by omega)]
          exact a (by omega)
        · exfalso
          rw [List.length_append, List.length_singleton] at h
          omega
  · have e : (L ++ [x]).filter p = L.filter p := by simp [hp]
    rw [if_neg hp]
    refine ⟨st, rfl, ?_, h2, ?_⟩
    · rw [List.countP_eq_length_filter, e, h1]
    · rw [e]; exact h3

/-- C44 for vectors: true positions in increasing order -/
theorem C44_vector (source : Vec Bool) (indices : Vec Nat) :
    ∃ st, indexbool1 source indices = some st ∧ Indexed source.f indices (List.range source.n) st := by
  obtain ⟨st, e, h⟩ := loop_inv (fun k st => Indexed source.f indices (List.range k) st) source.n (0, indices)
    (fun st i => do indexStep (← source.get i) i st) (by simp [Indexed]) (by
      intro k st hk h
      obtain ⟨st', e, h'⟩ := indexStep_spec source.f indices _ st k h
      refine ⟨st', by simp [Vec.get, hk, e], ?_⟩
      rw [List.range_succ]
      exact h')
  exact ⟨st, e, h⟩

/-- specification: the positions of a matrix, row by row -/
def positions (rows cols : Nat) : List (Nat × Nat) := (List.range rows).flatMap fun r => (List.range cols).map fun c => (r, c)

/-- C44 for matrices: true positions row by row -/
theorem C44_matrix (source : Mat Bool) (indices : Vec (Nat × Nat)) :
    ∃ st, indexbool2 source indices = some st ∧
      Indexed (fun i => source.f i.1 i.2) indices (positions source.rows source.cols) st := by
  obtain ⟨st, e, h⟩ := loop_inv
    (fun k st => Indexed (fun i => source.f i.1 i.2) indices (positions k source.cols) st) source.rows (0, indices)
    (fun st r => loop source.cols st fun st c => do indexStep (← source.get r c) (r, c) st) (by simp [Indexed, positions]) (by
      intro r st hr h
      obtain ⟨st', e, h'⟩ := loop_inv (fun k st => Indexed (fun i => source.f i.1 i.2) indices
          (positions r source.cols ++ (List.range k).map fun c => (r, c)) st) source.cols st
        (fun st c => do indexStep (← source.get r c) (r, c) st) (by simpa using h) (by
          intro c st hc h
          obtain ⟨st', e, h'⟩ := indexStep_spec (fun i => source.f i.1 i.2) indices _ st (r, c) h
          refine ⟨st', by simpa [Mat.get, hr, hc] using e, ?_⟩
          rw [List.range_succ, List.map_append, ← List.append_assoc]
          exact h')
      refine ⟨st', e, ?_⟩
      have : positions (r + 1) source.cols = positions r source.cols ++ (List.range source.cols).map fun c => (r, c) := by
        simp [positions, List.range_succ]
      rw [this]
      exact h')
  exact ⟨st, e, h⟩

example : ∃ st, indexbool2 ⟨2, 2, fun i j => i == 1 || j == 1⟩ ⟨2, fun _ => (9, 9)⟩ = some st ∧ st.1 = 3 ∧
    (List.range 2).map st.2.f = [(0, 1), (1, 0)] := ⟨_, rfl, by decide, by decide⟩

/-! ### first -/

theorem firstLoop_spec {T' : Type} (p : T → T' → Bool) (v : Vec T) (w : Vec T') (hw : v.n = w.n) (k i : Nat) (hi : i + k = v.n) :
    ∃ r, firstLoop p v w k i = some r ∧ r ≤ v.n ∧ i ≤ r ∧ (∀ j, i ≤ j → j < r → p (v.f j) (w.f j) = false) ∧
      (r < v.n → p (v.f r) (w.f r) = true) := by
  induction k generalizing i with
  | zero => exact ⟨v.n, rfl, Nat.le_refl _, by omega, fun j hj => by omega, fun h => by omega⟩
  | succ k ih =>
    unfold firstLoop
    have g1 : v.get i = some (v.f i) := by simp [Vec.get]; omega
    have g2 : w.get i = some (w.f i) := by simp [Vec.get]; omega
    rw [g1, g2]
    simp only [Option.bind_eq_bind, Option.bind_some]
    by_cases hp : p (v.f i) (w.f i)
    · rw [if_pos hp]
      exact ⟨i, rfl, by omega, Nat.le_refl _, fun j hj => by omega, fun _ => hp⟩
    · rw [if_neg hp]
      obtain ⟨r, e, a, b, c, d⟩ := ih (i + 1) (by omega)
      refine ⟨r, e, a, by omega, fun j hj hr => ?_, d⟩
      by_cases hji : j = i
      · rw [hji]; simpa using hp
      · exact c j (by omega) hr

/-- C45 -/
theorem C45_first {T' : Type} (begin_ : Nat) (p : T → T' → Bool) (v : Vec T) (w : Vec T') (hw : v.n = w.n) :
    ∃ r, first begin_ p v w = some r ∧
      (v.n < begin_ → r = begin_) ∧
      (begin_ ≤ v.n → begin_ ≤ r ∧ r ≤ v.n ∧ (∀ j, begin_ ≤ j → j < r → p (v.f j) (w.f j) = false) ∧
        (r < v.n → p (v.f r) (w.f r) = true)) := by
  unfold first
  rw [if_pos hw]
  by_cases h : begin_ > v.n
  · rw [if_pos h]
    exact ⟨begin_, rfl, fun _ => rfl, fun h' => by omega⟩
  · rw [if_neg h]
    obtain ⟨r, e, a, b, c, d⟩ := firstLoop_spec p v w hw (v.n - begin_) begin_ (by omega)
    exact ⟨r, e, fun h' => by omega, fun _ => ⟨b, a, c, d⟩⟩

example : first 1 (fun a b : Nat => a == b) ⟨4, fun i => i⟩ ⟨4, fun i => 3 * i - 4⟩ = some 2 := by decide

/-! ### gather and scatter -/

/-- C46: gather returns the selected values in order -/
theorem C46_gather (fresh : Nat → T) (source : View ι T) (indices : Vec ι) (h : ∀ i < indices.n, source.ok (indices.f i)) :
    ∃ r, gather fresh source indices = some r ∧ r.n = indices.n ∧ ∀ i < indices.n, r.f i = source.f (indices.f i) := by
  obtain ⟨r, e, h1, h2⟩ := loop_inv (σ := Vec T) (fun k r => r.n = indices.n ∧ ∀ i < k, r.f i = source.f (indices.f i)) indices.n
    ⟨indices.n, fresh⟩ (fun r i => do r.put i (← source.get (← indices.get i))) ⟨rfl, fun i hi => by omega⟩ (by
      intro k r hk ⟨hn, hf⟩
      refine ⟨⟨r.n, fun j => if j = k then source.f (indices.f k) else r.f j⟩, ?_, hn, fun i hi => ?_⟩
      · simp [Vec.get, View.get, Vec.put, hk, h k hk, hn]
      · by_cases hik : i = k
        · simp [hik]
        · simp only [if_neg hik]
          exact hf i (by omega))
  exact ⟨r, e, h1, h2⟩

/-- C46: scatter writes the values of the source, the last one for an index given repeatedly, and nothing else -/
theorem C46_scatter [DecidableEq ι] (source : Vec T) (indices : Vec ι) (dest : View ι T) (hs : indices.n ≤ source.n)
    (h : ∀ i < indices.n, dest.ok (indices.f i)) :
    ∃ d, scatter source indices dest = some d ∧ d.ok = dest.ok ∧
      (∀ q, (∀ i < indices.n, indices.f i ≠ q) → d.f q = dest.f q) ∧
      (∀ i < indices.n, (∀ j, i < j → j < indices.n → indices.f j ≠ indices.f i) → d.f (indices.f i) = source.f i) := by
  obtain ⟨d, e, h1, h2, h3⟩ := loop_inv (σ := View ι T) (fun k d => d.ok = dest.ok ∧
      (∀ q, (∀ i < k, indices.f i ≠ q) → d.f q = dest.f q) ∧
      (∀ i < k, (∀ j, i < j → j < k → indices.f j ≠ indices.f i) → d.f (indices.f i) = source.f i)) indices.n
    dest (fun d i => do d.put (← indices.get i) (← source.get i)) ⟨rfl, fun _ _ => rfl, fun i hi => by omega⟩ (by
      intro k d hk ⟨hok, hq, hi⟩
      refine ⟨⟨d.ok, fun q => if q = indices.f k then source.f k else d.f q⟩, ?_, hok, fun q hn => ?_, fun i hik hlast => ?_⟩
      · have hok' : d.ok (indices.f k) = true := by rw [hok]; exact h k hk
        simp [Vec.get, View.put, hk, hok', show k < source.n by omega]
      · simp only [if_neg (show ¬ q = indices.f k from fun e => hn k (by omega) e.symm)]
        exact hq q (fun i h => hn i (by omega))
      · by_cases e : i = k
        · simp [e]
        · simp only [if_neg (show ¬ indices.f i = indices.f k from fun e' => hlast k (by omega) (by omega) e'.symm)]
          exact hi i (by omega) (fun j h1 h2 => hlast j h1 (by omega)))
  exact ⟨d, e, h1, h2, h3⟩

/-- C46: gathering what was scattered with distinct indices returns the source -/
theorem C46_inverse [DecidableEq ι] (fresh : Nat → T) (source : Vec T) (indices : Vec ι) (dest : View ι T) (hs : indices.n = source.n)
    (h : ∀ i < indices.n, dest.ok (indices.f i)) (hd : ∀ i j, i < indices.n → j < indices.n → indices.f i = indices.f j → i = j) :
    ∃ d r, scatter source indices dest = some d ∧ gather fresh d indices = some r ∧ r.n = source.n ∧
      ∀ i < source.n, r.f i = source.f i := by
  obtain ⟨d, e, ok, _, hi⟩ := C46_scatter source indices dest (by omega) h
  obtain ⟨r, e', n', f'⟩ := C46_gather fresh d indices (by intro i hi; rw [ok]; exact h i hi)
  refine ⟨d, r, e, e', by omega, fun i hin => ?_⟩
  rw [f' i (by omega)]
  exact hi i (by omega) (fun j h1 h2 e => by have := hd j i h2 (by omega) e; omega)

example : ∃ d, scatter (⟨2, fun i => i + 7⟩ : Vec Nat) ⟨2, fun i => 2 * i⟩ ⟨fun i => decide (i < 3), fun _ => 0⟩ = some d ∧
    (List.range 3).map d.f = [7, 0, 8] := ⟨_, rfl, by decide⟩

/-! ### clip, invclip, swap -/

/-- C47: clip -/
theorem C47_clip [LinearOrder T] (lower upper lowerClip upperClip t : T) (h : lower < upper) :
    (t ≤ lower → clip lower upper lowerClip upperClip t = lowerClip) ∧
    (upper ≤ t → clip lower upper lowerClip upperClip t = upperClip) ∧
    (lower < t → t < upper → clip lower upper lowerClip upperClip t = t) := by
  unfold clip
  refine ⟨fun h1 => if_pos h1, fun h1 => ?_, fun h1 h2 => ?_⟩
  · rw [if_neg (not_le.mpr (lt_of_lt_of_le h h1)), if_neg (not_lt.mpr h1)]
  · rw [if_neg (not_le.mpr h1), if_pos h2]

/-- C47: invclip -/
theorem C47_invclip [LinearOrder T] (lower middle upper lowerClip upperClip t : T) (h1 : lower ≤ middle) (h2 : middle ≤ upper) :
    (t < lower ∨ upper < t → invclip lower middle upper lowerClip upperClip t = t) ∧
    (lower ≤ t → t < middle → invclip lower middle upper lowerClip upperClip t = lowerClip) ∧
    (middle ≤ t → t ≤ upper → invclip lower middle upper lowerClip upperClip t = upperClip) := by
  unfold invclip
  refine ⟨?_, fun a b => ?_, fun a b => ?_⟩
  · rintro (a | a)
    · rw [if_pos a]
    · rw [if_neg (not_lt.mpr (le_of_lt (lt_of_le_of_lt (le_trans h1 h2) a))), if_neg (not_lt.mpr (le_of_lt (lt_of_le_of_lt h2 a))),
        if_neg (not_le.mpr a)]
  · rw [if_neg (not_lt.mpr a), if_pos b]
  · rw [if_neg (not_lt.mpr (le_trans h1 a)), if_neg (not_lt.mpr a), if_pos b]

example : clip (1 : Nat) 5 10 50 1 = 10 ∧ clip (1 : Nat) 5 10 50 5 = 50 ∧ invclip (1 : Nat) 3 5 10 50 3 = 50 := by decide

theorem swap_spec (b1 b2 : Vec T) (h : b1.n = b2.n) : ∃ x y, swap b1 b2 = some (x, y) ∧ x.n = b1.n ∧ y.n = b2.n ∧
    ∀ i < b1.n, x.f i = b2.f i ∧ y.f i = b1.f i := by
  unfold swap
  rw [if_pos h]
  obtain ⟨⟨x, y⟩, e, h1, h2, h3, _⟩ := loop_inv (σ := Vec T × Vec T) (fun k b => b.1.n = b1.n ∧ b.2.n = b2.n ∧
      (∀ i < k, b.1.f i = b2.f i ∧ b.2.f i = b1.f i) ∧ ∀ i, k ≤ i → b.1.f i = b1.f i ∧ b.2.f i = b2.f i) b1.n (b1, b2)
    (fun b i => do
      let tmp ← b.1.get i
      let x ← b.1.put i (← b.2.get i)
      let y ← b.2.put i tmp
      some (x, y)) ⟨rfl, rfl, fun i hi => by omega, fun i _ => ⟨rfl, rfl⟩⟩ (by
      rintro k ⟨x, y⟩ hk ⟨hx, hy, hd, hu⟩
      simp only at hx hy hd hu
      refine ⟨(⟨x.n, fun j => if j = k then y.f k else x.f j⟩, ⟨y.n, fun j => if j = k then x.f k else y.f j⟩), ?_, hx, hy, ?_, ?_⟩
      · simp [Vec.get, Vec.put, hx, hy, hk, show k < b2.n by omega]
      · intro i hi
        by_cases e : i = k
        · subst e; simpa using ⟨(hu i (Nat.le_refl _)).2, (hu i (Nat.le_refl _)).1⟩
        · simp only [if_neg e]
          exact hd i (by omega)
      · intro i hi
        simp only [if_neg (show ¬ i = k by omega)]
        exact hu i (by omega))
  exact ⟨x, y, e, h1, h2, h3⟩

/-- C47: swap exchanges the contents of two vectors -/
theorem C47_swap (b1 b2 : Vec T) (h : b1.n = b2.n) : ∃ x y, swap b1 b2 = some (x, y) ∧ x.n = b1.n ∧ y.n = b2.n ∧
    ∀ i < b1.n, x.f i = b2.f i ∧ y.f i = b1.f i := swap_spec b1 b2 h

/-- C47 for dense matrices: swap exchanges the contents when both have the same dimension order (missing: different orders,
see `C47_swap_order_false`) -/
theorem C47_swap_matrix_partial (colMajor : Bool) (rows cols : Nat) (b1 b2 : Vec T) (h1 : b1.n = rows * cols) (h2 : b2.n = rows * cols) :
    ∃ x y, swap b1 b2 = some (x, y) ∧ ∀ r < rows, ∀ c < cols,
      x.f (denseOffset colMajor rows cols r c) = b2.f (denseOffset colMajor rows cols r c) ∧
      y.f (denseOffset colMajor rows cols r c) = b1.f (denseOffset colMajor rows cols r c) := by
  obtain ⟨x, y, e, _, _, hs⟩ := swap_spec b1 b2 (by omega)
  refine ⟨x, y, e, fun r hr c hc => hs _ ?_⟩
  rw [h1]
  unfold denseOffset
  split
  · calc c * rows + r < c * rows + rows := by omega
      _ = (c + 1) * rows := by ring
      _ ≤ cols * rows := Nat.mul_le_mul_right _ hc
      _ = rows * cols := Nat.mul_comm _ _
  · calc r * cols + c < r * cols + cols := by omega
      _ = (r + 1) * cols := by ring
      _ ≤ rows * cols := Nat.mul_le_mul_right _ hr

/-- C47 is false of a row-major and a column-major matrix: element (0,1) of the first does not receive element (0,1) of the second -/
theorem C47_swap_order_false : ∃ x y, swap (⟨4, fun i => i⟩ : Vec Nat) ⟨4, fun i => 10 + i⟩ = some (x, y) ∧
    x.f (denseOffset false 2 2 0 1) ≠ (fun i => 10 + i : Nat → Nat) (denseOffset true 2 2 0 1) := ⟨_, _, rfl, by decide⟩

example : ∃ x y, swap (⟨2, fun i => i⟩ : Vec Nat) ⟨2, fun i => 10 + i⟩ = some (x, y) ∧ (List.range 2).map x.f = [10, 11] :=
  ⟨_, _, rfl, by decide⟩
end

/-- **C47 (ramps).** A ramp starts with its first value, and each element is the one before plus the increment. -/
theorem C47_ramp {R : Type} [CommRing R] (a b : R) (i : Nat) :
    rampAt (fun (n : Nat) => (n : R)) a b 0 = a ∧ rampAt (fun (n : Nat) => (n : R)) a b (i + 1) = rampAt (fun (n : Nat) => (n : R)) a b i + b := by
  unfold rampAt
  constructor
  · simp
  · push_cast
    ring

example : rampAt (fun (n : Nat) => (n : Int)) 5 (-2) 4 = -3 := by decide

end Verif.Props
