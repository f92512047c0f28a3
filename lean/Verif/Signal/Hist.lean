import Verif.Signal.Lemmas
import Mathlib.Algebra.Order.Field.Basic
import Mathlib.Algebra.Order.Floor.Semiring
import Mathlib.Data.Rat.Floor
import Mathlib.Tactic.Linarith
import Mathlib.Tactic.Ring
import Mathlib.Tactic.FieldSimp
import Mathlib.Tactic.NormNum
import Mathlib.Tactic.Positivity
/-!
C39: the histogram.
-/
namespace Verif.Props
open Verif.Sig Finset

/-- specification: bin `b` of `num` bins collects `v`.  Bin 0 is below `min`, the last bin is at or above `max`, and bin `b` in between is
the `b`-th of the `num - 2` equal intervals dividing `[min, max)`. -/
def InBin {T : Type} [Field T] [LinearOrder T] (min max : T) (num b : Nat) (v : T) : Prop :=
  if b = 0 then v < min
  else if b = num - 1 then max ≤ v
  else b < num ∧ min + ((b - 1 : Nat) : T) * ((max - min) / ((num - 2 : Nat) : T)) ≤ v ∧
    v < min + (b : T) * ((max - min) / ((num - 2 : Nat) : T))

/-- specification: number of values satisfying `p` among the elements of a vector, of a matrix -/
noncomputable def countV {T : Type} (p : T → Prop) (x : Vec T) : Nat := by
  classical exact ∑ i ∈ range x.n, if p (x.f i) then 1 else 0
noncomputable def countM {T : Type} (p : T → Prop) (x : Mat T) : Nat := by
  classical exact ∑ i ∈ range x.rows, ∑ j ∈ range x.cols, if p (x.f i j) then 1 else 0

section
variable {T : Type} [Field T] [LinearOrder T] [IsStrictOrderedRing T] [FloorSemiring T]

theorem histBin_spec {min max : T} (hm : min < max) {num : Nat} (hn : 3 ≤ num) (v : T) (b : Nat) (hb : b < num) :
    histBin Nat.floor min max ((max - min) / ((num - 2 : Nat) : T)) num v = b ↔ InBin min max num b v := by
  have hk : (0 : T) < ((num - 2 : Nat) : T) := by
    have : 0 < num - 2 := by omega
    exact_mod_cast this
  set d := (max - min) / ((num - 2 : Nat) : T) with hd
  have hdp : 0 < d := div_pos (by linarith) hk
  have htop : min + ((num - 2 : Nat) : T) * d = max := by
    rw [hd, mul_div_cancel₀ _ (ne_of_gt hk)]; ring
  unfold histBin InBin
  rw [← hd]
  by_cases h1 : v < min
  · rw [if_pos h1]
    by_cases h0 : b = 0
    · simp [h0, h1]
    · rw [if_neg h0]
      refine ⟨fun h => absurd h.symm h0, fun h => ?_⟩
      exfalso
      split at h
      · linarith
      · have : (0 : T) ≤ ((b - 1 : Nat) : T) * d := by positivity
        linarith [h.2.1]
  · rw [if_neg h1]
    have h1' : min ≤ v := not_lt.mp h1
    by_cases h2 : max ≤ v
    · rw [if_pos h2]
      by_cases h0 : b = 0
      · rw [if_pos h0]
        exact ⟨fun h => by omega, fun h => absurd h h1⟩
      · rw [if_neg h0]
        by_cases h3 : b = num - 1
        · simp [h3, h2]
        · rw [if_neg h3]
          refine ⟨fun h => absurd h.symm h3, fun h => ?_⟩
          exfalso
          have : (b : T) ≤ ((num - 2 : Nat) : T) := by
            have : b ≤ num - 2 := by omega
            exact_mod_cast this
          have := mul_le_mul_of_nonneg_right this hdp.le
          linarith [h.2.2]
    · rw [if_neg h2]
      have h2' : v < max := not_le.mp h2
      have hq : (0 : T) ≤ (v - min) / d := div_nonneg (by linarith) hdp.le
      have e1 : Nat.floor ((v - min) / d + 1) = Nat.floor ((v - min) / d) + 1 := Nat.floor_add_one hq
      rw [e1]
      have hlt : Nat.floor ((v - min) / d) < num - 2 := by
        rw [Nat.floor_lt hq, div_lt_iff₀ hdp]
        linarith
      by_cases h0 : b = 0
      · rw [if_pos h0]
        exact ⟨fun h => by omega, fun h => absurd h h1⟩
      · rw [if_neg h0]
        by_cases h3 : b = num - 1
        · rw [if_pos h3]
          exact ⟨fun h => by omega, fun h => absurd h h2⟩
        · rw [if_neg h3]
          obtain ⟨c, rfl⟩ : ∃ c, b = c + 1 := ⟨b - 1, by omega⟩
          rw [Nat.add_right_cancel_iff, Nat.floor_eq_iff hq, le_div_iff₀ hdp, div_lt_iff₀ hdp, Nat.add_sub_cancel]
          push_cast
          constructor
          · rintro ⟨a, b'⟩
            exact ⟨hb, by linarith, by linarith⟩
          · rintro ⟨_, a, b'⟩
            exact ⟨by linarith, by linarith⟩

theorem histBin_lt {min max : T} (hm : min < max) {num : Nat} (hn : 3 ≤ num) (v : T) :
    histBin Nat.floor min max ((max - min) / ((num - 2 : Nat) : T)) num v < num := by
  have hk : (0 : T) < ((num - 2 : Nat) : T) := by
    have : 0 < num - 2 := by omega
    exact_mod_cast this
  set d := (max - min) / ((num - 2 : Nat) : T) with hd
  have hdp : 0 < d := div_pos (by linarith) hk
  have htop : min + ((num - 2 : Nat) : T) * d = max := by
    rw [hd, mul_div_cancel₀ _ (ne_of_gt hk)]; ring
  unfold histBin
  split
  · omega
  · split
    · omega
    · rename_i h1 h2
      have hq : (0 : T) ≤ (v - min) / d := div_nonneg (by linarith [not_lt.mp h1]) hdp.le
      rw [Nat.floor_add_one hq]
      have hlt : Nat.floor ((v - min) / d) < num - 2 := by
        rw [Nat.floor_lt hq, div_lt_iff₀ hdp]
        linarith [not_le.mp h2]
      omega

/-- C39: every value belongs to exactly one bin -/
theorem C39_one_bin {min max : T} (hm : min < max) {num : Nat} (hn : 3 ≤ num) (v : T) :
    ∃! b, b < num ∧ InBin min max num b v := by
  refine ⟨_, ⟨histBin_lt hm hn v, (histBin_spec hm hn v _ (histBin_lt hm hn v)).1 rfl⟩, ?_⟩
  rintro b ⟨hb, h⟩
  exact ((histBin_spec hm hn v b hb).2 h).symm

theorem histAdd_spec {min max : T} (hm : min < max) (h : Vec Nat) (hn : 3 ≤ h.n) (v : T) :
    ∃ h', histAdd Nat.floor min max ((max - min) / ((h.n - 2 : Nat) : T)) h v = some h' ∧ h'.n = h.n ∧
      ∀ b < h.n, (InBin min max h.n b v → h'.f b = h.f b + 1) ∧ (¬ InBin min max h.n b v → h'.f b = h.f b) := by
  have hlt := histBin_lt hm hn v
  unfold histAdd
  simp only [Vec.get, Vec.put, hlt, if_true, Option.bind_eq_bind, Option.bind_some]
  refine ⟨_, rfl, rfl, fun b hb => ?_⟩
  rw [← histBin_spec hm hn v b hb]
  constructor
  · intro e; simp [e]
  · intro e
    have : ¬ b = histBin Nat.floor min max ((max - min) / ((h.n - 2 : Nat) : T)) h.n v := fun q => e q.symm
    simp [this]

theorem add_count {p : Prop} [Decidable p] {a b c k : Nat} (h1 : p → a = b + 1) (h2 : ¬ p → a = b) (hb : b = c + k) :
    a = c + (k + if p then 1 else 0) := by
  split
  · rw [h1 ‹_›, hb]; omega
  · rw [h2 ‹_›, hb]; omega

/-- C39: a call on a vector adds to every bin the number of elements belonging to the bin, to the previous counts if accumulating -/
theorem C39_call_vector {min max : T} (hm : min < max) (h : Vec Nat) (hn : 3 ≤ h.n) (x : Vec T) (acc : Bool) :
    ∃ h', histCall1 Nat.floor (fun k => (k : T)) min max h x acc = some h' ∧ h'.n = h.n ∧
      ∀ b < h.n, h'.f b = (if acc then h.f b else 0) + countV (InBin min max h.n b) x := by
  classical
  unfold histCall1 histExec1
  set g : Vec Nat := if acc = false then ⟨h.n, fun _ => 0⟩ else h with hg
  have gn : g.n = h.n := by rw [hg]; split <;> rfl
  have gf : ∀ b, g.f b = if acc then h.f b else 0 := by intro b; rw [hg]; cases acc <;> simp
  obtain ⟨h', e, i1, i2⟩ := loop_inv (σ := Vec Nat) (fun k h' => h'.n = g.n ∧ ∀ b < g.n, h'.f b = g.f b +
      ∑ i ∈ range k, if InBin min max g.n b (x.f i) then 1 else 0) x.n g
    (fun h i => do histAdd Nat.floor min max ((max - min) / ((g.n - 2 : Nat) : T)) h (← x.get i)) (by simp) (by
      intro k s hk ⟨hs, hf⟩
      obtain ⟨h', e, i1, i2⟩ := histAdd_spec hm s (by omega) (x.f k)
      rw [hs] at e i1 i2
      refine ⟨h', by simp [Vec.get, hk, e], i1, fun b hb => ?_⟩
      rw [sum_range_succ]
      exact add_count (i2 b hb).1 (i2 b hb).2 (hf b hb))
  refine ⟨h', e, by omega, fun b hb => ?_⟩
  rw [i2 b (by omega), gf, gn]
  rfl

/-- C39: the same for a matrix -/
theorem C39_call_matrix {min max : T} (hm : min < max) (h : Vec Nat) (hn : 3 ≤ h.n) (x : Mat T) (acc : Bool) :
    ∃ h', histCall2 Nat.floor (fun k => (k : T)) min max h x acc = some h' ∧ h'.n = h.n ∧
      ∀ b < h.n, h'.f b = (if acc then h.f b else 0) + countM (InBin min max h.n b) x := by
  classical
  unfold histCall2 histExec2
  set g : Vec Nat := if acc = false then ⟨h.n, fun _ => 0⟩ else h with hg
  have gn : g.n = h.n := by rw [hg]; split <;> rfl
  have gf : ∀ b, g.f b = if acc then h.f b else 0 := by intro b; rw [hg]; cases acc <;> simp
  obtain ⟨h', e, i1, i2⟩ := loop_inv (σ := Vec Nat) (fun k h' => h'.n = g.n ∧ ∀ b < g.n, h'.f b = g.f b +
      ∑ i ∈ range k, ∑ j ∈ range x.cols, if InBin min max g.n b (x.f i j) then 1 else 0) x.rows g
    (fun h i => loop x.cols h fun h j => do
      histAdd Nat.floor min max ((max - min) / ((g.n - 2 : Nat) : T)) h (← x.get i j)) (by simp) (by
      intro k s hk ⟨hs, hf⟩
      obtain ⟨h', e, i1, i2⟩ := loop_inv (σ := Vec Nat) (fun l h' => h'.n = g.n ∧ ∀ b < g.n, h'.f b = s.f b +
          ∑ j ∈ range l, if InBin min max g.n b (x.f k j) then 1 else 0) x.cols s
        (fun h j => do histAdd Nat.floor min max ((max - min) / ((g.n - 2 : Nat) : T)) h (← x.get k j))
        (by simp [hs]) (by
          intro l s' hl ⟨hs', hf'⟩
          obtain ⟨h', e, i1, i2⟩ := histAdd_spec hm s' (by omega) (x.f k l)
          rw [hs'] at e i1 i2
          refine ⟨h', by simp [Mat.get, hk, hl, e], i1, fun b hb => ?_⟩
          rw [sum_range_succ]
          exact add_count (i2 b hb).1 (i2 b hb).2 (hf' b hb))
      refine ⟨h', e, i1, fun b hb => ?_⟩
      rw [i2 b hb, hf b hb, sum_range_succ]
      omega)
  refine ⟨h', e, by omega, fun b hb => ?_⟩
  rw [i2 b (by omega), gf, gn]
  rfl

/-- C39: counts add up over accumulating calls -/
theorem C39_accumulate {min max : T} (hm : min < max) (h : Vec Nat) (hn : 3 ≤ h.n) (xs : List (Vec T)) :
    ∃ h', xs.foldlM (fun h x => histCall1 Nat.floor (fun k => (k : T)) min max h x true) h = some h' ∧ h'.n = h.n ∧
      ∀ b < h.n, h'.f b = h.f b + (xs.map (countV (InBin min max h.n b))).sum := by
  induction xs generalizing h with
  | nil => exact ⟨h, by simp, rfl, by simp⟩
  | cons x xs ih =>
    obtain ⟨h1, e1, n1, f1⟩ := C39_call_vector hm h hn x true
    obtain ⟨h2, e2, n2, f2⟩ := ih h1 (by omega)
    refine ⟨h2, by simp [e1, e2], by omega, fun b hb => ?_⟩
    rw [f2 b (by omega), f1 b hb, n1]
    simp
    omega
end

example : InBin (0 : ℚ) 4 4 1 (3 / 2) ∧ InBin (0 : ℚ) 4 4 2 3 ∧ InBin (0 : ℚ) 4 4 3 4 ∧ (3 : Nat) ≤ 4 ∧ (0 : ℚ) < 4 := by
  unfold InBin; norm_num

/-- C39 is false for integer values: the width of the intervals is rounded down, and with range [0, 11) and 6 bins the value 10
leads to bin 6, beyond the histogram -/
theorem C39_integer_false :
    histCall1 Int.toNat (fun k => (k : Int)) 0 11 ⟨6, fun _ => 0⟩ ⟨1, fun _ => 10⟩ false = none := by
  decide

/-- C39 for integer values whose range is a multiple of the number of intervals: then the bin is the right one.
Missing: other ranges, see `C39_integer_false`. -/
theorem C39_integer_partial {min max : Int} {num : Nat} (hn : 3 ≤ num) {d : Int} (hd : 0 < d)
    (hr : max = min + ((num - 2 : Nat) : Int) * d) (v : Int) :
    let b := histBin Int.toNat min max ((max - min) / ((num - 2 : Nat) : Int)) num v
    b < num ∧ (v < min → b = 0) ∧ (max ≤ v → b = num - 1) ∧
      (min ≤ v → v < max → 1 ≤ b ∧ b < num - 1 ∧ min + ((b - 1 : Nat) : Int) * d ≤ v ∧ v < min + (b : Int) * d) := by
  have hk : (0 : Int) < ((num - 2 : Nat) : Int) := by omega
  have e : (max - min) / ((num - 2 : Nat) : Int) = d := by
    rw [hr]
    have : min + ((num - 2 : Nat) : Int) * d - min = ((num - 2 : Nat) : Int) * d := by ring
    rw [this]
    exact Int.mul_ediv_cancel_left _ (by omega)
  rw [e]
  have hmm : min < max := by rw [hr]; have := mul_pos hk hd; omega
  unfold histBin
  intro b
  by_cases h1 : v < min
  · have : b = 0 := by simp [b, h1]
    rw [this]
    refine ⟨by omega, fun _ => rfl, fun _ => by omega, fun _ => by omega⟩
  · by_cases h2 : max ≤ v
    · have : b = num - 1 := by simp [b, h1, h2]
      rw [this]
      refine ⟨by omega, fun _ => by omega, fun _ => rfl, fun _ _ => by omega⟩
    · have hq : 0 ≤ (v - min) / d := Int.ediv_nonneg (by omega) hd.le
      have hb : (b : Int) = (v - min) / d + 1 := by
        have : b = ((v - min) / d + 1).toNat := by simp only [b]; rw [if_neg h1, if_neg h2]
        rw [this, Int.toNat_of_nonneg (by omega)]
      have l1 : (v - min) / d * d ≤ v - min := Int.ediv_mul_le _ (by omega)
      have l2 : v - min < ((v - min) / d + 1) * d := Int.lt_ediv_add_one_mul_self _ hd
      have l3 : (v - min) / d < ((num - 2 : Nat) : Int) := by
        rw [Int.ediv_lt_iff_lt_mul hd]; omega
      have hb1 : ((b - 1 : Nat) : Int) = (v - min) / d := by omega
      refine ⟨by omega, fun h => absurd h h1, fun h => absurd h h2, fun _ _ => ⟨by omega, by omega, ?_, ?_⟩⟩
      · rw [hb1]; omega
      · rw [hb]; omega

example : (3 : Nat) ≤ 6 ∧ (0 : Int) < 3 ∧ (12 : Int) = 0 + ((6 - 2 : Nat) : Int) * 3 := by decide

end Verif.Props
