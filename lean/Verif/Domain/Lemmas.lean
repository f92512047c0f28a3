import Verif.Domain.Spec
import Mathlib.Tactic.Linarith
import Mathlib.Tactic.Ring
import Mathlib.Tactic.Push
/-! Helper lemmas for domains. -/
namespace Verif
open Spec

theorem toIdx_of_fits {z : Int} (h0 : 0 ≤ z) (h1 : z < W₆₄) : (toIdx z : Int) = z := by
  unfold toIdx
  rw [Int.emod_eq_of_lt h0 h1]
  omega

theorem toIdx_lt (z : Int) : toIdx z < W₆₄ := by
  unfold toIdx
  have := Int.emod_lt_of_pos z (show (0:Int) < W₆₄ by decide)
  have := Int.emod_nonneg z (show (W₆₄:Int) ≠ 0 by decide)
  omega

theorem toSigned_of_lt {n : Nat} (h : n < W₆₃) : toSigned n = n := by
  unfold toSigned
  rw [Nat.mod_eq_of_lt (by omega), if_pos h]

theorem toSigned_toIdx {z : Int} (h : FitsSigned z) : toSigned (toIdx z) = z := by
  unfold toSigned toIdx FitsSigned at *
  have h1 := Int.emod_lt_of_pos z (show (0:Int) < W₆₄ by decide)
  have h2 := Int.emod_nonneg z (show (W₆₄:Int) ≠ 0 by decide)
  rw [Nat.mod_eq_of_lt (by omega)]
  split <;> omega

/-- linear progressions stay between their end points -/
theorem mul_between (s : Int) {i n : Int} (h0 : 0 ≤ i) (h1 : i ≤ n) :
    (0 ≤ s * i ∧ s * i ≤ s * n) ∨ (s * n ≤ s * i ∧ s * i ≤ 0) := by
  rcases le_total 0 s with h | h
  · left; exact ⟨mul_nonneg h h0, mul_le_mul_of_nonneg_left h1 h⟩
  · right; exact ⟨mul_le_mul_of_nonpos_left h1 h, by nlinarith⟩

theorem nth_eq {d : Dom} (hf : Fits d) {i : Nat} (hi : i < d.length) :
    (d.nth i : Int) = elem d i := by
  have hl := hf.length_lt
  unfold Dom.nth
  rw [toSigned_of_lt (by omega)]
  apply toIdx_of_fits
  · exact hf.elem_nonneg i hi
  · have := hf.elem_lt i hi
    unfold elem at this
    omega

theorem nth?_eq {d : Dom} (hf : Fits d) {i : Nat} (hi : i < d.length) :
    d.nth? i = some (d.nth i) := by
  have hl := hf.length_lt
  unfold Dom.nth?
  rw [if_pos]
  rw [toSigned_of_lt (by omega)]
  have h0 := hf.elem_nonneg i hi
  have h1 := hf.elem_lt i hi
  have h2 := hf.first_lt
  unfold elem at *
  unfold FitsSigned
  omega

theorem last_eq {d : Dom} (hf : Fits d) (h : 0 < d.length) :
    (d.last : Int) = elem d (d.length - 1) := by
  unfold Dom.last
  have : toIdx ((d.length : Int) - 1) = d.length - 1 := by
    have := toIdx_of_fits (z := (d.length : Int) - 1) (by omega) (by have := hf.length_lt; omega)
    omega
  rw [this]
  exact nth_eq hf (by omega)

/-- to be `Fits` it suffices to check the two end points -/
theorem fits_of_ends {d : Dom} (hl : d.length < W₆₃) (hs : FitsSigned d.stride)
    (hf : d.first < W₆₃) (h0 : 0 < d.length → 0 ≤ elem d (d.length - 1))
    (h1 : 0 < d.length → elem d (d.length - 1) < W₆₃) : Fits d := by
  refine ⟨hl, hs, hf, ?_, ?_⟩
  all_goals
    intro i hi
    have a := h0 (by omega)
    have b := h1 (by omega)
    have := mul_between d.stride (i := i) (n := ((d.length - 1 : Nat) : Int)) (by omega) (by omega)
    unfold elem at *
    omega

theorem elem_one (d : Dom) (h : d.stride = 1) (i : Nat) : elem d i = d.first + i := by
  simp [elem, h]


/-! ### Membership in positive-stride domains, in `Nat` -/

theorem mem_nat {d : Dom} {s : Nat} (hs : d.stride = s) {z : Int} :
    Mem z d ↔ ∃ i, i < d.length ∧ z = ((d.first + s * i : Nat) : Int) := by
  unfold Mem elem
  rw [hs]
  push_cast
  rfl

theorem last_nat {d : Dom} (hf : Fits d) {s : Nat} (hs : d.stride = s) (h : 0 < d.length) :
    d.last = d.first + s * (d.length - 1) := by
  have h1 := last_eq hf h
  unfold elem at h1
  rw [hs] at h1
  have : ((s * (d.length - 1) : Nat) : Int) = (s : Int) * ((d.length - 1 : Nat) : Int) := by push_cast; rfl
  omega

theorem last_lt {d : Dom} (hf : Fits d) (h : 0 < d.length) : d.last < W₆₃ := by
  have h1 := last_eq hf h
  have h2 := hf.elem_lt (d.length - 1) (by omega)
  omega

theorem toIdx_nat {n : Nat} (h : n < W₆₄) : toIdx (n : Int) = n := by
  have := toIdx_of_fits (z := (n : Int)) (by omega) (by omega)
  omega

/-- rounding up to the next element of the progression -/
theorem round_up (f1 f2 s : Nat) (hs : 0 < s) (h : f2 < f1) :
    ∃ q, (if (f1 - f2) % s ≠ 0 then f1 + (s - (f1 - f2) % s) else f1) = f2 + s * q ∧
      f1 ≤ f2 + s * q ∧ f2 + s * q < f1 + s := by
  have h1 := Nat.div_add_mod (f1 - f2) s
  have h2 := Nat.mod_lt (f1 - f2) hs
  split
  · refine ⟨(f1 - f2) / s + 1, ?_⟩
    rw [Nat.mul_add]
    omega
  · refine ⟨(f1 - f2) / s, ?_⟩
    omega

/-- the body of the strided branch of `intersect`, in exact arithmetic -/
theorem strided_core (f1 l1 f2 n2 s first last : Nat) (hs : 0 < s)
    (hfirst : ∃ q, first = f2 + s * q ∧ f1 ≤ first ∧ (first < f1 + s ∨ q = 0))
    (hlast : ∀ i, f2 + s * i ≤ last ↔ (f2 + s * i ≤ l1 ∧ i < n2)) :
    ∀ z : Nat, (first ≤ last ∧ ∃ j, j < (last - first) / s + 1 ∧ z = first + s * j) ↔
      ((f1 ≤ z ∧ z ≤ l1) ∧ ∃ i, i < n2 ∧ z = f2 + s * i) := by
  obtain ⟨q, hq, hq1, hq2⟩ := hfirst
  intro z
  constructor
  · rintro ⟨hle, j, hj, rfl⟩
    have hj' : j ≤ (last - first) / s := by omega
    have hjs : j * s ≤ last - first := (Nat.le_div_iff_mul_le hs).1 hj'
    have e : first + s * j = f2 + s * (q + j) := by rw [hq, Nat.mul_add]; omega
    have hle2 : f2 + s * (q + j) ≤ last := by
      rw [← e, Nat.mul_comm s j]; omega
    have := (hlast (q + j)).1 hle2
    refine ⟨⟨by omega, by omega⟩, q + j, this.2, e⟩
  · rintro ⟨⟨h1, h2⟩, i, hi, rfl⟩
    have hle := (hlast i).2 ⟨h2, hi⟩
    -- `i ≥ q`
    have hqi : q ≤ i := by
      rcases hq2 with hq2 | hq2
      · by_contra hc
        have hc' : i + 1 ≤ q := by omega
        have := Nat.mul_le_mul_left s hc'
        rw [Nat.mul_add] at this
        omega
      · omega
    have e : f2 + s * i = first + s * (i - q) := by
      have : s * i = s * q + s * (i - q) := by rw [← Nat.mul_add]; congr 1; omega
      omega
    refine ⟨by omega, i - q, ?_, e⟩
    have : (i - q) * s ≤ last - first := by
      rw [Nat.mul_comm]; omega
    have := (Nat.le_div_iff_mul_le hs).2 this
    omega

/-- exact form of the strided branch -/
theorem intersect_strided_eq {a b : Dom} (ha : Fits a) (hb : Fits b) (hs1 : a.stride = 1)
    {s : Nat} (hs : b.stride = s) (hs0 : 0 < s) (hne : s ≠ 1) (hal : 0 < a.length) (hbl : 0 < b.length) :
    ∃ first last, (∃ q, first = b.first + s * q ∧ a.first ≤ first ∧ (first < a.first + s ∨ q = 0)) ∧
      (∀ i, b.first + s * i ≤ last ↔ (b.first + s * i ≤ a.first + (a.length - 1) ∧ i < b.length)) ∧
      last < W₆₃ ∧
      intersect a b = if first ≤ last then some ⟨first, b.stride, (last - first) / s + 1⟩ else none := by
  have hal2 := last_nat ha (s := 1) (by simpa using hs1) hal
  have hbl2 := last_nat hb hs hbl
  have hA := last_lt ha hal
  have hB := last_lt hb hbl
  have fa := ha.first_lt
  have fb := hb.first_lt
  have hsf : s < W₆₃ := by have := hb.stride_fits.2; omega
  have hst : toIdx b.stride = s := by rw [hs]; exact toIdx_nat (by omega)
  -- the rounded-up start
  have hF : ∃ first2, (∃ q, first2 = b.first + s * q ∧ (first2 < a.first + s ∨ q = 0) ∧
      a.first ≤ first2 ∨ first2 = b.first ∧ ¬ (b.first < a.first)) ∧ first2 < W₆₄ ∧
      (if b.first < a.first then
        if (a.first - b.first) % s ≠ 0 then
          ((b.first + (a.first - b.first)) % W₆₄ + (s - (a.first - b.first) % s)) % W₆₄
        else (b.first + (a.first - b.first)) % W₆₄
      else b.first) = first2 := by
    by_cases h : b.first < a.first
    · rw [if_pos h]
      obtain ⟨q, hq, hq1, hq2⟩ := round_up a.first b.first s hs0 h
      have e1 : (b.first + (a.first - b.first)) % W₆₄ = a.first := by
        rw [Nat.mod_eq_of_lt (by omega)]; omega
      rw [e1]
      refine ⟨b.first + s * q, ⟨q, Or.inl ⟨rfl, Or.inl hq2, hq1⟩⟩, by omega, ?_⟩
      rw [← hq]
      split
      · rename_i h'; rw [if_pos h'] at hq
        exact Nat.mod_eq_of_lt (by omega)
      · rfl
    · rw [if_neg h]
      exact ⟨b.first, ⟨0, Or.inr ⟨rfl, h⟩⟩, by omega, rfl⟩
  obtain ⟨first2, ⟨q, hq⟩, hfl, hfe⟩ := hF
  -- the adjusted end
  have hL : ∃ last2, (b.last > a.last → 1 < b.length → b.last - s ≤ last2) ∧
      (¬ b.last > a.last → last2 = b.last) ∧
      (if b.last > a.last then
        if (b.last - a.last) % s ≠ 0 then
          toIdx ((b.last : Int) - (s - (b.last - a.last) % s : Nat)) else b.last
      else b.last) = last2 := by
    by_cases h : b.last > a.last
    · rw [if_pos h]
      split
      · refine ⟨_, ?_, fun hc => absurd h hc, rfl⟩
        intro _ h2
        have hsl : s ≤ b.last := by
          rw [hbl2]
          have : s * 1 ≤ s * (b.length - 1) := Nat.mul_le_mul_left s (by omega)
          omega
        have hm := Nat.mod_lt (b.last - a.last) hs0
        have := toIdx_of_fits (z := (b.last : Int) - (s - (b.last - a.last) % s : Nat)) (by omega) (by omega)
        omega
      · exact ⟨b.last, fun _ _ => by omega, fun _ => rfl, rfl⟩
    · rw [if_neg h]
      exact ⟨b.last, fun hc => absurd hc h, fun _ => rfl, rfl⟩
  obtain ⟨last2, hl1, hl2, hle⟩ := hL
  refine ⟨max a.first first2, min a.last last2, ?_, ?_, by omega, ?_⟩
  · rcases hq with ⟨h1, h2, h3⟩ | ⟨h1, h2⟩
    · exact ⟨q, by omega, by omega, by omega⟩
    · refine ⟨0, by omega, by omega, Or.inr rfl⟩
  · intro i
    have hilt : i < b.length ↔ b.first + s * i ≤ b.last := by
      rw [hbl2]
      constructor
      · intro h
        have := Nat.mul_le_mul_left s (show i ≤ b.length - 1 by omega)
        omega
      · intro h
        by_contra hc
        have := Nat.mul_le_mul_left s (show (b.length - 1) + 1 ≤ i by omega)
        rw [Nat.mul_add] at this
        omega
    rw [hilt]
    have hal3 : a.first + (a.length - 1) = a.last := by omega
    rw [hal3]
    by_cases h : b.last > a.last
    · by_cases h1 : 1 < b.length
      · have := hl1 h h1
        -- an element below `b.last` is at most `b.last - s`
        have hstep : b.first + s * i < b.last → b.first + s * i + s ≤ b.last := by
          intro hlt
          rw [hbl2] at hlt ⊢
          have h3 : i < b.length - 1 := by
            by_contra hc
            have := Nat.mul_le_mul_left s (show b.length - 1 ≤ i by omega)
            omega
          have := Nat.mul_le_mul_left s (show i + 1 ≤ b.length - 1 by omega)
          rw [Nat.mul_add] at this
          omega
        constructor
        · intro h4; constructor <;> omega
        · rintro ⟨h4, h5⟩
          have := hstep (by omega)
          omega
      · have : b.length - 1 = 0 := by omega
        rw [this] at hbl2
        constructor
        · intro h4; constructor <;> omega
        · rintro ⟨h4, h5⟩; omega
    · have := hl2 h
      omega
  · unfold intersect
    rw [if_neg (by omega)]
    simp only [hst]
    rw [hfe, hle]
    have hcnt : (min a.last last2 - max a.first first2) / s + 1 < W₆₄ := by
      have := Nat.div_le_self (min a.last last2 - max a.first first2) s
      omega
    rw [Nat.mod_eq_of_lt hcnt]

theorem elem_nat {d : Dom} {s : Nat} (hs : d.stride = s) (i : Nat) :
    elem d i = ((d.first + s * i : Nat) : Int) := by
  unfold elem; rw [hs]; push_cast; rfl

/-- Full characterisation of `intersect` on non-empty representable domains. -/
theorem intersect_spec {a b : Dom} (ha : Fits a) (hb : Fits b) (hs1 : a.stride = 1)
    (hs : 0 < b.stride) (hal : 0 < a.length) (hbl : 0 < b.length) :
    (∀ r, intersect a b = some r → Fits r ∧ 0 < r.length ∧ r.stride = b.stride ∧
      ∀ z, Mem z r ↔ Mem z a ∧ Mem z b) ∧
    (intersect a b = none → ∀ z, ¬ (Mem z a ∧ Mem z b)) := by
  obtain ⟨s, hss⟩ : ∃ s : Nat, b.stride = s := ⟨b.stride.toNat, by omega⟩
  have hs0 : 0 < s := by omega
  have hA := last_lt ha hal
  have hB := last_lt hb hbl
  have hal2 := last_nat ha (s := 1) (by simpa using hs1) hal
  have hbl2 := last_nat hb hss hbl
  have hsf : s < W₆₃ := by have := hb.stride_fits.2; omega
  have memA : ∀ z : Nat, Mem (z : Int) a ↔ a.first ≤ z ∧ z ≤ a.first + (a.length - 1) := by
    intro z
    rw [mem_nat (s := 1) (by simpa using hs1)]
    constructor
    · rintro ⟨i, hi, h⟩; omega
    · rintro ⟨h1, h2⟩; exact ⟨z - a.first, by omega, by omega⟩
  have memB : ∀ z : Nat, Mem (z : Int) b ↔ ∃ i, i < b.length ∧ z = b.first + s * i := by
    intro z
    rw [mem_nat hss]
    constructor
    · rintro ⟨i, hi, h⟩; exact ⟨i, hi, by omega⟩
    · rintro ⟨i, hi, h⟩; exact ⟨i, hi, by omega⟩
  have negB : ∀ z : Int, Mem z b → 0 ≤ z := by
    rintro z ⟨i, hi, rfl⟩; exact hb.elem_nonneg i hi
  have key : ∃ first last, (∃ q, first = b.first + s * q ∧ a.first ≤ first ∧ (first < a.first + s ∨ q = 0)) ∧
      (∀ i, b.first + s * i ≤ last ↔ (b.first + s * i ≤ a.first + (a.length - 1) ∧ i < b.length)) ∧
      last < W₆₃ ∧
      intersect a b = if first ≤ last then some ⟨first, b.stride, (last - first) / s + 1⟩ else none := by
    by_cases h1 : s = 1
    · subst h1
      refine ⟨max a.first b.first, min a.last b.last, ⟨max a.first b.first - b.first, by omega, by omega, by omega⟩, ?_, by omega, ?_⟩
      · intro i; omega
      · unfold intersect
        rw [if_pos (by simpa using hss)]
        simp only [Nat.div_one]
        rw [Nat.mod_eq_of_lt (by omega), hss]
        rfl
    · exact intersect_strided_eq ha hb hs1 hss hs0 h1 hal hbl
  obtain ⟨first, last, hfirst, hlast, hlw, heq⟩ := key
  have core := strided_core a.first (a.first + (a.length - 1)) b.first b.length s first last hs0 hfirst hlast
  constructor
  · intro r hr
    rw [heq] at hr
    split at hr
    · rename_i hle
      cases hr
      have hdl := Nat.div_le_self (last - first) s
      have hmul := Nat.div_mul_le_self (last - first) s
      refine ⟨?_, by simp, rfl, ?_⟩
      · apply fits_of_ends
        · show (last - first) / s + 1 < W₆₃
          by_cases h1 : first = 0 ∧ s = 1
          · obtain ⟨h1, h2⟩ := h1
            have hx := ha.length_lt
            have := (hlast (last - b.first)).1
            obtain ⟨q, hq, _⟩ := hfirst
            rw [h2, Nat.one_mul] at this
            simp only [h2, Nat.div_one] at *
            omega
          · have : first ≠ 0 ∨ 2 ≤ s := by omega
            rcases this with h | h
            · omega
            · have := Nat.div_le_div_left h (by omega : 0 < 2) (a := last - first)
              omega
        · exact hb.stride_fits
        · show first < W₆₃
          omega
        all_goals
          intro _
          rw [elem_nat (by exact hss)]
          simp only [Nat.add_sub_cancel]
          rw [Nat.mul_comm]
          omega
      · intro z
        rcases lt_or_ge z 0 with hz | hz
        · constructor
          · intro h
            rw [mem_nat (by exact hss)] at h
            obtain ⟨i, _, hi⟩ := h
            dsimp only at hi
            omega
          · rintro ⟨_, h⟩
            have := negB z h
            omega
        · obtain ⟨n, rfl⟩ : ∃ n : Nat, z = n := ⟨z.toNat, by omega⟩
          rw [memA, memB, ← core n]
          rw [mem_nat (by exact hss)]
          constructor
          · rintro ⟨i, hi, h⟩
            dsimp only at hi h
            exact ⟨hle, i, hi, by omega⟩
          · rintro ⟨_, i, hi, h⟩
            exact ⟨i, hi, by dsimp only; omega⟩
    · cases hr
  · intro hr z
    rw [heq] at hr
    split at hr
    · cases hr
    · rename_i hle
      rintro ⟨h1, h2⟩
      have := negB z h2
      obtain ⟨n, rfl⟩ : ∃ n : Nat, z = n := ⟨z.toNat, by omega⟩
      rw [memA] at h1
      rw [memB] at h2
      exact hle ((core n).2 ⟨h1, h2⟩).1

end Verif
