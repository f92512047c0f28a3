import Verif.Domain.Lemmas
import Mathlib.Data.Finset.Card
import Mathlib.Data.Finset.Image
import Mathlib.Data.Int.ModEq
/-! Property theorems for domains: C01–C04. -/
namespace Verif.Props
open Verif Verif.Spec

/-! ## C01 -/

/-- C01: the `i`-th index the code computes is the `i`-th index of the progression, and the computation
has no undefined behaviour. -/
theorem C01_nth (d : Dom) (hd : Fits d) (i : Nat) (hi : i < d.length) :
    ∃ n, d.nth? i = some n ∧ (n : Int) = elem d i :=
  ⟨d.nth i, nth?_eq hd hi, nth_eq hd hi⟩

/-- a concrete domain with negative stride meeting the hypotheses -/
example : Fits ⟨9, -2, 5⟩ ∧ 4 < (⟨9, -2, 5⟩ : Dom).length ∧ elem ⟨9, -2, 5⟩ 4 = 1 := by
  refine ⟨fits_of_ends (by decide) (by decide) (by decide) (by decide) (by decide), by decide, by decide⟩

/-- C01: a representable domain is accepted by the validity check of the constructors. -/
theorem C01_valid (d : Dom) (hd : Fits d) : d.isValid = true := by
  unfold Dom.isValid
  by_cases h : d.length = 0
  · simp [h]
  · have h1 := last_lt hd (by omega)
    rw [toSigned_of_lt h1]
    simp
    omega

example : Fits ⟨9, -2, 5⟩ := fits_of_ends (by decide) (by decide) (by decide) (by decide) (by decide)

/-- C01: a domain whose last index is negative is rejected. -/
theorem C01_invalid (d : Dom) (hl : 0 < d.length) (hw : d.length < W₆₃)
    (hlo : -(W₆₃ : Int) ≤ elem d (d.length - 1)) (hneg : elem d (d.length - 1) < 0) :
    d.isValid = false := by
  unfold Dom.isValid Dom.last
  have e : toIdx ((d.length : Int) - 1) = d.length - 1 := by
    have := toIdx_of_fits (z := (d.length : Int) - 1) (by omega) (by omega)
    omega
  have : toSigned (d.nth (toIdx ((d.length : Int) - 1))) = elem d (d.length - 1) := by
    rw [e]
    unfold Dom.nth
    rw [toSigned_of_lt (n := d.length - 1) (by omega)]
    exact toSigned_toIdx ⟨hlo, by unfold elem at hneg; omega⟩
  rw [this]
  simp
  exact ⟨by intro h; omega, fun _ => hneg⟩

example : elem ⟨3, -2, 4⟩ 3 < 0 ∧ (⟨3, -2, 4⟩ : Dom).isValid = false := by decide

/-- C01: `dom + s` shifts every index by `s`, keeping the number of indices. -/
theorem C01_add (d : Dom) (s : Int) (h0 : 0 ≤ (d.first : Int) + s) (h1 : (d.first : Int) + s < W₆₄) :
    (d.addIn s).length = d.length ∧ elems (d.addIn s) = (elems d).map (· + s) := by
  refine ⟨rfl, ?_⟩
  unfold elems
  rw [List.map_map]
  apply List.map_congr_left
  intro i _
  have := toIdx_of_fits h0 h1
  simp only [elem, Dom.addIn, Function.comp]
  omega

/-- C01: `dom - s` shifts every index by `-s`. -/
theorem C01_sub (d : Dom) (s : Int) (h0 : 0 ≤ (d.first : Int) - s) (h1 : (d.first : Int) - s < W₆₄) :
    (d.subOut s).length = d.length ∧ elems (d.subOut s) = (elems d).map (· - s) := by
  refine ⟨rfl, ?_⟩
  unfold elems
  rw [List.map_map]
  apply List.map_congr_left
  intro i _
  have := toIdx_of_fits h0 h1
  simp only [elem, Dom.subOut, Function.comp]
  omega

example : elems ((⟨9, -2, 3⟩ : Dom).addIn (-4)) = [5, 3, 1] ∧
    elems ((⟨9, -2, 3⟩ : Dom).subOut 4) = [5, 3, 1] := by decide

/-- C01: `dom * s` multiplies the step, keeping the first index and the length. -/
theorem C01_mul (d : Dom) (s : Nat) (hs : FitsSigned (d.stride * s)) :
    (d.mulBy s).length = d.length ∧ ∀ i, elem (d.mulBy s) i = d.first + d.stride * s * i := by
  refine ⟨rfl, ?_⟩
  intro i
  have : toSigned (toIdx d.stride * s) = d.stride * s := by
    have h2 : toSigned (toIdx d.stride * s) = toSigned (toIdx (d.stride * s)) := by
      have h3 : (toIdx d.stride * s) % W₆₄ = toIdx (d.stride * s) % W₆₄ := by
        have e1 : ((toIdx d.stride : Nat) : Int) = d.stride % (W₆₄ : Nat) := by
          unfold toIdx
          have := Int.emod_nonneg d.stride (show ((W₆₄ : Nat) : Int) ≠ 0 by decide)
          omega
        have e2 : ((toIdx (d.stride * s) : Nat) : Int) = (d.stride * s) % (W₆₄ : Nat) := by
          unfold toIdx
          have := Int.emod_nonneg (d.stride * s) (show ((W₆₄ : Nat) : Int) ≠ 0 by decide)
          omega
        have e3 : (((toIdx d.stride * s) % W₆₄ : Nat) : Int) = ((toIdx (d.stride * s) % W₆₄ : Nat) : Int) := by
          rw [Int.natCast_emod, Int.natCast_emod, e2, Int.natCast_mul, e1]
          rw [Int.emod_emod_of_dvd _ (dvd_refl _)]
          exact (Int.mod_modEq _ _).mul_right _
        omega
      unfold toSigned
      rw [h3]
    rw [h2, toSigned_toIdx hs]
  simp only [elem, Dom.mulBy, this]

example : FitsSigned ((⟨9, -2, 2⟩ : Dom).stride * 3) ∧ elems ((⟨9, -2, 2⟩ : Dom).mulBy 3) = [9, 3] := by decide

/-- What the property demands of `dom / s`: the step is divided, first index and length are kept. -/
def DivOK (d : Dom) (s : Nat) : Prop :=
  ∃ d', d.divBy? s = some d' ∧ d'.length = d.length ∧ ∀ i, elem d' i = d.first + d.stride / s * i

/-- C01 (division), proved only for non-negative strides.  Missing: negative strides, for which
the property is false of the code (`C01_div_neg_false`). -/
theorem C01_div_partial (d : Dom) (hd : Fits d) (s : Nat) (hs : 0 < s) (hpos : 0 ≤ d.stride) :
    DivOK d s := by
  obtain ⟨n, hn⟩ : ∃ n : Nat, d.stride = n := ⟨d.stride.toNat, by omega⟩
  have hlt := hd.stride_fits.2
  refine ⟨_, if_neg (by omega), rfl, ?_⟩
  intro i
  have h2 := Nat.div_le_self n s
  simp only [elem, hn]
  rw [toIdx_nat (by omega), toSigned_of_lt (by omega)]
  push_cast
  rfl

example : Fits ⟨9, 6, 2⟩ ∧ DivOK ⟨9, 6, 2⟩ 3 := by
  have h : Fits ⟨9, 6, 2⟩ := fits_of_ends (by decide) (by decide) (by decide) (by decide) (by decide)
  exact ⟨h, C01_div_partial _ h 3 (by decide) (by decide)⟩

/-- C01 (division) is false for negative strides: `Domain<1>(10,-4,3) / 2` does not have stride `-2`
because the stride is converted to unsigned before dividing. -/
theorem C01_div_neg_false : ¬ ∀ (d : Dom) (s : Nat), Fits d → 0 < s → DivOK d s := by
  intro h
  have hf : Fits ⟨10, -4, 3⟩ := fits_of_ends (by decide) (by decide) (by decide) (by decide) (by decide)
  obtain ⟨d', h1, _, h2⟩ := h ⟨10, -4, 3⟩ 2 hf (by decide)
  have h3 := h2 1
  have e : (⟨10, -4, 3⟩ : Dom).divBy? 2 = some ⟨10, 9223372036854775806, 3⟩ := by decide
  rw [e] at h1
  cases h1
  revert h3
  decide

/-! ## C02 -/

/-- C02 (soundness): domains the code calls equal contain the same indices. -/
theorem C02_sound (a b : Dom) (ha : Fits a) (hb : Fits b) (h : a.equals b = true) :
    ∀ z, Mem z a ↔ Mem z b := by
  unfold Dom.equals at h
  simp only [Bool.and_eq_true, Bool.or_eq_true, beq_iff_eq] at h
  obtain ⟨hl, h | h⟩ := h
  · have : a = b := by
      cases a; cases b; simp at hl h ⊢; exact ⟨h.2, h.1, hl⟩
    subst this
    intro z; rfl
  · by_cases h0 : b.length = 0
    · intro z
      constructor <;> (rintro ⟨i, hi, _⟩; omega)
    · have hx : toIdx ((b.length : Int) - 1) = b.length - 1 := by
        have := toIdx_of_fits (z := (b.length : Int) - 1) (by omega) (by have := hb.length_lt; omega)
        omega
      have hfirst : (a.first : Int) = elem b (b.length - 1) := by
        rw [h.2, hx]
        have e : (b.first : Int) + ((b.length - 1 : Nat) : Int) * b.stride = elem b (b.length - 1) := by
          unfold elem; ring
        rw [e]
        exact toIdx_of_fits (hb.elem_nonneg _ (by omega)) (by have := hb.elem_lt (b.length - 1) (by omega); omega)
      have key : ∀ i, i < b.length → elem a i = elem b (b.length - 1 - i) := by
        intro i hi
        unfold elem at *
        rw [hfirst, h.1]
        have : ((b.length - 1 - i : Nat) : Int) = ((b.length - 1 : Nat) : Int) - i := by omega
        rw [this]
        ring
      intro z
      constructor
      · rintro ⟨i, hi, rfl⟩
        exact ⟨b.length - 1 - i, by omega, key i (by omega)⟩
      · rintro ⟨i, hi, rfl⟩
        refine ⟨b.length - 1 - i, by omega, ?_⟩
        rw [key _ (by omega)]
        congr 1
        omega

example : (⟨9, -2, 5⟩ : Dom).equals ⟨1, 2, 5⟩ = true := by decide

/-- the finite set of indices -/
private def fin (d : Dom) : Finset Int := (Finset.range d.length).image (elem d)

private theorem mem_fin (d : Dom) (z : Int) : z ∈ fin d ↔ Mem z d := by
  unfold fin Mem
  simp only [Finset.mem_image, Finset.mem_range]
  constructor
  · rintro ⟨i, hi, rfl⟩; exact ⟨i, hi, rfl⟩
  · rintro ⟨i, hi, rfl⟩; exact ⟨i, hi, rfl⟩

private theorem card_fin (d : Dom) (h : d.stride ≠ 0) : (fin d).card = d.length := by
  unfold fin
  rw [Finset.card_image_of_injective, Finset.card_range]
  intro i j hij
  unfold elem at hij
  have : d.stride * i = d.stride * j := by omega
  have := mul_left_cancel₀ h this
  omega

private theorem ends (d : Dom) (h0 : 0 < d.length) : ∃ lo hi : Int, Mem lo d ∧ Mem hi d ∧
    (∀ z, Mem z d → lo ≤ z ∧ z ≤ hi) ∧
    ((0 ≤ d.stride ∧ lo = d.first ∧ hi = d.first + d.stride * ((d.length : Int) - 1)) ∨
     (d.stride < 0 ∧ hi = d.first ∧ lo = d.first + d.stride * ((d.length : Int) - 1))) := by
  have m0 : Mem (d.first : Int) d := ⟨0, h0, by simp [elem]⟩
  have m1 : Mem (d.first + d.stride * ((d.length : Int) - 1)) d :=
    ⟨d.length - 1, by omega, by unfold elem; congr 2; omega⟩
  rcases lt_or_ge d.stride 0 with h | h
  · refine ⟨_, _, m1, m0, ?_, Or.inr ⟨h, rfl, rfl⟩⟩
    rintro z ⟨i, hi, rfl⟩
    have := mul_between d.stride (i := i) (n := (d.length : Int) - 1) (by omega) (by omega)
    unfold elem
    have h3 : d.stride * ((d.length : Int) - 1) ≤ 0 := by nlinarith
    have h4 : d.stride * (i : Int) ≤ 0 := by nlinarith
    omega
  · refine ⟨_, _, m0, m1, ?_, Or.inl ⟨h, rfl, rfl⟩⟩
    rintro z ⟨i, hi, rfl⟩
    have := mul_between d.stride (i := i) (n := (d.length : Int) - 1) (by omega) (by omega)
    unfold elem
    have h3 : 0 ≤ d.stride * ((d.length : Int) - 1) := by apply mul_nonneg h; omega
    have h4 : 0 ≤ d.stride * (i : Int) := by apply mul_nonneg h; omega
    omega

/-- C02 (completeness), proved for domains with at least two distinct indices.  Missing: domains with
at most one index, for which the property is false of the code (`C02_false`). -/
theorem C02_complete_partial (a b : Dom) (hb : Fits b) (hal : 2 ≤ a.length)
    (has : a.stride ≠ 0) (hbs : b.stride ≠ 0) (h : ∀ z, Mem z a ↔ Mem z b) : a.equals b = true := by
  have hfin : fin a = fin b := by
    ext z; rw [mem_fin, mem_fin]; exact h z
  have hlen : a.length = b.length := by
    rw [← card_fin a has, ← card_fin b hbs, hfin]
  obtain ⟨lo, hi, ml, mh, mb, hc⟩ := ends a (by omega)
  obtain ⟨lo', hi', ml', mh', mb', hc'⟩ := ends b (by omega)
  have e1 : lo = lo' := le_antisymm (mb lo' ((h _).2 ml')).1 (mb' lo ((h _).1 ml)).1
  have e2 : hi = hi' := le_antisymm (mb' hi ((h _).1 mh)).2 (mb hi' ((h _).2 mh')).2
  subst e1 e2
  have hx : toIdx ((b.length : Int) - 1) = b.length - 1 := by
    have := toIdx_of_fits (z := (b.length : Int) - 1) (by omega) (by have := hb.length_lt; omega)
    omega
  have hlast : (toIdx ((b.first : Int) + toIdx ((b.length : Int) - 1) * b.stride) : Int) =
      b.first + b.stride * ((b.length : Int) - 1) := by
    rw [hx]
    have e : (b.first : Int) + ((b.length - 1 : Nat) : Int) * b.stride = elem b (b.length - 1) := by
      unfold elem; ring
    rw [e, toIdx_of_fits (hb.elem_nonneg _ (by omega)) (by have := hb.elem_lt (b.length - 1) (by omega); omega)]
    unfold elem
    congr 2
    omega
  have hpos : (0 : Int) < (b.length : Int) - 1 := by omega
  rw [hlen] at hc
  unfold Dom.equals
  simp only [Bool.and_eq_true, Bool.or_eq_true, beq_iff_eq]
  refine ⟨hlen, ?_⟩
  rcases hc with ⟨g1, g2, g3⟩ | ⟨g1, g2, g3⟩ <;> rcases hc' with ⟨g4, g5, g6⟩ | ⟨g4, g5, g6⟩
  · left
    have : a.stride * ((b.length : Int) - 1) = b.stride * ((b.length : Int) - 1) := by omega
    exact ⟨mul_right_cancel₀ (by omega) this, by omega⟩
  · right
    have : a.stride * ((b.length : Int) - 1) = -b.stride * ((b.length : Int) - 1) := by
      rw [neg_mul]; omega
    exact ⟨mul_right_cancel₀ (by omega) this, by omega⟩
  · right
    have : a.stride * ((b.length : Int) - 1) = -b.stride * ((b.length : Int) - 1) := by
      rw [neg_mul]; omega
    exact ⟨mul_right_cancel₀ (by omega) this, by omega⟩
  · left
    have : a.stride * ((b.length : Int) - 1) = b.stride * ((b.length : Int) - 1) := by omega
    exact ⟨mul_right_cancel₀ (by omega) this, by omega⟩

example : Fits ⟨1, 2, 5⟩ ∧ 2 ≤ (⟨9, -2, 5⟩ : Dom).length ∧
    (⟨9, -2, 5⟩ : Dom).stride ≠ 0 ∧ (⟨1, 2, 5⟩ : Dom).stride ≠ 0 ∧ ∀ z, Mem z ⟨9, -2, 5⟩ ↔ Mem z ⟨1, 2, 5⟩ := by
  have h1 : Fits ⟨1, 2, 5⟩ := fits_of_ends (by decide) (by decide) (by decide) (by decide) (by decide)
  have h2 : Fits ⟨9, -2, 5⟩ := fits_of_ends (by decide) (by decide) (by decide) (by decide) (by decide)
  exact ⟨h1, by decide, by decide, by decide, C02_sound _ _ h2 h1 (by decide)⟩

/-- C02 is false of the code for one-element domains: `Domain<1>(3,1,1)` and `Domain<1>(3,2,1)` both
contain exactly the index 3 but compare unequal. -/
theorem C02_false : ¬ ∀ a b : Dom, Fits a → Fits b → 0 < a.length → a.stride ≠ 0 → b.stride ≠ 0 →
    (∀ z, Mem z a ↔ Mem z b) → a.equals b = true := by
  intro h
  have h1 : Fits ⟨3, 1, 1⟩ := fits_of_ends (by decide) (by decide) (by decide) (by decide) (by decide)
  have h2 : Fits ⟨3, 2, 1⟩ := fits_of_ends (by decide) (by decide) (by decide) (by decide) (by decide)
  have := h ⟨3, 1, 1⟩ ⟨3, 2, 1⟩ h1 h2 (by decide) (by decide) (by decide) (by
    intro z
    constructor
    · rintro ⟨i, hi, rfl⟩
      have hi' : i = 0 := by simp at hi; exact hi
      subst hi'
      exact ⟨0, by decide, by decide⟩
    · rintro ⟨i, hi, rfl⟩
      have hi' : i = 0 := by simp at hi; exact hi
      subst hi'
      exact ⟨0, by decide, by decide⟩)
  revert this
  decide

/-! ## C03 -/

/-- C03 (one dimension): `intersect` computes exactly the common indices.
Missing: empty domains, see `C03_empty_false`. -/
theorem C03_intersect_partial (a b : Dom) (ha : Fits a) (hb : Fits b) (hs1 : a.stride = 1)
    (hs : 0 < b.stride) (hal : 0 < a.length) (hbl : 0 < b.length) :
    (∀ r, intersect a b = some r → 0 < r.length ∧ ∀ z, Mem z r ↔ (Mem z a ∧ Mem z b)) ∧
    (intersect a b = none → ∀ z, ¬ (Mem z a ∧ Mem z b)) := by
  obtain ⟨h1, h2⟩ := intersect_spec ha hb hs1 hs hal hbl
  exact ⟨fun r hr => ⟨(h1 r hr).2.1, (h1 r hr).2.2.2⟩, h2⟩

example : intersect ⟨4, 1, 10⟩ ⟨1, 5, 3⟩ = some ⟨6, 5, 2⟩ ∧ intersect ⟨4, 1, 2⟩ ⟨1, 5, 3⟩ = none := by decide
example : Fits ⟨4, 1, 10⟩ ∧ Fits ⟨1, 5, 3⟩ :=
  ⟨fits_of_ends (by decide) (by decide) (by decide) (by decide) (by decide),
   fits_of_ends (by decide) (by decide) (by decide) (by decide) (by decide)⟩

/-- hypotheses of C03 in every dimension -/
def DomsOK : List Dom → List Dom → Prop
  | [], [] => True
  | a :: as, b :: bs => (Fits a ∧ Fits b ∧ a.stride = 1 ∧ 0 < b.stride ∧ 0 < a.length ∧ 0 < b.length) ∧ DomsOK as bs
  | _, _ => False

/-- C03 (two, three, any number of dimensions).
Missing: empty domains, see `C03_empty_false`. -/
theorem C03_intersectN_partial : ∀ (a b : List Dom), DomsOK a b →
    (∀ r, intersectN a b = some r → ∀ z, MemN z r ↔ (MemN z a ∧ MemN z b)) ∧
    (intersectN a b = none → ∀ z, ¬ (MemN z a ∧ MemN z b))
  | [], [], _ => by
      constructor
      · intro r hr z
        simp only [intersectN, Option.some.injEq] at hr
        subst hr
        simp
      · intro h; simp [intersectN] at h
  | a :: as, b :: bs, h => by
      obtain ⟨⟨h1, h2, h3, h4, h5, h6⟩, h7⟩ := h
      obtain ⟨ih1, ih2⟩ := C03_intersectN_partial as bs h7
      obtain ⟨k1, k2⟩ := intersect_spec h1 h2 h3 h4 h5 h6
      constructor
      · intro r hr z
        simp only [intersectN] at hr
        split at hr
        · cases hr
        · rename_i r0 hr0
          split at hr
          · cases hr
          · rename_i rs hrs
            cases hr
            cases z with
            | nil => simp [MemN]
            | cons z zs =>
              simp only [MemN]
              rw [(k1 _ hr0).2.2.2 z, ih1 _ hrs zs]
              tauto
      · intro hr z
        simp only [intersectN] at hr
        cases z with
        | nil => simp [MemN]
        | cons z zs =>
          simp only [MemN]
          split at hr
          · rename_i hr0
            have := k2 hr0 z
            tauto
          · split at hr
            · rename_i hrs
              have := ih2 hrs zs
              tauto
            · cases hr
  | [], _ :: _, h => by cases h
  | _ :: _, [], h => by cases h

example : DomsOK [⟨4, 1, 10⟩, ⟨0, 1, 3⟩] [⟨1, 5, 3⟩, ⟨2, 1, 4⟩] ∧
    intersectN [⟨4, 1, 10⟩, ⟨0, 1, 3⟩] [⟨1, 5, 3⟩, ⟨2, 1, 4⟩] = some [⟨6, 5, 2⟩, ⟨2, 1, 1⟩] := by
  refine ⟨⟨⟨?_, ?_, by decide, by decide, by decide, by decide⟩, ⟨?_, ?_, by decide, by decide, by decide, by decide⟩, trivial⟩, by decide⟩
  all_goals exact fits_of_ends (by decide) (by decide) (by decide) (by decide) (by decide)

/-- C03 does not extend to empty domains (which the constructors accept): the empty domain at index 0
"intersects" everything, because its last index wraps around. -/
theorem C03_empty_false : ¬ ∀ (a b r : Dom), Fits a → Fits b → a.stride = 1 → 0 < b.stride →
    intersect a b = some r → ∀ z, Mem z r → (Mem z a ∧ Mem z b) := by
  intro h
  have h1 : Fits ⟨0, 1, 0⟩ := fits_of_ends (by decide) (by decide) (by decide) (by decide) (by decide)
  have h2 : Fits ⟨0, 1, 5⟩ := fits_of_ends (by decide) (by decide) (by decide) (by decide) (by decide)
  obtain ⟨⟨i, hi, _⟩, _⟩ := h ⟨0, 1, 0⟩ ⟨0, 1, 5⟩ ⟨0, 1, 5⟩ h1 h2 rfl (by decide) (by decide) 0 ⟨0, by decide, by decide⟩
  simp at hi

/-! ## C04 -/

/-- C04: `apply_intr(x,y,intr)` selects in `x` the positions that `intr` has in the contiguous domain `y`. -/
theorem C04_applyIntr (x y intr : Dom) (hx : Fits x) (hi : Fits intr)
    (hy1 : y.stride = 1) (hxy : x.length = y.length)
    (hsub : ∀ z, Mem z intr → Mem z y) (hl : 0 < intr.length) :
    (applyIntr x y intr).length = intr.length ∧
    ∀ k, k < intr.length → ∃ p, p < y.length ∧ elem y p = elem intr k ∧
      elem (applyIntr x y intr) k = elem x p := by
  refine ⟨rfl, ?_⟩
  have hpos : ∀ k, k < intr.length → ∃ p, p < y.length ∧ elem y p = elem intr k := by
    intro k hk
    obtain ⟨p, hp, hp2⟩ := hsub (elem intr k) ⟨k, hk, rfl⟩
    exact ⟨p, hp, hp2.symm⟩
  obtain ⟨p0, hp0, hp0e⟩ := hpos 0 hl
  rw [elem_one y hy1] at hp0e
  have hfe : elem intr 0 = intr.first := by simp [elem]
  rw [hfe] at hp0e
  have hdiff : (toIdx ((intr.first : Int) - y.first) : Int) = p0 := by
    have := hi.first_lt
    rw [toIdx_of_fits (by omega) (by omega)]
    omega
  have hfirst : (toIdx ((x.first : Int) + (toIdx ((intr.first : Int) - y.first) : Int) * x.stride) : Int) = elem x p0 := by
    rw [hdiff]
    have e : (x.first : Int) + (p0 : Int) * x.stride = elem x p0 := by unfold elem; ring
    rw [e]
    exact toIdx_of_fits (hx.elem_nonneg _ (by omega)) (by have := hx.elem_lt p0 (by omega); omega)
  intro k hk
  obtain ⟨p, hp, hpe⟩ := hpos k hk
  refine ⟨p, hp, hpe, ?_⟩
  have hk2 : (p : Int) = p0 + intr.stride * k := by
    rw [elem_one y hy1] at hpe
    unfold elem at hpe
    omega
  simp only [applyIntr, elem]
  rw [hfirst]
  simp only [elem]
  rw [hk2]
  ring

example : Fits ⟨3, 2, 6⟩ ∧ Fits ⟨12, 2, 2⟩ ∧ applyIntr ⟨3, 2, 6⟩ ⟨10, 1, 6⟩ ⟨12, 2, 2⟩ = ⟨7, 4, 2⟩ :=
  ⟨fits_of_ends (by decide) (by decide) (by decide) (by decide) (by decide),
   fits_of_ends (by decide) (by decide) (by decide) (by decide) (by decide), by decide⟩

/-- C04: `subset_from_intr(dom,intr)` gives the (consecutive) positions of `intr`'s indices in `dom`. -/
theorem C04_subsetFromIntr (dom intr : Dom) (hd : Fits dom) (hi : Fits intr) (hs : 0 < dom.stride)
    (hst : intr.stride = dom.stride) (hsub : ∀ z, Mem z intr → Mem z dom) (hl : 0 < intr.length) :
    let r := subsetFromIntr dom intr
    r.stride = 1 ∧ r.length = intr.length ∧
    ∀ k, k < intr.length → r.first + k < dom.length ∧ elem dom (r.first + k) = elem intr k := by
  intro r
  refine ⟨rfl, rfl, ?_⟩
  obtain ⟨p0, hp0, hp0e⟩ := hsub (elem intr 0) ⟨0, hl, rfl⟩
  have hfe : elem intr 0 = intr.first := by simp [elem]
  rw [hfe] at hp0e
  unfold elem at hp0e
  obtain ⟨s, hss⟩ : ∃ s : Nat, dom.stride = s := ⟨dom.stride.toNat, by omega⟩
  rw [hss] at hp0e
  have hr : r.first = p0 := by
    show toIdx ((intr.first : Int) - dom.first) / toIdx dom.stride = p0
    have h1 : toIdx dom.stride = s := by
      rw [hss]; exact toIdx_nat (by have := hd.stride_fits.2; omega)
    have h2 : toIdx ((intr.first : Int) - dom.first) = s * p0 := by
      have e : (intr.first : Int) - dom.first = ((s * p0 : Nat) : Int) := by push_cast; omega
      rw [e]
      apply toIdx_nat
      have := hi.first_lt
      have e2 : ((s * p0 : Nat) : Int) = (s : Int) * p0 := by push_cast; rfl
      omega
    rw [h1, h2, Nat.mul_div_cancel_left _ (by omega)]
  intro k hk
  rw [hr]
  have hke : elem dom (p0 + k) = elem intr k := by
    unfold elem
    rw [hst, hss, hp0e]
    push_cast
    ring
  refine ⟨?_, hke⟩
  obtain ⟨p, hp, hpe⟩ := hsub (elem intr k) ⟨k, hk, rfl⟩
  rw [← hke] at hpe
  unfold elem at hpe
  have : dom.stride * ((p0 + k : Nat) : Int) = dom.stride * p := by omega
  have := mul_left_cancel₀ (by omega) this
  omega

example : Fits ⟨3, 2, 6⟩ ∧ Fits ⟨7, 2, 3⟩ ∧ subsetFromIntr ⟨3, 2, 6⟩ ⟨7, 2, 3⟩ = ⟨2, 1, 3⟩ :=
  ⟨fits_of_ends (by decide) (by decide) (by decide) (by decide) (by decide),
   fits_of_ends (by decide) (by decide) (by decide) (by decide) (by decide), by decide⟩

end Verif.Props
