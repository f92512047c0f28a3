import Verif.DomainN.Model
import Verif.Domain.Props
import Mathlib.Data.List.Forall2
/-!
C98: domains of several dimensions.  The specification is the set of multi-dimensional indices (`MemN`), the lengths, and integer arithmetic.
-/
namespace Verif.Props
open Verif Verif.Spec Verif.DomN

/-! ## Conformance -/

/-- **C98 (element conformance).** Two domains of the same number of dimensions conform exactly if their lengths agree in every dimension; then they
have the same size. -/
theorem C98_conformant : ∀ (a b : List Dom), a.length = b.length →
    (conformantN a b = true ↔ a.map Dom.length = b.map Dom.length) ∧ (conformantN a b = true → sizeN a = sizeN b)
  | [], [], _ => by simp [conformantN, vecPred]
  | [], _ :: _, h => by simp at h
  | _ :: _, [], h => by simp at h
  | x :: xs, y :: ys, h => by
    have ih := C98_conformant xs ys (by simpa using h)
    have e : conformantN (x :: xs) (y :: ys) = (x.elementConformant y && conformantN xs ys) := rfl
    refine ⟨?_, fun hc => ?_⟩
    · rw [e, Bool.and_eq_true, ih.1]
      simp [Dom.elementConformant]
    · rw [e, Bool.and_eq_true] at hc
      have h1 : x.length = y.length := by simpa [Dom.elementConformant] using hc.1
      have h2 := ih.2 hc.2
      have h3 : xs.length = ys.length := by simpa using h
      cases xs with
      | nil => cases ys with
        | nil => simp [sizeN, h1]
        | cons => simp at h3
      | cons => cases ys with
        | nil => simp at h3
        | cons => simp only [sizeN] at h2 ⊢; rw [h1, h2]
example : conformantN [⟨0, 1, 4⟩, ⟨9, -1, 5⟩] [⟨3, 2, 4⟩, ⟨0, 1, 5⟩] = true ∧ conformantN [⟨0, 1, 4⟩, ⟨0, 1, 5⟩] [⟨0, 1, 5⟩, ⟨0, 1, 4⟩] = false := by decide

/-- **C98 (product conformance).** A domain is product conformant with a matrix's exactly if it is a matrix's too and has as many columns as the
other has rows. -/
theorem C98_product (a b : List Dom) (hb : b.length = 2) :
    productConformant a b = true ↔ ∃ m n p, a.map Dom.length = [m, n] ∧ b.map Dom.length = [n, p] := by
  match b, hb with
  | [l, r], _ =>
    match a with
    | [] => simp [productConformant]
    | [_] => simp [productConformant]
    | [x, k] =>
      simp only [productConformant, beq_iff_eq, List.map_cons, List.map_nil, List.cons.injEq, and_true]
      constructor
      · intro h; exact ⟨_, _, _, ⟨rfl, h⟩, rfl, rfl⟩
      · rintro ⟨m, n, p, ⟨-, h1⟩, h2, -⟩; rw [h1, h2]
    | _ :: _ :: _ :: _ => simp [productConformant]
example : productConformant [⟨0, 1, 2⟩, ⟨0, 1, 3⟩] [⟨5, -1, 3⟩, ⟨0, 1, 7⟩] = true ∧
    productConformant [⟨0, 1, 2⟩, ⟨0, 1, 3⟩] [⟨0, 1, 7⟩, ⟨5, -1, 3⟩] = false := by decide

/-! ## Sizes -/

/-- **C98, partial (sizes).** The size is the product of the lengths, if that is below 2^64 and no length is 0. Missing: larger domains, for which
it is false (`C98_size_false`). -/
theorem C98_size_partial : ∀ (a : List Dom), (∀ d ∈ a, 0 < d.length) → (a.map Dom.length).prod < W₆₄ → sizeN a = (a.map Dom.length).prod
  | [], _, _ => rfl
  | [d], _, _ => by simp [sizeN]
  | d :: e :: ds, h0, h => by
    have hd := h0 d (by simp)
    have e1 : ((d :: e :: ds).map Dom.length).prod = d.length * ((e :: ds).map Dom.length).prod := by simp
    rw [e1] at h
    have hl : ((e :: ds).map Dom.length).prod < W₆₄ := lt_of_le_of_lt (Nat.le_mul_of_pos_left _ hd) h
    have ih := C98_size_partial (e :: ds) (fun x hx => h0 x (by simp [hx])) hl
    have e2 : sizeN (d :: e :: ds) = d.length * sizeN (e :: ds) % W₆₄ := rfl
    rw [e2, ih, e1, Nat.mod_eq_of_lt h]
example : (∀ d ∈ [(⟨3, 2, 4⟩ : Dom), ⟨0, 1, 5⟩, ⟨0, 0, 2⟩], 0 < d.length) ∧ sizeN [⟨3, 2, 4⟩, ⟨0, 1, 5⟩, ⟨0, 0, 2⟩] = 40 := by decide

/-- **C98 is false (sizes).** A domain of 2^32 rows and 2^32 columns is not empty and has size 0. -/
theorem C98_size_false : sizeN [⟨0, 1, 4294967296⟩, ⟨0, 1, 4294967296⟩] = 0 ∧ MemN [0, 0] [⟨0, 1, 4294967296⟩, ⟨0, 1, 4294967296⟩] := by
  refine ⟨by decide, ⟨0, by decide, by decide⟩, ⟨0, by decide, by decide⟩, trivial⟩

/-! ## Equality -/

theorem dn_toIdx_congr {x y : Int} (h : x % (W₆₄ : Int) = y % (W₆₄ : Int)) : toIdx x = toIdx y := by unfold toIdx; rw [h]

theorem dn_toIdx_mod (x : Int) : ((toIdx x : Nat) : Int) % (W₆₄ : Int) = x % (W₆₄ : Int) := by
  unfold toIdx
  rw [Int.toNat_of_nonneg (Int.emod_nonneg _ (by decide)), Int.emod_emod_of_dvd _ (dvd_refl _)]

theorem dn_toIdx_self {n : Nat} (h : n < W₆₄) : toIdx (n : Int) = n := toIdx_nat h

/-- the other end of a domain, as computed by `impl_equals` -/
theorem dn_other {a b : Dom} {s : Int} (hb : b.first < W₆₄) (h : a.first = toIdx ((b.first : Int) + s)) : b.first = toIdx ((a.first : Int) + -s) := by
  rw [h, ← dn_toIdx_self hb, dn_toIdx_self hb]
  have : toIdx ((toIdx ((b.first : Int) + s) : Int) + -s) = toIdx (b.first : Int) := by
    apply dn_toIdx_congr
    rw [Int.add_emod, dn_toIdx_mod, ← Int.add_emod]
    congr 1; omega
  rw [this, dn_toIdx_self hb]

theorem dn_symm {a b : Dom} (hb : b.first < W₆₄) (h : a.equals b = true) : b.equals a = true := by
  unfold Dom.equals at h ⊢
  simp only [Bool.and_eq_true, Bool.or_eq_true, beq_iff_eq] at h ⊢
  obtain ⟨hl, ⟨h1, h2⟩ | ⟨h1, h2⟩⟩ := h
  · exact ⟨hl.symm, .inl ⟨h1.symm, h2.symm⟩⟩
  · refine ⟨hl.symm, .inr ⟨by omega, ?_⟩⟩
    have := dn_other hb h2
    rw [hl, h1, Int.mul_neg]
    exact this

theorem dn_trans {a b c : Dom} (hc : c.first < W₆₄) (h : a.equals b = true) (h' : b.equals c = true) : a.equals c = true := by
  unfold Dom.equals at h h' ⊢
  simp only [Bool.and_eq_true, Bool.or_eq_true, beq_iff_eq] at h h' ⊢
  obtain ⟨hl, ⟨h1, h2⟩ | ⟨h1, h2⟩⟩ := h <;> obtain ⟨hl', ⟨h3, h4⟩ | ⟨h3, h4⟩⟩ := h'
  · exact ⟨hl.trans hl', .inl ⟨h1.trans h3, h2.trans h4⟩⟩
  · exact ⟨hl.trans hl', .inr ⟨h1.trans h3, h2.trans h4⟩⟩
  · refine ⟨hl.trans hl', .inr ⟨by omega, ?_⟩⟩
    rw [h2, h4, hl', h3]
  · refine ⟨hl.trans hl', .inl ⟨by omega, ?_⟩⟩
    have := dn_other hc h4
    rw [h2, hl', h3, Int.mul_neg]
    exact this.symm

/-- **C98 (an equivalence).** Equality of domains whose first indices are `size_t`s is reflexive, symmetric and transitive, and `!=` is its negation. -/
theorem C98_equivalence : (∀ a, equalsN a a = true) ∧
    (∀ a b, a.length = b.length → (∀ d ∈ b, d.first < W₆₄) → equalsN a b = true → equalsN b a = true) ∧
    (∀ a b c, a.length = b.length → b.length = c.length → (∀ d ∈ c, d.first < W₆₄) → equalsN a b = true → equalsN b c = true → equalsN a c = true) ∧
    ∀ a b, differN a b = true ↔ ¬ equalsN a b = true := by
  refine ⟨fun a => ?_, fun a => ?_, fun a => ?_, fun a b => by simp [differN]⟩
  · induction a with
    | nil => rfl
    | cons x xs ih =>
      show (x.equals x && equalsN xs xs) = true
      rw [ih]; simp [Dom.equals]
  · induction a with
    | nil => intro b h; cases b with
      | nil => intros; rfl
      | cons => simp at h
    | cons x xs ih =>
      intro b h hb he
      cases b with
      | nil => simp at h
      | cons y ys =>
        have he : (x.equals y && equalsN xs ys) = true := he
        rw [Bool.and_eq_true] at he
        show (y.equals x && equalsN ys xs) = true
        rw [Bool.and_eq_true]
        exact ⟨dn_symm (hb y (by simp)) he.1, ih ys (by simpa using h) (fun d hd => hb d (by simp [hd])) he.2⟩
  · induction a with
    | nil => intro b c h h'; cases b with
      | nil => cases c with
        | nil => intros; rfl
        | cons => simp at h'
      | cons => simp at h
    | cons x xs ih =>
      intro b c h h' hc he he'
      cases b with
      | nil => simp at h
      | cons y ys => cases c with
        | nil => simp at h'
        | cons z zs =>
          have he : (x.equals y && equalsN xs ys) = true := he
          have he' : (y.equals z && equalsN ys zs) = true := he'
          rw [Bool.and_eq_true] at he he'
          show (x.equals z && equalsN xs zs) = true
          rw [Bool.and_eq_true]
          exact ⟨dn_trans (hc z (by simp)) he.1 he'.1,
            ih ys zs (by simpa using h) (by simpa using h') (fun d hd => hc d (by simp [hd])) he.2 he'.2⟩
example : equalsN [⟨0, 1, 4⟩, ⟨9, -2, 5⟩] [⟨3, -1, 4⟩, ⟨1, 2, 5⟩] = true ∧ equalsN [⟨0, 1, 4⟩, ⟨9, -2, 5⟩] [⟨3, -1, 4⟩, ⟨1, -2, 5⟩] = false := by decide

/-- **C98 (equal domains have the same indices).** -/
theorem C98_equal_sound : ∀ (a b : List Dom), a.length = b.length → (∀ d ∈ a, Fits d) → (∀ d ∈ b, Fits d) → equalsN a b = true →
    ∀ zs, MemN zs a ↔ MemN zs b
  | [], [], _, _, _, _, _ => Iff.rfl
  | [], _ :: _, h, _, _, _, _ => by simp at h
  | _ :: _, [], h, _, _, _, _ => by simp at h
  | x :: xs, y :: ys, h, ha, hb, he, zs => by
    have he : (x.equals y && equalsN xs ys) = true := he
    rw [Bool.and_eq_true] at he
    cases zs with
    | nil => exact Iff.rfl
    | cons z zs =>
      have h1 := C02_sound x y (ha x (by simp)) (hb y (by simp)) he.1 z
      have h2 := C98_equal_sound xs ys (by simpa using h) (fun d hd => ha d (by simp [hd])) (fun d hd => hb d (by simp [hd])) he.2 zs
      simp only [MemN, h1, h2]

theorem dn_first_mem : ∀ (a : List Dom), (∀ d ∈ a, 2 ≤ d.length) → ∃ zs, MemN zs a
  | [], _ => ⟨[], trivial⟩
  | d :: ds, h => by
    obtain ⟨zs, hz⟩ := dn_first_mem ds fun e he => h e (by simp [he])
    exact ⟨elem d 0 :: zs, ⟨0, by have := h d (by simp); omega, rfl⟩, hz⟩

/-- **C98, partial (domains with the same indices are equal).** Proved for domains with at least two distinct indices in every dimension. Missing:
dimensions with one index (`C02_false`) and empty domains (`C98_equal_empty_false`), for which it is false. -/
theorem C98_equal_complete_partial : ∀ (a b : List Dom), a.length = b.length → (∀ d ∈ b, Fits d) → (∀ d ∈ a, 2 ≤ d.length ∧ d.stride ≠ 0) →
    (∀ d ∈ b, 2 ≤ d.length ∧ d.stride ≠ 0) → (∀ zs, MemN zs a ↔ MemN zs b) → equalsN a b = true
  | [], [], _, _, _, _, _ => rfl
  | [], _ :: _, h, _, _, _, _ => by simp at h
  | _ :: _, [], h, _, _, _, _ => by simp at h
  | x :: xs, y :: ys, h, hb, h1, h2, hm => by
    obtain ⟨ws, hws⟩ := dn_first_mem xs fun d hd => (h1 d (by simp [hd])).1
    have hx0 : Mem (elem x 0) x := ⟨0, by have := (h1 x (by simp)).1; omega, rfl⟩
    have hwy : MemN ws ys := ((hm (elem x 0 :: ws)).1 ⟨hx0, hws⟩).2
    have hy : Mem (elem x 0) y := ((hm (elem x 0 :: ws)).1 ⟨hx0, hws⟩).1
    have e1 : x.equals y = true := by
      refine C02_complete_partial x y (hb y (by simp)) (h1 x (by simp)).1 (h1 x (by simp)).2 (h2 y (by simp)).2 fun z => ?_
      exact ⟨fun hz => ((hm (z :: ws)).1 ⟨hz, hws⟩).1, fun hz => ((hm (z :: ws)).2 ⟨hz, hwy⟩).1⟩
    have e2 : equalsN xs ys = true := by
      refine C98_equal_complete_partial xs ys (by simpa using h) (fun d hd => hb d (by simp [hd])) (fun d hd => h1 d (by simp [hd]))
        (fun d hd => h2 d (by simp [hd])) fun zs => ?_
      exact ⟨fun hz => ((hm (elem x 0 :: zs)).1 ⟨hx0, hz⟩).2, fun hz => ((hm (elem x 0 :: zs)).2 ⟨hy, hz⟩).2⟩
    show (x.equals y && equalsN xs ys) = true
    rw [e1, e2]; rfl

/-- **C98 is false (empty domains).** "Two domains are equal if and only if they contain exactly the same indices" (l.458-461): a domain of no rows and 3
columns and one of no rows and 4 columns contain none, and are not equal. -/
theorem C98_equal_empty_false : equalsN [⟨0, 1, 0⟩, ⟨0, 1, 3⟩] [⟨0, 1, 0⟩, ⟨0, 1, 4⟩] = false ∧
    ∀ zs, MemN zs [⟨0, 1, 0⟩, ⟨0, 1, 3⟩] ↔ MemN zs [⟨0, 1, 0⟩, ⟨0, 1, 4⟩] := by
  refine ⟨by decide, fun zs => ?_⟩
  cases zs with
  | nil => exact Iff.rfl
  | cons z zs =>
    have : ¬ Mem z ⟨0, 1, 0⟩ := by rintro ⟨i, hi, -⟩; simp at hi
    simp [MemN, this]

/-! ## Arithmetic -/

/-- **C98 (shifts respect equality).** Adding or subtracting the same number, whatever wraps, takes equal domains to equal domains. -/
theorem C98_shift_equal (s : Int) : ∀ (a b : List Dom), equalsN a b = true → equalsN (addN a s) (addN b s) = true ∧ equalsN (subN a s) (subN b s) = true := by
  have one : ∀ (s : Int) (x y : Dom), x.equals y = true → (x.addIn s).equals (y.addIn s) = true := by
    intro s x y h
    unfold Dom.equals at h ⊢
    simp only [Bool.and_eq_true, Bool.or_eq_true, beq_iff_eq, Dom.addIn] at h ⊢
    obtain ⟨hl, ⟨h1, h2⟩ | ⟨h1, h2⟩⟩ := h
    · exact ⟨hl, .inl ⟨h1, by rw [h2]⟩⟩
    · refine ⟨hl, .inr ⟨h1, ?_⟩⟩
      rw [h2]
      apply dn_toIdx_congr
      rw [Int.add_emod, dn_toIdx_mod, ← Int.add_emod, Int.add_emod (toIdx _ : Int), dn_toIdx_mod, ← Int.add_emod]
      congr 1; omega
  have sub : ∀ (s : Int) (x : Dom), x.subOut s = x.addIn (-s) := fun s x => by simp [Dom.subOut, Dom.addIn, Int.sub_eq_add_neg]
  intro a
  induction a with
  | nil => intro b _; exact ⟨rfl, rfl⟩
  | cons x xs ih =>
    intro b h
    cases b with
    | nil => exact ⟨rfl, rfl⟩
    | cons y ys =>
      have h : (x.equals y && equalsN xs ys) = true := h
      rw [Bool.and_eq_true] at h
      have := ih ys h.2
      constructor
      · show ((x.addIn s).equals (y.addIn s) && equalsN (addN xs s) (addN ys s)) = true
        rw [one s x y h.1, this.1]; rfl
      · show ((x.subOut s).equals (y.subOut s) && equalsN (subN xs s) (subN ys s)) = true
        rw [sub, sub, one (-s) x y h.1, this.2]; rfl

/-- **C98 (shifts).** A shifted domain contains the shifted indices and no others, if the first indices stay in range; subtracting what was added
gives the domain back even when they wrap. -/
theorem C98_shift (s : Int) : ∀ (a : List Dom), ((∀ d ∈ a, 0 ≤ (d.first : Int) + s ∧ (d.first : Int) + s < W₆₄) →
      ∀ zs, MemN (zs.map (· + s)) (addN a s) ↔ MemN zs a) ∧
    ((∀ d ∈ a, d.first < W₆₄) → subN (addN a s) s = a)
  | [] => by
    refine ⟨fun _ zs => ?_, fun _ => rfl⟩
    cases zs <;> exact Iff.rfl
  | d :: ds => by
    have ih := C98_shift s ds
    refine ⟨fun h zs => ?_, fun h => ?_⟩
    · cases zs with
      | nil => exact Iff.rfl
      | cons z zs =>
        have h1 := h d (by simp)
        have hf := toIdx_of_fits h1.1 h1.2
        have hm : Mem (z + s) (d.addIn s) ↔ Mem z d := by
          unfold Mem elem
          simp only [Dom.addIn, hf]
          exact ⟨fun ⟨i, hi, e⟩ => ⟨i, hi, by omega⟩, fun ⟨i, hi, e⟩ => ⟨i, hi, by omega⟩⟩
        show Mem (z + s) (d.addIn s) ∧ MemN (zs.map (· + s)) (addN ds s) ↔ Mem z d ∧ MemN zs ds
        rw [hm, ih.1 (fun e he => h e (by simp [he])) zs]
    · show (d.addIn s).subOut s :: subN (addN ds s) s = d :: ds
      rw [ih.2 fun e he => h e (by simp [he])]
      have hd := h d (by simp)
      have : (d.addIn s).subOut s = d := by
        simp only [Dom.addIn, Dom.subOut]
        have e : toIdx ((toIdx ((d.first : Int) + s) : Int) - s) = d.first := by
          rw [Int.sub_eq_add_neg]
          exact (dn_other (a := ⟨toIdx ((d.first : Int) + s), 0, 0⟩) hd rfl).symm
        rw [e]
      rw [this]
example : addN [⟨3, 2, 4⟩, ⟨9, -1, 5⟩] (-3) = [⟨0, 2, 4⟩, ⟨6, -1, 5⟩] ∧ subN (addN [⟨3, 2, 4⟩] (-5)) (-5) = [⟨3, 2, 4⟩] := by decide

/-- **C98, partial (products).** Multiplying by a number whose product with every stride fits multiplies the strides and keeps the first indices and
the lengths, in every dimension. Missing: equal domains need not have equal products (`C98_product_equal_false`). -/
theorem C98_mul_partial (s : Nat) : ∀ (a : List Dom), (∀ d ∈ a, FitsSigned (d.stride * s)) →
    mulN a s = a.map fun d => ⟨d.first, d.stride * s, d.length⟩
  | [], _ => rfl
  | d :: ds, h => by
    show d.mulBy s :: mulN ds s = _
    rw [C98_mul_partial s ds fun e he => h e (by simp [he]), List.map_cons]
    congr 1
    have hd := h d (by simp)
    have e : toIdx d.stride * s % W₆₄ = toIdx (d.stride * s) := by
      have : ((toIdx d.stride * s % W₆₄ : Nat) : Int) = (toIdx (d.stride * s) : Int) := by
        rw [Int.natCast_emod, Int.natCast_mul]
        have h1 : ((toIdx (d.stride * s) : Nat) : Int) = d.stride * s % (W₆₄ : Int) := by
          unfold toIdx; rw [Int.toNat_of_nonneg (Int.emod_nonneg _ (by decide))]
        rw [h1, Int.mul_emod, dn_toIdx_mod, ← Int.mul_emod]
      exact_mod_cast this
    have e2 : toSigned (toIdx d.stride * s) = toSigned (toIdx (d.stride * s)) := by
      unfold toSigned
      rw [e, Nat.mod_eq_of_lt (toIdx_lt _)]
    unfold Dom.mulBy
    rw [e2, toSigned_toIdx hd]
example : mulN [⟨3, 2, 4⟩, ⟨9, -1, 5⟩] 3 = [⟨3, 6, 4⟩, ⟨9, -3, 5⟩] := by decide

/-- **C98 is false (products of equal domains).** A domain from 0 to 2 and one from 2 down to 0 are equal; twice the one ends at 4, twice the other
would begin at 2 and end below 0: products and quotients of equal domains need not be equal. -/
theorem C98_product_equal_false : equalsN [⟨0, 1, 3⟩] [⟨2, -1, 3⟩] = true ∧ equalsN (mulN [⟨0, 1, 3⟩] 2) (mulN [⟨2, -1, 3⟩] 2) = false ∧
    (mulN [⟨0, 1, 3⟩] 2).map elems = [[0, 2, 4]] ∧ (mulN [⟨2, -1, 3⟩] 2).map elems = [[2, 0, -2]] ∧
    equalsN [⟨0, 2, 3⟩] [⟨4, -2, 3⟩] = true ∧ divN [⟨0, 2, 3⟩] 2 = some [⟨0, 1, 3⟩] ∧
    (divN [⟨4, -2, 3⟩] 2).map (equalsN [⟨0, 1, 3⟩]) = some false := by
  decide

/-- **C98, partial (quotients).** Dividing what was multiplied gives the domain back if no stride is negative and the products fit; dividing by 0 is
undefined. Missing: negative strides (`C01_div_neg_false`). -/
theorem C98_div_partial (s : Nat) (hs : 0 < s) : ∀ (a : List Dom), (∀ d ∈ a, 0 ≤ d.stride ∧ FitsSigned (d.stride * s)) →
    divN (mulN a s) s = some a
  | [], _ => rfl
  | d :: ds, h => by
    have ih := C98_div_partial s hs ds fun e he => h e (by simp [he])
    have e := C98_mul_partial s (d :: ds) fun e he => (h e he).2
    have e' := C98_mul_partial s ds fun e he => (h e (by simp [he])).2
    rw [e'] at ih
    rw [e, List.map_cons]
    unfold divN at ih ⊢
    rw [List.mapM_cons, ih]
    obtain ⟨h0, h1⟩ := h d (by simp)
    have hp : 0 ≤ d.stride * s := by positivity
    have hx : toIdx (d.stride * s) / s = d.stride.toNat := by
      have hx1 : (toIdx (d.stride * s) : Int) = d.stride * s := toIdx_of_fits hp (by have := h1.2; omega)
      have hx2 : toIdx (d.stride * s) = d.stride.toNat * s := by
        have : ((d.stride.toNat * s : Nat) : Int) = d.stride * s := by rw [Int.natCast_mul, Int.toNat_of_nonneg h0]
        exact_mod_cast hx1.trans this.symm
      rw [hx2, Nat.mul_div_cancel _ hs]
    have hd : d.stride.toNat < W₆₃ := by
      have h2 : d.stride ≤ d.stride * s := by
        have : (1 : Int) ≤ s := by omega
        nlinarith
      have := h1.2
      omega
    have : Dom.divBy? ⟨d.first, d.stride * s, d.length⟩ s = some d := by
      unfold Dom.divBy?
      rw [if_neg (by omega), hx, toSigned_of_lt hd, Int.toNat_of_nonneg h0]
    rw [this]
    rfl
example : divN (mulN [⟨3, 2, 4⟩, ⟨9, 0, 5⟩] 3) 3 = some [⟨3, 2, 4⟩, ⟨9, 0, 5⟩] ∧ divN [⟨3, 2, 4⟩] 0 = none := by decide

end Verif.Props

#print axioms Verif.Props.C98_conformant
#print axioms Verif.Props.C98_product
#print axioms Verif.Props.C98_size_partial
#print axioms Verif.Props.C98_size_false
#print axioms Verif.Props.C98_equivalence
#print axioms Verif.Props.C98_equal_sound
#print axioms Verif.Props.C98_equal_complete_partial
#print axioms Verif.Props.C98_equal_empty_false
#print axioms Verif.Props.C98_shift_equal
#print axioms Verif.Props.C98_shift
#print axioms Verif.Props.C98_mul_partial
#print axioms Verif.Props.C98_product_equal_false
#print axioms Verif.Props.C98_div_partial
