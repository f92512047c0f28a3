import Verif.Fftw.Lines
import Verif.Fftw.Reference

/-!
# C67: transforms computed through FFTW
-/

namespace Verif.Fftw
open Verif Lay Dda

theorem exp_sign (S : Dir) : exponent S = S.sign := by cases S <;> rfl

theorem refl_turn {D : ℕ} (o : Fin D → Fin D) (n k : Fin D → ℕ) : (fun d => refl (fun e => n (o e)) k d) = fun d => (n (o d) - k d) % n (o d) := rfl

theorem herm_turn {D A : ℕ} (hD : D ≤ 2) (hA : A ≤ D) {n : Fin (D + 1) → ℕ} {X : (Fin (D + 1) → ℕ) → ℂ} (h : Herm n X) :
    Herm (fun e => n (order A e)) (fun j => X fun d => j (order A d)) := by
  intro k hk
  have hb : Box n fun d => k (order A d) := by
    intro d
    have := hk (order A d)
    simpa only [order_order hD hA] using this
  rw [← h _ hb]
  dsimp only
  congr 1
  funext d
  simp only [refl, order_order hD hA]

/-- A block without memory, for the examples. -/
def plain {D : ℕ} (s : Fin D → ℕ) (e : ℕ) (v : (Fin D → ℕ) → ℂ) : Blk D := ⟨s, e, none, v⟩

/-- A row-major matrix in memory with rows of 5 elements every 7, for the examples. -/
def strided (e : ℕ) (m : ℤ → ℂ) : Blk 2 := ⟨![3, 5], e, some ⟨64, ![7, 1], id, m⟩, fun _ => 0⟩

theorem strided_distinct (e : ℕ) (m : ℤ → ℂ) : Distinct (strided e m) := by
  intro st hst i j hi hj h
  simp only [strided, Option.some.injEq] at hst
  subst hst
  simp only [addr, Fin.sum_univ_two] at h
  have a0 := hi 0; have a1 := hi 1; have b0 := hj 0; have b1 := hj 1
  simp [strided] at a0 a1 b0 b1 h
  funext d
  fin_cases d
  · show i 0 = j 0; omega
  · show i 1 = j 1; omega

end Verif.Fftw

namespace Verif.Props
open Verif Lay Dda Fftw

/-- **C67.** Complex transforms out of place, in one, two and three dimensions: whatever the layout of the two blocks, the output block holds the
scaled transform of the input block, which is left as it was (partial: the array has less than 2^31 elements). -/
theorem C67_complex_partial {simd : ℤ} (F : Lib simd) {D : ℕ} (hD : D ≤ 2) (al sc number : ℕ) (S : Dir) (scale : ℝ) (bi bo : Blk (D + 1))
    (hs : Fits bi.size) (ho : bo.size = bi.size) (ibuf obuf : Buf) (hal : simd ∣ al) (hib : simd ∣ ibuf.ptr) (hob : simd ∣ obuf.ptr) :
    (∀ k, Box bi.size k → (outOfPlace F (fftC2C al sc number S bi.size) scale bi bo ibuf obuf).2 k = scale * dft bi.size S.sign bi.get k) ∧
    (outOfPlace F (fftC2C al sc number S bi.size) scale bi bo ibuf obuf).1 = bi.get := by
  set f := flagsFor (D + 1) al (2 * sc) (bi.size 0) number true with hf
  have hun : D ≠ 0 → f.unaligned = true := fun h => flags_un h
  have hid : (id : Fin (D + 1) → Fin (D + 1)) = order D := (order_id hD).symm
  refine ⟨fun k hk => ?_, ?_⟩
  · simp only [outOfPlace, fftC2C, ← hf, scaled_at, exp_sign]
    congr 1
    have hk' : Box bo.size k := by rw [ho]; exact hk
    simp only [hid]
    rw [out_mem hD le_rfl hun (by rw [ho]; exact hs) hk', order_id hD, ho,
      ← plan_addr (al := al) (sc := sc) hD hun hs]
    have := F.c2c (planC2C al sc bi.size S.sign f) S.sign (accessIn (query al f.unaligned (order D)) false ibuf bi).ptr
      (accessOut (query al f.unaligned (order D)) obuf bo).ptr (accessIn (query al f.unaligned (order D)) false ibuf bi).mem
      (accessOut (query al f.unaligned (order D)) obuf bo).mem rfl (ok_c2c hD hs S.sign f hun)
      (fun h => ⟨in_aligned hun hal hib h, out_aligned hun hal hob h⟩) k (by rw [size_c2c hD hs]; exact hk)
    rw [size_c2c hD hs, order_id hD] at this
    refine Eq.trans this (dft_congr (fun j hj => ?_) k)
    have hm := in_mem (al := al) hD le_rfl hun (force := false) (buf := ibuf) hs hj
    rw [order_id hD, ← plan_addr (al := al) (sc := sc) hD hun hs] at hm
    exact hm
  · simp only [outOfPlace, fftC2C, ← hf]
    exact in_kept _ fun _ => F.keep _ _ _ _ _ (Or.inr (by simp [planC2C]))

example (v : (Fin 3 → ℕ) → ℂ) (k : Fin 3 → ℕ) (hk : Box ![2, 3, 4] k) :
    (outOfPlace (reference 32) (fftC2C 32 8 0 .inv ![2, 3, 4]) (1 / 24) (plain ![2, 3, 4] 16 v) (plain ![2, 3, 4] 16 fun _ => 0) ⟨0, fun _ => 0⟩
      ⟨0, fun _ => 0⟩).2 k = ((1 / 24 : ℝ) : ℂ) * dft ![2, 3, 4] 1 v k :=
  (C67_complex_partial (reference 32) (by omega) 32 8 0 .inv _ (plain ![2, 3, 4] 16 v) (plain ![2, 3, 4] 16 fun _ => 0)
    (show Fits ![2, 3, 4] from ⟨by decide, by decide⟩) rfl _ _ (by decide) (by decide) (by decide)).1 k hk

/-- **C67.** Complex transforms in place (partial: the array has less than 2^31 elements). -/
theorem C67_in_place_partial {simd : ℤ} (F : Lib simd) {D : ℕ} (hD : D ≤ 2) (al sc number : ℕ) (S : Dir) (scale : ℝ) (b : Blk (D + 1))
    (hs : Fits b.size) (buf : Buf) (hal : simd ∣ al) (hb : simd ∣ buf.ptr) (k : Fin (D + 1) → ℕ) (hk : Box b.size k) :
    inPlace F (fftC2C al sc number S b.size) scale b buf k = scale * dft b.size S.sign b.get k := by
  set f := flagsFor (D + 1) al (2 * sc) (b.size 0) number true with hf
  have hun : D ≠ 0 → f.unaligned = true := fun h => flags_un h
  have hid : (id : Fin (D + 1) → Fin (D + 1)) = order D := (order_id hD).symm
  simp only [inPlace, fftC2C, ← hf, scaled_at, exp_sign]
  congr 1
  simp only [hid]
  rw [inout_mem hD le_rfl hun hs hk, order_id hD, ← plan_addr (al := al) (sc := sc) hD hun hs]
  have := (F.ip (planC2C al sc b.size S.sign f) S.sign (accessIn (query al f.unaligned (order D)) false buf b).ptr
    (accessIn (query al f.unaligned (order D)) false buf b).mem rfl (ok_c2c hD hs S.sign f hun) rfl
    (fun h => in_aligned hun hal hb h)).1 k (by rw [size_c2c hD hs]; exact hk)
  rw [size_c2c hD hs, order_id hD] at this
  refine Eq.trans this (dft_congr (fun j hj => ?_) k)
  have hm := in_mem (al := al) hD le_rfl hun (force := false) (buf := buf) hs hj
  rw [order_id hD, ← plan_addr (al := al) (sc := sc) hD hun hs] at hm
  exact hm

example (m : ℤ → ℂ) (k : Fin 2 → ℕ) (hk : Box ![3, 5] k) :
    inPlace (reference 32) (fftC2C 32 4 1 .fwd ![3, 5]) 1 (strided 8 m) ⟨64, fun _ => 0⟩ k = ((1 : ℝ) : ℂ) * dft ![3, 5] (-1) (strided 8 m).get k :=
  C67_in_place_partial (reference 32) (by omega) 32 4 1 .fwd _ (strided 8 m) (show Fits ![3, 5] from ⟨by decide, by decide⟩) _ (by decide) (by decide) k hk

/-- **C67.** Real to complex transforms along any axis `A`: the output block, halved along `A`, holds the scaled forward transform of the real
values of the input block, which is left as it was (partial: the array has less than 2^31 elements). -/
theorem C67_real_forward_partial {simd : ℤ} (F : Lib simd) {D A : ℕ} (hD : D ≤ 2) (hA : A ≤ D) (al sc number : ℕ) (scale : ℝ) (bi bo : Blk (D + 1))
    (hs : Fits bi.size) (ho : bo.size = half ⟨A, by omega⟩ bi.size) (x : (Fin (D + 1) → ℕ) → ℝ) (hx : ∀ i, Box bi.size i → bi.get i = x i)
    (ibuf obuf : Buf) (hal : simd ∣ al) (hib : simd ∣ ibuf.ptr) (hob : simd ∣ obuf.ptr) :
    (∀ k, Box bo.size k → (outOfPlace F (fftR2C al sc number A bi.size) scale bi bo ibuf obuf).2 k = scale * dft bi.size (-1) (fun i => x i) k) ∧
    (outOfPlace F (fftR2C al sc number A bi.size) scale bi bo ibuf obuf).1 = bi.get := by
  set f := flagsFor (D + 1) al sc (bi.size 0) number true with hf
  have hun : D ≠ 0 → f.unaligned = true := fun h => flags_un h
  refine ⟨fun k hk => ?_, ?_⟩
  · simp only [outOfPlace, fftR2C, ← hf, scaled_at]
    congr 1
    have hso : Fits bo.size := by rw [ho]; exact hs.half _
    rw [out_mem hD hA hun hso hk, ← lin_turn hD bo.size, ← plan_addr (al := al) (sc := sc) hD hun (hso.turn hD hA), ho, ← iosize_turn hD hA]
    have := F.r2c (planR2C al sc bi.size A f) (accessIn (query al f.unaligned (order A)) false ibuf bi).ptr
      (accessOut (query al f.unaligned (order A)) obuf bo).ptr (accessIn (query al f.unaligned (order A)) false ibuf bi).mem
      (accessOut (query al f.unaligned (order A)) obuf bo).mem rfl (ok_r2c hD hA hs f hun)
      (fun h => ⟨in_aligned hun hal hib h, out_aligned hun hal hob h⟩) (fun e => k (order A e)) (by
        have e : (planR2C al sc bi.size A f).outSize = iosize (planR2C al sc bi.size A f).size := rfl
        rw [e, size_r2c hD hA hs, iosize_order hD hA, ← ho]
        exact (box_turn hD hA).2 hk)
    refine Eq.trans this ?_
    rw [size_r2c hD hA hs, ← dft_turn (order_order hD hA) bi.size]
    refine dft_congr (fun j hj => ?_) _
    have hj' : Box bi.size fun d => j (order A d) := by
      intro d
      have := hj (order A d)
      simpa only [order_order hD hA] using this
    have hm := in_mem (al := al) hD hA hun (force := false) (buf := ibuf) hs hj'
    rw [← lin_turn hD bi.size, ← plan_addr (al := al) (sc := sc) hD hun (hs.turn hD hA), ← turn_eq hD hA] at hm
    simp only [order_order hD hA] at hm
    have e : (planR2C al sc bi.size A f).is = fun d => int32 ((applied (D + 1) (planLayout al f.unaligned) (turn A bi.size) sc).stride d) := rfl
    rw [e, hm, hx _ hj', Complex.ofReal_re]
  · simp only [outOfPlace, fftR2C, ← hf]
    exact in_kept _ fun _ => F.keep _ _ _ _ _ (Or.inr (by simp [planR2C]))

example (x : (Fin 2 → ℕ) → ℝ) (k : Fin 2 → ℕ) (hk : Box ![2, 5] k) :
    (outOfPlace (reference 32) (fftR2C 32 4 20 0 ![3, 5]) 2 (plain ![3, 5] 4 fun i => x i) (plain ![2, 5] 8 fun _ => 0) ⟨0, fun _ => 0⟩
      ⟨0, fun _ => 0⟩).2 k = ((2 : ℝ) : ℂ) * dft ![3, 5] (-1) (fun i => (x i : ℂ)) k :=
  (C67_real_forward_partial (reference 32) (A := 0) (by omega) (by omega) 32 4 20 _ (plain ![3, 5] 4 fun i => x i) (plain ![2, 5] 8 fun _ => 0)
    (show Fits ![3, 5] from ⟨by decide, by decide⟩) (show ![2, 5] = half 0 ![3, 5] by decide) x (fun _ _ => rfl) _ _ (by decide) (by decide) (by decide)).1 k hk

/-- **C67.** Complex to real transforms along any axis `A`: if the input block holds the half along `A` of a Hermitian spectrum `X`, the output block
holds the scaled inverse transform of all of `X`; the input block is left as it was although FFTW may overwrite its input in two and three
dimensions (partial: the array has less than 2^31 elements). -/
theorem C67_real_inverse_partial {simd : ℤ} (F : Lib simd) {D A : ℕ} (hD : D ≤ 2) (hA : A ≤ D) (al sc number : ℕ) (scale : ℝ) (bi bo : Blk (D + 1))
    (hs : Fits bo.size) (hi : bi.size = half ⟨A, by omega⟩ bo.size) (X : (Fin (D + 1) → ℕ) → ℂ) (hX : Herm bo.size X)
    (hx : ∀ k, Box bi.size k → bi.get k = X k)
    (ibuf obuf : Buf) (hal : simd ∣ al) (hib : simd ∣ ibuf.ptr) (hob : simd ∣ obuf.ptr) :
    (∀ j, Box bo.size j → (outOfPlace F (fftC2R al sc number A bo.size) scale bi bo ibuf obuf).2 j = scale * dft bo.size 1 X j) ∧
    (outOfPlace F (fftC2R al sc number A bo.size) scale bi bo ibuf obuf).1 = bi.get := by
  set f := flagsFor (D + 1) al sc (bo.size 0) number false with hf
  have hun : D ≠ 0 → f.unaligned = true := fun h => flags_un h
  have hsi : Fits bi.size := by rw [hi]; exact hs.half _
  refine ⟨fun j hj => ?_, ?_⟩
  · simp only [outOfPlace, fftC2R, ← hf, scaled_at]
    congr 1
    rw [out_mem hD hA hun hs hj, ← lin_turn hD bo.size, ← plan_addr (al := al) (sc := sc) hD hun (hs.turn hD hA), ← turn_eq hD hA]
    have := F.c2r (planC2R al sc bo.size A f) (accessIn (query al f.unaligned (order A)) (decide (D + 1 ≠ 1)) ibuf bi).ptr
      (accessOut (query al f.unaligned (order A)) obuf bo).ptr (accessIn (query al f.unaligned (order A)) (decide (D + 1 ≠ 1)) ibuf bi).mem
      (accessOut (query al f.unaligned (order A)) obuf bo).mem (fun j => X fun d => j (order A d)) rfl (ok_c2r hD hA hs f hun)
      (fun h => ⟨in_aligned hun hal hib h, out_aligned hun hal hob h⟩) (by rw [size_c2r hD hA hs]; exact herm_turn hD hA hX) (by
        intro k hk
        rw [size_c2r hD hA hs, iosize_order hD hA, ← hi] at hk
        have hk' : Box bi.size fun d => k (order A d) := by
          intro d
          have := hk (order A d)
          simpa only [order_order hD hA] using this
        have hm := in_mem (al := al) hD hA hun (force := decide (D + 1 ≠ 1)) (buf := ibuf) hsi hk'
        rw [← lin_turn hD bi.size, ← plan_addr (al := al) (sc := sc) hD hun (hsi.turn hD hA), hi, ← iosize_turn hD hA] at hm
        simp only [order_order hD hA] at hm
        have e : (planC2R al sc bo.size A f).is =
          fun d => int32 ((applied (D + 1) (planLayout al f.unaligned) (iosize (turn A bo.size)) sc).stride d) := rfl
        rw [e, hm, hx _ hk'])
      (fun e => j (order A e)) (by rw [size_c2r hD hA hs]; exact (box_turn hD hA).2 hj)
    refine Eq.trans this ?_
    rw [size_c2r hD hA hs]
    exact dft_turn (order_order hD hA) bo.size 1 X j
  · simp only [outOfPlace, fftC2R, ← hf]
    refine in_kept _ fun hd => F.keep _ _ _ _ _ (Or.inl ?_)
    by_cases h0 : D = 0
    · subst h0
      rfl
    · exfalso
      have : decide (D + 1 ≠ 1) = true := by simpa using h0
      rw [this] at hd
      unfold direct at hd
      cases hst : bi.store with
      | none => rw [hst] at hd; simp at hd
      | some st => rw [hst] at hd; simp at hd

example (j : Fin 1 → ℕ) (hj : Box ![4] j) :
    (outOfPlace (reference 32) (fftC2R 32 4 1 0 ![4]) 1 (plain ![3] 8 fun _ => 1) (plain ![4] 4 fun _ => 0) ⟨0, fun _ => 0⟩
      ⟨0, fun _ => 0⟩).2 j = ((1 : ℝ) : ℂ) * dft ![4] 1 (fun _ => 1) j :=
  (C67_real_inverse_partial (reference 32) (D := 0) (A := 0) (by omega) (by omega) 32 4 1 _ (plain ![3] 8 fun _ => 1) (plain ![4] 4 fun _ => 0)
    ⟨by decide, by decide⟩ (by decide) (fun _ => 1) (fun _ _ => by simp) (fun _ _ => rfl) _ _ (by decide) (by decide) (by decide)).1 j hj

end Verif.Props

/-! ## Rows or columns -/

namespace Verif.Fftw
open Verif Lay Dda

theorem vec1 (n : ℕ) : (![n] : Fin 1 → ℕ) = fun _ => n := by funext d; rw [Subsingleton.elim d 0]; rfl

theorem fits1 {n : ℕ} (h0 : 0 < n) (h1 : n < 2 ^ 31) : Fits (![n] : Fin (0 + 1) → ℕ) := ⟨fun d => by rw [Subsingleton.elim d 0]; exact h0, by simpa using h1⟩

theorem stride1 {al sc : ℕ} {un : Bool} (s : Fin 1 → ℕ) (d : Fin 1) : int32 ((applied 1 (planLayout al un) s sc).stride d) = 1 := by
  rw [Subsingleton.elim d 0]
  exact int32_small (n := 1) (by norm_num)

theorem strides_c2c {al sc n : ℕ} {S : ℤ} {f : Flags} : (∀ d, (planC2C al sc ![n] S f).is d = 1) ∧ ∀ d, (planC2C al sc ![n] S f).os d = 1 :=
  ⟨fun d => stride1 _ d, fun d => stride1 _ d⟩

theorem strides_r2c {al sc n A : ℕ} {f : Flags} : (∀ d, (planR2C al sc ![n] A f).is d = 1) ∧ ∀ d, (planR2C al sc ![n] A f).os d = 1 :=
  ⟨fun d => stride1 _ d, fun d => stride1 _ d⟩

theorem strides_c2r {al sc n A : ℕ} {f : Flags} : (∀ d, (planC2R al sc ![n] A f).is d = 1) ∧ ∀ d, (planC2R al sc ![n] A f).os d = 1 :=
  ⟨fun d => stride1 _ d, fun d => stride1 _ d⟩

theorem un_elem {al elem n number : ℕ} {pr : Bool} (h : (flags1 al elem n number pr).unaligned = false) : elem ∣ al := by
  simp only [flags1, decide_eq_false_iff_not, not_or, not_not] at h
  exact Nat.dvd_of_mod_eq_zero h.1

theorem update_ax {ax : Fin 2} (i : Fin 2 → ℕ) (j : ℕ) : Function.update i ax j ax = j ∧ Function.update i ax j (1 - ax) = i (1 - ax) :=
  ⟨Function.update_self .., Function.update_of_ne (ax_ne ax).symm ..⟩

theorem box_update {ax : Fin 2} {n i : Fin 2 → ℕ} (h : i (1 - ax) < n (1 - ax)) {j : ℕ} (hj : j < n ax) : Box n (Function.update i ax j) := by
  intro d
  by_cases hd : d = ax
  · subst hd; rw [Function.update_self]; exact hj
  · have : d = 1 - ax := by fin_cases ax <;> fin_cases d <;> simp_all
    subst this
    rw [Function.update_of_ne hd]; exact h

end Verif.Fftw

namespace Verif.Props
open Verif Lay Dda Fftw

/-- **C67.** Complex transforms of the rows or columns of a matrix: every line along `ax` of the output block is the scaled transform of that line of the
input block; the block may have fewer lines than were planned for (partial: sizes below 2^31). -/
theorem C67_lines_partial {simd : ℤ} (F : Lib simd) (al sc number : ℕ) (S : Dir) (scale : ℝ) (ax : Fin 2) (s : Fin 2 → ℕ) (bi bo : Blk 2)
    (hs : s ax = bi.size ax) (hi : FitsM bi.size al bi.elem) (ho : FitsM bo.size al bo.elem) (hsz : bo.size = bi.size)
    (hei : bi.elem = 2 * sc) (heo : bo.elem = 2 * sc) (hdis : Distinct bo)
    (ibuf obuf : Buf) (hw : al ∣ W₆₄) (hal : simd ∣ al) (hib : simd ∣ ibuf.ptr) (hob : simd ∣ obuf.ptr) :
    (∀ i, Box bi.size i → (outOfPlaceM F (fftmC2C al sc number S ax s) scale bi bo ibuf obuf).2 i =
      scale * line (bi.size ax) S.sign (fun j => bi.get (Function.update i ax j)) (i ax)) ∧
    (outOfPlaceM F (fftmC2C al sc number S ax s) scale bi bo ibuf obuf).1 = bi.get := by
  set f := flags1 al (2 * sc) (s ax) number true with hf
  have hun : f.unaligned = false → (2 * sc) ∣ al := un_elem
  have hfit : Fits (![s ax] : Fin (0 + 1) → ℕ) := by rw [hs]; exact fits1 (hi.pos ax) (hi.lt ax)
  have hsize : (planC2C al sc ![s ax] S.sign f).size = fun _ => bi.size ax := by rw [size_c2c (D := 0) (by omega) hfit, vec1, hs]
  set a := accessIn (queryM al f.unaligned ax) false ibuf bi with ha
  set o := accessOut (queryM al f.unaligned ax) obuf bo with hoo
  have key := lines_spec F (planC2C al sc ![s ax] S.sign f) a.ptr o.ptr bi.elem bo.elem (a.stride (1 - ax)) (o.stride (1 - ax)) a.mem o.mem
    (bi.size (1 - ax)) (bi.size ax) (fun r c => line (bi.size ax) S.sign (fun j => a.mem (r * a.stride (1 - ax) + j)) c)
    strides_c2c.2 (by show (planC2C al sc ![s ax] S.sign f).size = _; rw [hsize])
    (by have := outM_apart (un := f.unaligned) (ax := ax) (buf := obuf) ho hw hdis; rwa [hsz] at this) (Or.inr (by simp [planC2C])) (by
      intro r hr m' c hc
      have := F.c2c (planC2C al sc ![s ax] S.sign f) S.sign (a.ptr + r * a.stride (1 - ax) * bi.elem) (o.ptr + r * o.stride (1 - ax) * bo.elem)
        (shift (r * a.stride (1 - ax)) a.mem) m' rfl (ok_c2c (D := 0) (by omega) hfit _ f (by omega))
        (fun h => ⟨inM_aligned hi hw hal hib (by rw [hei]; exact hun h) h r, outM_aligned ho hw hal hob (by rw [heo]; exact hun h) h r⟩)
        (fun _ => c) (by rw [hsize]; exact fun _ => hc)
      rw [addr1 _ _ strides_c2c.2, hsize, dft_line] at this
      refine this.trans (line_congr (fun j _ => ?_) _)
      simp only [shift]
      rw [addr1 _ _ strides_c2c.1])
    (bi.size (1 - ax)) le_rfl
  refine ⟨fun i hbi => ?_, ?_⟩
  · simp only [outOfPlaceM, fftmC2C, ← hf, ← ha, ← hoo, scaled_at, exp_sign]
    congr 1
    have hbo : Box bo.size i := by rw [hsz]; exact hbi
    rw [hoo, outM_mem ho hw hbo, ← hoo, key.2 _ (hbi _) _ (hbi _)]
    refine line_congr (fun j hj => ?_) _
    have := inM_mem (un := f.unaligned) (ax := ax) (buf := ibuf) hi hw (box_update (hbi (1 - ax)) hj)
    rw [(update_ax i j).1, (update_ax i j).2] at this
    exact this
  · simp only [outOfPlaceM, fftmC2C, ← hf, ← ha, ← hoo, exp_sign]
    exact in_kept _ fun _ => key.1

example (m o : ℤ → ℂ) (i : Fin 2 → ℕ) (hi : Box ![3, 5] i) :
    (outOfPlaceM (reference 32) (fftmC2C 32 4 1 .fwd 1 ![6, 5]) 1 (strided 8 m) (strided 8 o) ⟨64, fun _ => 0⟩ ⟨64, fun _ => 0⟩).2 i =
      ((1 : ℝ) : ℂ) * line 5 (-1) (fun j => (strided 8 m).get (Function.update i 1 j)) (i 1) :=
  (C67_lines_partial (reference 32) 32 4 1 .fwd _ 1 ![6, 5] (strided 8 m) (strided 8 o) rfl (show FitsM ![3, 5] 32 8 from ⟨by decide, by decide, by decide, by decide, by decide, by decide⟩) (show FitsM ![3, 5] 32 8 from ⟨by decide, by decide, by decide, by decide, by decide, by decide⟩) rfl rfl rfl
    (strided_distinct 8 o) _ _ (by decide) (by decide) (by decide) (by decide)).1 i hi

/-- **C67.** The same in place (partial: sizes below 2^31). -/
theorem C67_lines_in_place_partial {simd : ℤ} (F : Lib simd) (al sc number : ℕ) (S : Dir) (scale : ℝ) (ax : Fin 2) (s : Fin 2 → ℕ) (b : Blk 2)
    (hs : s ax = b.size ax) (hi : FitsM b.size al b.elem) (hei : b.elem = 2 * sc) (hdis : Distinct b)
    (buf : Buf) (hw : al ∣ W₆₄) (hal : simd ∣ al) (hib : simd ∣ buf.ptr) (i : Fin 2 → ℕ) (hbi : Box b.size i) :
    inPlaceM F (fftmC2C al sc number S ax s) scale b buf i =
      scale * line (b.size ax) S.sign (fun j => b.get (Function.update i ax j)) (i ax) := by
  set f := flags1 al (2 * sc) (s ax) number true with hf
  have hun : f.unaligned = false → (2 * sc) ∣ al := un_elem
  have hfit : Fits (![s ax] : Fin (0 + 1) → ℕ) := by rw [hs]; exact fits1 (hi.pos ax) (hi.lt ax)
  have hsize : (planC2C al sc ![s ax] S.sign f).size = fun _ => b.size ax := by rw [size_c2c (D := 0) (by omega) hfit, vec1, hs]
  set a := accessIn (queryM al f.unaligned ax) false buf b with ha
  have hap : Apart (a.stride (1 - ax)) (b.size (1 - ax)) (b.size ax) := by
    have := outM_apart (un := f.unaligned) (ax := ax) (buf := buf) hi hw hdis
    rwa [outM_eq.2] at this
  have key := linesIp_spec F (planC2C al sc ![s ax] S.sign f) a.ptr b.elem (a.stride (1 - ax)) a.mem (b.size (1 - ax)) (b.size ax) S.sign rfl
    (ok_c2c (D := 0) (by omega) hfit _ f (by omega)) strides_c2c.1 strides_c2c.2 hsize hap
    (fun h r _ => inM_aligned hi hw hal hib (by rw [hei]; exact hun h) h r) (b.size (1 - ax)) le_rfl
  simp only [inPlaceM, fftmC2C, ← hf, ← ha, scaled_at, exp_sign]
  congr 1
  rw [ha, inoutM_mem hi hw hbi, ← ha, key.1 _ (hbi _) _ (hbi _)]
  refine line_congr (fun j hj => ?_) _
  have := inM_mem (un := f.unaligned) (ax := ax) (buf := buf) hi hw (box_update (hbi (1 - ax)) hj)
  rw [(update_ax i j).1, (update_ax i j).2] at this
  exact this

example (m : ℤ → ℂ) (i : Fin 2 → ℕ) (hi : Box ![3, 5] i) :
    inPlaceM (reference 32) (fftmC2C 32 4 1 .inv 0 ![3, 9]) 1 (strided 8 m) ⟨64, fun _ => 0⟩ i =
      ((1 : ℝ) : ℂ) * line 3 1 (fun j => (strided 8 m).get (Function.update i 0 j)) (i 0) :=
  C67_lines_in_place_partial (reference 32) 32 4 1 .inv _ 0 ![3, 9] (strided 8 m) rfl (show FitsM ![3, 5] 32 8 from ⟨by decide, by decide, by decide, by decide, by decide, by decide⟩) rfl
    (strided_distinct 8 m) _ (by decide) (by decide) (by decide) i hi

/-- **C67.** Real to complex transforms of the rows or columns (partial: sizes below 2^31; the alignment is a multiple of the size of a complex
number, which `make_flags` does not test). -/
theorem C67_lines_forward_partial {simd : ℤ} (F : Lib simd) (al sc number : ℕ) (scale : ℝ) (ax : Fin 2) (s : Fin 2 → ℕ) (bi bo : Blk 2)
    (hs : s ax = bi.size ax) (hi : FitsM bi.size al bi.elem) (ho : FitsM bo.size al bo.elem) (hsz : bo.size = half ax bi.size)
    (hei : bi.elem = sc) (heo : bo.elem = 2 * sc) (hsc : 2 * sc ∣ al) (hdis : Distinct bo) (x : (Fin 2 → ℕ) → ℝ)
    (hx : ∀ i, Box bi.size i → bi.get i = x i)
    (ibuf obuf : Buf) (hw : al ∣ W₆₄) (hal : simd ∣ al) (hib : simd ∣ ibuf.ptr) (hob : simd ∣ obuf.ptr) :
    (∀ i, Box bo.size i → (outOfPlaceM F (fftmR2C al sc number ax s) scale bi bo ibuf obuf).2 i =
      scale * line (bi.size ax) (-1) (fun j => x (Function.update i ax j)) (i ax)) ∧
    (outOfPlaceM F (fftmR2C al sc number ax s) scale bi bo ibuf obuf).1 = bi.get := by
  set f := flags1 al sc (s ax) number false with hf
  have hun : f.unaligned = false → sc ∣ al := un_elem
  have hfit : Fits (![s ax] : Fin (0 + 1) → ℕ) := by rw [hs]; exact fits1 (hi.pos ax) (hi.lt ax)
  have hsize : (planR2C al sc ![s ax] 0 f).size = fun _ => bi.size ax := by
    rw [size_r2c (D := 0) (by omega) (by omega) hfit, vec1, hs]
  have hout : (planR2C al sc ![s ax] 0 f).outSize = fun _ => bi.size ax / 2 + 1 := by
    show iosize (planR2C al sc ![s ax] 0 f).size = _
    rw [hsize]
    funext d
    rw [Subsingleton.elim d 0]
    rfl
  have hax : bo.size ax = bi.size ax / 2 + 1 := by rw [hsz]; exact Function.update_self ..
  have hacr : bo.size (1 - ax) = bi.size (1 - ax) := by rw [hsz]; exact Function.update_of_ne (ax_ne ax).symm ..
  set a := accessIn (queryM al f.unaligned ax) false ibuf bi with ha
  set o := accessOut (queryM al f.unaligned ax) obuf bo with hoo
  have key := lines_spec F (planR2C al sc ![s ax] 0 f) a.ptr o.ptr bi.elem bo.elem (a.stride (1 - ax)) (o.stride (1 - ax)) a.mem o.mem
    (bi.size (1 - ax)) (bi.size ax / 2 + 1) (fun r c => line (bi.size ax) (-1) (fun j => ((a.mem (r * a.stride (1 - ax) + j)).re : ℂ)) c)
    strides_r2c.2 hout
    (by have := outM_apart (un := f.unaligned) (ax := ax) (buf := obuf) ho hw hdis; rwa [hax, hacr] at this) (Or.inr (by simp [planR2C])) (by
      intro r hr m' c hc
      have := F.r2c (planR2C al sc ![s ax] 0 f) (a.ptr + r * a.stride (1 - ax) * bi.elem) (o.ptr + r * o.stride (1 - ax) * bo.elem)
        (shift (r * a.stride (1 - ax)) a.mem) m' rfl (ok_r2c (D := 0) (by omega) (by omega) hfit f (by omega))
        (fun h => ⟨inM_aligned hi hw hal hib (by rw [hei]; exact hun h) h r, outM_aligned ho hw hal hob (by rw [heo]; exact hsc) h r⟩)
        (fun _ => c) (by rw [hout]; exact fun _ => hc)
      rw [addr1 _ _ strides_r2c.2, hsize, dft_line] at this
      refine this.trans (line_congr (fun j _ => ?_) _)
      simp only [shift]
      rw [addr1 _ _ strides_r2c.1])
    (bi.size (1 - ax)) le_rfl
  refine ⟨fun i hbo => ?_, ?_⟩
  · simp only [outOfPlaceM, fftmR2C, ← hf, ← ha, ← hoo, scaled_at]
    congr 1
    rw [hoo, outM_mem ho hw hbo, ← hoo, key.2 _ (by rw [← hacr]; exact hbo _) _ (by rw [← hax]; exact hbo _)]
    refine line_congr (fun j hj => ?_) _
    have hb := box_update (i := i) (by rw [← hacr]; exact hbo (1 - ax)) hj
    have := inM_mem (un := f.unaligned) (ax := ax) (buf := ibuf) hi hw hb
    rw [(update_ax i j).1, (update_ax i j).2] at this
    rw [ha, this, hx _ hb, Complex.ofReal_re]
  · simp only [outOfPlaceM, fftmR2C, ← hf, ← ha, ← hoo]
    exact in_kept _ fun _ => key.1

example (x : (Fin 2 → ℕ) → ℝ) (o : ℤ → ℂ) (i : Fin 2 → ℕ) (hi : Box ![3, 5] i) :
    (outOfPlaceM (reference 32) (fftmR2C 32 4 1 1 ![3, 8]) 1 (plain ![3, 8] 4 fun i => x i) (strided 8 o) ⟨64, fun _ => 0⟩ ⟨64, fun _ => 0⟩).2 i =
      ((1 : ℝ) : ℂ) * line 8 (-1) (fun j => (x (Function.update i 1 j) : ℂ)) (i 1) :=
  (C67_lines_forward_partial (reference 32) 32 4 1 _ 1 ![3, 8] (plain ![3, 8] 4 fun i => x i) (strided 8 o) rfl (show FitsM ![3, 8] 32 4 from ⟨by decide, by decide, by decide, by decide, by decide, by decide⟩)
    (show FitsM ![3, 5] 32 8 from ⟨by decide, by decide, by decide, by decide, by decide, by decide⟩) (show ![3, 5] = half 1 ![3, 8] by decide) rfl rfl
    (by decide) (strided_distinct 8 o) x (fun _ _ => rfl) _ _ (by decide) (by decide) (by decide) (by decide)).1 i hi

/-- **C67.** Complex to real transforms of the rows or columns: every line of the input block is the half of a Hermitian spectrum (partial: as
before). -/
theorem C67_lines_inverse_partial {simd : ℤ} (F : Lib simd) (al sc number : ℕ) (scale : ℝ) (ax : Fin 2) (s : Fin 2 → ℕ) (bi bo : Blk 2)
    (hs : s ax = bo.size ax) (hi : FitsM bi.size al bi.elem) (ho : FitsM bo.size al bo.elem) (hsz : bi.size = half ax bo.size)
    (hei : bi.elem = 2 * sc) (heo : bo.elem = sc) (hsc : 2 * sc ∣ al) (hdis : Distinct bo) (X : (Fin 2 → ℕ) → ℂ)
    (hX : ∀ i, Box bo.size i → X (Function.update i ax ((bo.size ax - i ax) % bo.size ax)) = (starRingEnd ℂ) (X i))
    (hx : ∀ i, Box bi.size i → bi.get i = X i)
    (ibuf obuf : Buf) (hw : al ∣ W₆₄) (hal : simd ∣ al) (hib : simd ∣ ibuf.ptr) (hob : simd ∣ obuf.ptr) :
    (∀ i, Box bo.size i → (outOfPlaceM F (fftmC2R al sc number ax s) scale bi bo ibuf obuf).2 i =
      scale * line (bo.size ax) 1 (fun k => X (Function.update i ax k)) (i ax)) ∧
    (outOfPlaceM F (fftmC2R al sc number ax s) scale bi bo ibuf obuf).1 = bi.get := by
  set f := flags1 al sc (s ax) number true with hf
  have hun : f.unaligned = false → sc ∣ al := un_elem
  have hfit : Fits (![s ax] : Fin (0 + 1) → ℕ) := by rw [hs]; exact fits1 (ho.pos ax) (ho.lt ax)
  have hsize : (planC2R al sc ![s ax] 0 f).size = fun _ => bo.size ax := by
    rw [size_c2r (D := 0) (by omega) (by omega) hfit, vec1, hs]
  have hhalf : iosize (fun _ : Fin 1 => bo.size ax) = fun _ => bo.size ax / 2 + 1 := by
    funext d
    rw [Subsingleton.elim d 0]
    rfl
  have hax : bi.size ax = bo.size ax / 2 + 1 := by rw [hsz]; exact Function.update_self ..
  have hacr : bi.size (1 - ax) = bo.size (1 - ax) := by rw [hsz]; exact Function.update_of_ne (ax_ne ax).symm ..
  set a := accessIn (queryM al f.unaligned ax) false ibuf bi with ha
  set o := accessOut (queryM al f.unaligned ax) obuf bo with hoo
  have pick : ∀ r : ℕ, ∃ i : Fin 2 → ℕ, i (1 - ax) = r := fun r => ⟨fun _ => r, rfl⟩
  have key := lines_spec F (planC2R al sc ![s ax] 0 f) a.ptr o.ptr bi.elem bo.elem (a.stride (1 - ax)) (o.stride (1 - ax)) a.mem o.mem
    (bi.size (1 - ax)) (bo.size ax) (fun r c => line (bo.size ax) 1 (fun k => X (Function.update (fun _ => r) ax k)) c)
    strides_c2r.2 hsize
    (by have := outM_apart (un := f.unaligned) (ax := ax) (buf := obuf) ho hw hdis; rwa [← hacr] at this) (Or.inl rfl) (by
      intro r hr m' c hc
      have := F.c2r (planC2R al sc ![s ax] 0 f) (a.ptr + r * a.stride (1 - ax) * bi.elem) (o.ptr + r * o.stride (1 - ax) * bo.elem)
        (shift (r * a.stride (1 - ax)) a.mem) m' (fun k => X (Function.update (fun _ => r) ax (k 0))) rfl
        (ok_c2r (D := 0) (by omega) (by omega) hfit f (by omega))
        (fun h => ⟨inM_aligned hi hw hal hib (by rw [hei]; exact hsc) h r, outM_aligned ho hw hal hob (by rw [heo]; exact hun h) h r⟩)
        (by
          rw [hsize]
          intro k hk
          have hb : Box bo.size (Function.update (fun _ => r) ax (k 0)) := box_update (by rw [← hacr]; exact hr) (hk 0)
          have := hX _ hb
          rw [(update_ax _ _).1, Function.update_idem] at this
          exact this)
        (by
          rw [hsize, hhalf]
          intro k hk
          have hb : Box bi.size (Function.update (fun _ => r) ax (k 0)) := box_update hr (by rw [hax]; exact hk 0)
          have := inM_mem (un := f.unaligned) (ax := ax) (buf := ibuf) hi hw hb
          rw [(update_ax _ _).1, (update_ax _ _).2, hx _ hb] at this
          rw [addr1 _ _ strides_c2r.1]
          exact this)
        (fun _ => c) (by rw [hsize]; exact fun _ => hc)
      rw [addr1 _ _ strides_c2r.2, hsize, dft_line] at this
      exact this)
    (bi.size (1 - ax)) le_rfl
  refine ⟨fun i hbo => ?_, ?_⟩
  · simp only [outOfPlaceM, fftmC2R, ← hf, ← ha, ← hoo, scaled_at]
    congr 1
    rw [hoo, outM_mem ho hw hbo, ← hoo, key.2 _ (by rw [hacr]; exact hbo _) _ (hbo _)]
    refine line_congr (fun j hj => ?_) _
    congr 1
    funext d
    by_cases hd : d = ax
    · subst hd; simp
    · have : d = 1 - ax := by fin_cases ax <;> fin_cases d <;> simp_all
      subst this
      rw [Function.update_of_ne hd, Function.update_of_ne hd]
  · simp only [outOfPlaceM, fftmC2R, ← hf, ← ha, ← hoo]
    exact in_kept _ fun _ => key.1

example (o : ℤ → ℂ) (i : Fin 2 → ℕ) (hi : Box ![3, 5] i) :
    (outOfPlaceM (reference 32) (fftmC2R 32 4 1 0 ![3, 5]) 1 (plain ![2, 5] 8 fun _ => 1) (strided 4 o) ⟨64, fun _ => 0⟩ ⟨64, fun _ => 0⟩).2 i =
      ((1 : ℝ) : ℂ) * line 3 1 (fun _ => 1) (i 0) :=
  (C67_lines_inverse_partial (reference 32) 32 4 1 _ 0 ![3, 5] (plain ![2, 5] 8 fun _ => 1) (strided 4 o) rfl (show FitsM ![2, 5] 32 8 from ⟨by decide, by decide, by decide, by decide, by decide, by decide⟩)
    (show FitsM ![3, 5] 32 4 from ⟨by decide, by decide, by decide, by decide, by decide, by decide⟩) (show ![2, 5] = half 0 ![3, 5] by decide) rfl rfl
    (by decide) (strided_distinct 4 o) (fun _ => 1) (fun _ _ => by simp) (fun _ _ => rfl) _ _ (by decide) (by decide) (by decide) (by decide)).1 i hi

end Verif.Props

/-! ## Buffers -/

namespace Verif.Fftw
open Verif Lay Dda

theorem total_eq {D al sc : ℕ} {un : Bool} (hD : D ≤ 2) (hun : D ≠ 0 → un = true) {s : Fin (D + 1) → ℕ} (hs : Fits s) :
    (applied (D + 1) (planLayout al un) s sc).total = ∏ d, s d := by
  have hl := hs.lt
  interval_cases D
  · simp only [applied, rt1, planLayout, id, Nat.mul_one, Fin.prod_univ_succ, Finset.univ_eq_empty, Finset.prod_empty] at hl ⊢
    exact Nat.mod_eq_of_lt (by omega)
  · obtain rfl := hun (by omega)
    rw [Fin.prod_univ_two] at hl ⊢
    have : (applied (1 + 1) (planLayout al true) s sc).total = w (s 0 * s 1) := by simp [applied, rt2, planLayout, adjust_dense]
    rw [this]
    exact Nat.mod_eq_of_lt (by omega)
  · obtain rfl := hun (by omega)
    have h12 := hs.two (show (1 : Fin 3) ≠ 2 by decide)
    have hp : (∏ d : Fin (2 + 1), s d) = s 0 * s 1 * s 2 := Fin.prod_univ_three s
    rw [hp] at hl ⊢
    have : (applied (2 + 1) (planLayout al true) s sc).total = w (s 0 * w (s 1 * s 2)) := by
      simp [applied, rt3, planLayout, adjust_dense, strides3]
    rw [this, show w (s 1 * s 2) = s 1 * s 2 from Nat.mod_eq_of_lt (by omega), ← Nat.mul_assoc]
    exact Nat.mod_eq_of_lt (by omega)

theorem prod_turn {D A : ℕ} (hD : D ≤ 2) (hA : A ≤ D) (s : Fin (D + 1) → ℕ) : ∏ d, s (order A d) = ∏ d, s d :=
  Equiv.prod_comp (Equiv.ofBijective _ (Finite.injective_iff_bijective.1 (order_inj hD hA))) s

theorem buf_ok {D A al sc e : ℕ} {un : Bool} (hD : D ≤ 2) (hA : A ≤ D) (hun : D ≠ 0 → un = true) {s : Fin (D + 1) → ℕ} (hs : Fits s) (s0 : ℕ)
    {i : Fin (D + 1) → ℕ} (hi : Box s i) :
    (applied (D + 1) (query al un (order A)) s e).index i < bufSize al sc un (fun e => s (order A e)) s0 1 := by
  rw [copy_index hD hA hun hs hi]
  unfold bufSize
  rw [if_neg (by omega), total_eq hD hun (hs.turn hD hA), prod_turn hD hA]
  exact lin_lt_order hD hA hs hi

/-- Padding a line of scalars leaves at least as much room as padding the line of elements. -/
theorem adjust_mono {al sc e n : ℕ} {un : Bool} {ax : Fin 2} (hn : n < 2 ^ 31) (ha0 : 0 < al) (ha : al < 2 ^ 31) (hsc : 0 < sc) (hs31 : 2 * sc < 2 ^ 31)
    (he : e = sc ∨ e = 2 * sc) (hd : un = false → 2 * sc ∣ al) : rtAdjust (queryM al un ax) e n ≤ rtAdjust (queryM al un ax) sc n := by
  cases un
  · rcases he with rfl | rfl
    · exact le_rfl
    · have hd := hd rfl
      have h1 := (adjust_le (e := sc) (un := false) (ax := ax) hn ha).1
      have h2 := adjust_aligned (e := sc) (ax := ax) hn ha0 ha (by omega) (Dvd.dvd.trans (Dvd.intro_left 2 rfl) hd)
      have h3 := adjust_aligned (ax := ax) hn ha0 ha hs31 hd
      have h4 : rtAdjust (queryM al false ax) (2 * sc) n * (2 * sc) < n * (2 * sc) + al := by
        have hb : n * (2 * sc) < 2 ^ 31 * 2 ^ 31 := Nat.mul_lt_mul'' hn hs31
        have hw : w (n * (2 * sc)) = n * (2 * sc) := Nat.mod_eq_of_lt (by omega)
        have hw' : w (2 * sc * n) = n * (2 * sc) := by rw [Nat.mul_comm, hw]
        unfold rtAdjust
        have ha' : (queryM al false ax).alignment = al := rfl
        rw [ha', hw, hw']
        split
        · rename_i h
          have hr := h.2.2
          have q : (al - n * (2 * sc) % al) / (2 * sc) ≤ al := (Nat.div_le_self _ _).trans (Nat.sub_le _ _)
          rw [show w (n + (al - n * (2 * sc) % al) / (2 * sc)) = n + (al - n * (2 * sc) % al) / (2 * sc) from Nat.mod_eq_of_lt (by omega), Nat.add_mul]
          have q2 := Nat.div_mul_le_self (al - n * (2 * sc) % al) (2 * sc)
          generalize (al - n * (2 * sc) % al) / (2 * sc) * (2 * sc) = z at *
          omega
        · omega
      by_contra hc
      push Not at hc
      generalize rtAdjust (queryM al false ax) (2 * sc) n = x at *
      generalize rtAdjust (queryM al false ax) sc n = y at *
      have h5 : al ∣ x * (2 * sc) - y * (2 * sc) := Nat.dvd_sub h3 (by rw [Nat.mul_left_comm]; exact Dvd.dvd.mul_left h2 2)
      have h6 : y * (2 * sc) < x * (2 * sc) := Nat.mul_lt_mul_of_pos_right hc (by omega)
      have h7 := Nat.le_of_dvd (by omega) h5
      have h8 : n * (2 * sc) ≤ y * (2 * sc) := Nat.mul_le_mul_right _ h1
      omega
  · have : ∀ e, rtAdjust (queryM al true ax) e n = n := fun e => by unfold rtAdjust; rw [if_neg (by simp [queryM, Packing.isAligned])]
    rw [this, this]

theorem bufM {al sc e n mult : ℕ} {un : Bool} {ax : Fin 2} {s : Fin 2 → ℕ} (hs : FitsM s al e) (hsc : 0 < sc) (hs31 : 2 * sc < 2 ^ 31)
    (he : e = sc ∨ e = 2 * sc) (hd : un = false → 2 * sc ∣ al) (hn : n = s ax) (hm : s (1 - ax) ≤ mult) (hm31 : mult < 2 ^ 31) {i : Fin 2 → ℕ} (hi : Box s i) :
    (applied 2 (queryM al un ax) s e).index i < bufSize al sc un (![n] : Fin 1 → ℕ) n mult := by
  subst hn
  have hmono := adjust_mono (ax := ax) (hs.lt ax) hs.al0 hs.al1 hsc hs31 he hd
  have hle := adjust_le (e := sc) (un := un) (ax := ax) (hs.lt ax) hs.al1
  rw [copyM_index hs hi]
  have i0 := hi (1 - ax)
  have i1 := hi ax
  have l1 := hs.lt ax
  have ha := hs.al1
  unfold bufSize
  split
  · have e1 : (applied 2 (planLayout al un) ![mult, s ax] sc).total = w (mult * rtAdjust (queryM al un ax) sc (s ax)) := by
      simp [applied, rt2, planLayout]
      rfl
    have e2 : mult * rtAdjust (queryM al un ax) sc (s ax) ≤ 2 ^ 31 * 2 ^ 32 := Nat.mul_le_mul (by omega) (by omega)
    rw [e1, show w (mult * rtAdjust (queryM al un ax) sc (s ax)) = mult * rtAdjust (queryM al un ax) sc (s ax) from Nat.mod_eq_of_lt (by omega)]
    calc i (1 - ax) * rtAdjust (queryM al un ax) e (s ax) + i ax
        < i (1 - ax) * rtAdjust (queryM al un ax) sc (s ax) + rtAdjust (queryM al un ax) sc (s ax) :=
          Nat.add_lt_add_of_le_of_lt (Nat.mul_le_mul_left _ hmono) (by omega)
      _ = (i (1 - ax) + 1) * rtAdjust (queryM al un ax) sc (s ax) := by ring
      _ ≤ _ := Nat.mul_le_mul_right _ (by omega)
  · have : i (1 - ax) = 0 := by omega
    rw [this, Nat.zero_mul, Nat.zero_add]
    have e1 : (applied 1 (planLayout al un) (![s ax] : Fin 1 → ℕ) sc).total = w (s ax) := by simp [applied, rt1, planLayout]
    rw [e1, show w (s ax) = s ax from Nat.mod_eq_of_lt (by omega)]
    exact i1

end Verif.Fftw

namespace Verif.Props
open Verif Lay Dda Fftw

/-- **C67.** A block that has to be copied fits the buffer it is copied to, input and output, of every transform of every dimension (partial: the
array has less than 2^31 elements). -/
theorem C67_buffers_partial {D A : ℕ} (hD : D ≤ 2) (hA : A ≤ D) (al sc number e : ℕ) (S : Dir) (s : Fin (D + 1) → ℕ) (hs : Fits s) :
    (∀ i, Box s i → (applied (D + 1) (fftC2C al sc number S s).inLay s e).index i < (fftC2C al sc number S s).inBuf ∧
      (applied (D + 1) (fftC2C al sc number S s).outLay s e).index i < (fftC2C al sc number S s).outBuf) ∧
    (∀ i, Box s i → (applied (D + 1) (fftR2C al sc number A s).inLay s e).index i < (fftR2C al sc number A s).inBuf) ∧
    (∀ i, Box (half ⟨A, by omega⟩ s) i →
      (applied (D + 1) (fftR2C al sc number A s).outLay (half ⟨A, by omega⟩ s) e).index i < (fftR2C al sc number A s).outBuf) ∧
    (∀ i, Box (half ⟨A, by omega⟩ s) i →
      (applied (D + 1) (fftC2R al sc number A s).inLay (half ⟨A, by omega⟩ s) e).index i < (fftC2R al sc number A s).inBuf) ∧
    (∀ i, Box s i → (applied (D + 1) (fftC2R al sc number A s).outLay s e).index i < (fftC2R al sc number A s).outBuf) := by
  have hid : (id : Fin (D + 1) → Fin (D + 1)) = order D := (order_id hD).symm
  have hun : ∀ el pr, D ≠ 0 → (flagsFor (D + 1) al el (s 0) number pr).unaligned = true := fun _ _ h => flags_un h
  refine ⟨fun i hi => ?_, fun i hi => ?_, fun i hi => ?_, fun i hi => ?_, fun i hi => ?_⟩
  · have := buf_ok (al := al) (sc := sc) (e := e) hD le_rfl (hun (2 * sc) true) hs (s 0) hi
    simp only [fftC2C]
    rw [hid]
    rw [order_id hD] at this ⊢
    exact ⟨this, this⟩
  · simp only [fftR2C]
    rw [turn_eq hD hA]
    exact buf_ok hD hA (hun _ _) hs _ hi
  · simp only [fftR2C]
    rw [iosize_turn hD hA]
    exact buf_ok hD hA (hun _ _) (hs.half _) _ hi
  · simp only [fftC2R]
    rw [iosize_turn hD hA]
    exact buf_ok hD hA (hun _ _) (hs.half _) _ hi
  · simp only [fftC2R]
    rw [turn_eq hD hA]
    exact buf_ok hD hA (hun _ _) hs _ hi

example : (fftR2C 32 4 1 1 (![2, 6, 4] : Fin 3 → ℕ)).inBuf = 48 ∧ (fftR2C 32 4 1 1 (![2, 6, 4] : Fin 3 → ℕ)).outBuf = 32 := by decide +kernel

example : (applied 3 (fftR2C 32 4 1 1 ![2, 6, 4]).inLay ![2, 6, 4] 4).index ![1, 5, 3] < (fftR2C 32 4 1 1 (![2, 6, 4] : Fin 3 → ℕ)).inBuf :=
  (C67_buffers_partial (A := 1) (by omega) (by omega) 32 4 1 4 .fwd ![2, 6, 4] ⟨by decide, by decide⟩).2.1 _ (by intro d; fin_cases d <;> decide)

/-- **C67.** A matrix with no more lines than planned fits the buffers of the transforms of rows or columns, although the planner pads lines as if
elements were scalars (partial: sizes below 2^31; the alignment is a multiple of the size of a complex number). -/
theorem C67_lines_buffers_partial (al sc number : ℕ) (S : Dir) (ax : Fin 2) (s s' : Fin 2 → ℕ) (hsc : 0 < sc) (hs31 : 2 * sc < 2 ^ 31)
    (hal : 2 * sc ∣ al) (hs : s ax = s' ax) (hm : s' (1 - ax) ≤ s (1 - ax)) (hm31 : s (1 - ax) < 2 ^ 31) (i : Fin 2 → ℕ)
    (hc : FitsM s' al (2 * sc)) (hr : FitsM s' al sc) (hh : FitsM (half ax s') al (2 * sc)) :
    (Box s' i → (applied 2 (fftmC2C al sc number S ax s).lay s' (2 * sc)).index i < (fftmC2C al sc number S ax s).inBuf ∧
      (applied 2 (fftmC2C al sc number S ax s).lay s' (2 * sc)).index i < (fftmC2C al sc number S ax s).outBuf) ∧
    (Box s' i → (applied 2 (fftmR2C al sc number ax s).lay s' sc).index i < (fftmR2C al sc number ax s).inBuf) ∧
    (Box (half ax s') i → (applied 2 (fftmR2C al sc number ax s).lay (half ax s') (2 * sc)).index i < (fftmR2C al sc number ax s).outBuf) ∧
    (Box (half ax s') i → (applied 2 (fftmC2R al sc number ax s).lay (half ax s') (2 * sc)).index i < (fftmC2R al sc number ax s).inBuf) ∧
    (Box s' i → (applied 2 (fftmC2R al sc number ax s).lay s' sc).index i < (fftmC2R al sc number ax s).outBuf) := by
  have hax : half ax s' ax = s ax / 2 + 1 := by rw [hs]; exact Function.update_self ..
  have hacr : half ax s' (1 - ax) = s' (1 - ax) := Function.update_of_ne (ax_ne ax).symm ..
  have hio : iosize (![s ax] : Fin 1 → ℕ) = ![s ax / 2 + 1] := by
    funext d
    rw [Subsingleton.elim d 0]
    rfl
  simp only [fftmC2C, fftmR2C, fftmC2R]
  rw [hio]
  refine ⟨fun hi => ⟨?_, ?_⟩, fun hi => ?_, fun hi => ?_, fun hi => ?_, fun hi => ?_⟩
  · exact bufM hc hsc hs31 (.inr rfl) (fun _ => hal) hs hm hm31 hi
  · exact bufM hc hsc hs31 (.inr rfl) (fun _ => hal) hs hm hm31 hi
  · exact bufM hr hsc hs31 (.inl rfl) (fun _ => hal) hs hm hm31 hi
  · exact bufM hh hsc hs31 (.inr rfl) (fun _ => hal) hax.symm (by rw [hacr]; exact hm) hm31 hi
  · exact bufM hh hsc hs31 (.inr rfl) (fun _ => hal) hax.symm (by rw [hacr]; exact hm) hm31 hi
  · exact bufM hr hsc hs31 (.inl rfl) (fun _ => hal) hs hm hm31 hi

example : (applied 2 (fftmR2C 32 4 1 1 ![3, 8]).lay (half 1 ![2, 8]) 8).index ![1, 4] < (fftmR2C 32 4 1 1 ![3, 8]).outBuf :=
  (C67_lines_buffers_partial 32 4 1 .fwd 1 ![3, 8] ![2, 8] (by decide) (by decide) (by decide) rfl (by decide) (by decide) ![1, 4]
    ⟨by decide, by decide, by decide, by decide, by decide, by decide⟩ ⟨by decide, by decide, by decide, by decide, by decide, by decide⟩ ⟨by decide, by decide, by decide, by decide, by decide, by decide⟩).2.2.1 (by intro d; fin_cases d <;> decide)

/-! ## Where it goes wrong -/

/-- **C67 is false.** FFTW's sizes and strides are `int`: a one-dimensional transform of 2^32 + 8 elements is planned as one of 8, and the plan of a
2 x 65536 x 65536 array has stride 0 in its first dimension, so that two elements of the output share a place. -/
theorem C67_int_false : (∀ al sc number S, (fftC2C al sc number S (![2 ^ 32 + 8] : Fin 1 → ℕ)).plan.size = ![8]) ∧
    ∀ al sc number S, ¬(fftC2C al sc number S (![2, 65536, 65536] : Fin 3 → ℕ)).plan.Ok := by
  refine ⟨fun al sc number S => ?_, fun al sc number S h => ?_⟩
  · funext d
    rw [show d = 0 from Subsingleton.elim (α := Fin 1) d 0]
    simp only [Plan.size, fftC2C, planC2C, applied, rt1, int32]
    rfl
  · have hos : ∀ d, (fftC2C al sc number S (![2, 65536, 65536] : Fin 3 → ℕ)).plan.os d = ![0, 65536, 1] d := by
      intro d
      have : ∀ n, rtAdjust (planLayout al true : RtLayout 3) sc n = n := fun n => by
        unfold rtAdjust; rw [if_neg (by simp [planLayout, Packing.isAligned])]
      simp only [fftC2C, planC2C, applied, rt3, flagsFor, flagsN]
      rw [if_neg (by decide)]
      simp only [this]
      have key : ∀ d : Fin 3, int32 (strides3 0 1 2 1 65536 (w (65536 * 65536)) d) = (![0, 65536, 1] : Fin 3 → ℤ) d := by decide +kernel
      exact key d
    have hsz : (fftC2C al sc number S (![2, 65536, 65536] : Fin 3 → ℕ)).plan.outSize = ![2, 65536, 65536] := by
      funext d
      have : ∀ d : Fin 3, (int32 ((![2, 65536, 65536] : Fin 3 → ℕ) d)).toNat = (![2, 65536, 65536] : Fin 3 → ℕ) d := by decide +kernel
      exact this d
    have := h.inj ![0, 0, 0] ![1, 0, 0] (by rw [hsz]; intro d; fin_cases d <;> decide) (by rw [hsz]; intro d; fin_cases d <;> decide) (by
      unfold addr
      simp only [hos]
      rw [Fin.sum_univ_three, Fin.sum_univ_three]
      rfl)
    exact absurd (congrFun this 0) (by decide)

/-- **C67 is false (split storage).** FFTW requires that the separation of the real from the imaginary parts is that of the arrays planned for.  An
inverse transform passes them exchanged, also of the very buffers it was planned for, so the separation is never the same. -/
theorem C67_split_sep_false (p : ℤ) (n : ℕ) (hn : 0 < n) : (splitArgs .inv (splitBuffer p n)).sep ≠ (splitBuffer p n).sep := by
  simp only [splitArgs, splitBuffer, SplitPtr.sep, reduceCtorEq, if_false]
  omega

/-- **C67 is false (split storage).** With an alignment of 16 bytes, transforms of 2 single precision complex numbers count as aligned, because the
flags and the strides are computed for interleaved numbers; the real parts of the second row are at byte 8. -/
theorem C67_split_rows_false : (flags1 16 8 2 1 true).unaligned = false ∧ ¬ 16 ∣ splitRow 16 4 (flags1 16 8 2 1 true).unaligned 0 2 1 := by
  decide +kernel

/-- **C67.** With interleaved storage the rows of the same matrix are aligned, whatever the parameters: the flags promise no more than is so. -/
theorem C67_rows (al sc n number r ptr : ℕ) (pr : Bool) (hal : al ∣ ptr) (hn : w (2 * sc * n) = 2 * sc * n)
    (h : (flags1 al (2 * sc) n number pr).unaligned = false) : al ∣ ptr + r * n * (2 * sc) := by
  simp only [flags1, decide_eq_false_iff_not, not_or, not_not] at h
  rw [hn] at h
  refine Nat.dvd_add hal ?_
  rw [Nat.mul_assoc, Nat.mul_comm n]
  exact Dvd.dvd.mul_left (Nat.dvd_of_mod_eq_zero h.2) r

example : 32 ∣ 64 + 3 * 8 * (2 * 4) := C67_rows 32 4 8 1 3 64 true (by decide) (by decide) (by decide)

/-- **C67.** Exchanging real and imaginary parts before and after a forward transform is an inverse transform. -/
theorem C67_exchange {D : ℕ} (n : Fin D → ℕ) (x : (Fin D → ℕ) → ℂ) (k : Fin D → ℕ) : exch (dft n (-1) (fun j => exch (x j)) k) = dft n 1 x k := by
  have he : ∀ z, exch z = Complex.I * (starRingEnd ℂ) z := by
    intro z
    apply Complex.ext <;> simp [exch]
  have hs : exch (dft n (-1) (fun j => exch (x j)) k) =
      ∑ j ∈ Fintype.piFinset fun d => Finset.range (n d), exch (exch (x j) * Complex.exp (((-1 : ℤ) : ℂ) * 2 * Real.pi * Complex.I * ∑ d, (j d : ℂ) * k d / n d)) := by
    rw [he, dft, map_sum, Finset.mul_sum]
    exact Finset.sum_congr rfl fun j _ => (he _).symm
  rw [hs, dft]
  refine Finset.sum_congr rfl fun j _ => ?_
  simp only [he, map_mul, Complex.conj_I, Complex.conj_conj, ← Complex.exp_conj, map_sum, map_div₀, Complex.conj_natCast, Complex.conj_ofReal, map_intCast, Complex.conj_ofNat]
  push_cast
  rw [show Complex.I * (-Complex.I * x j * Complex.exp (-1 * 2 * Real.pi * -Complex.I * ∑ d, (j d : ℂ) * k d / n d)) =
    -(Complex.I * Complex.I) * (x j * Complex.exp (-1 * 2 * Real.pi * -Complex.I * ∑ d, (j d : ℂ) * k d / n d)) by ring, Complex.I_mul_I]
  rw [neg_neg, one_mul]
  congr 2
  ring

/-- **C67.** How much FFTW measures: the number of times a transform is to be used, or 0 for "often", decides. -/
theorem C67_rigor (number : ℕ) (h : number < 2 ^ 32) :
    rigor number = if number = 0 ∨ 32 ≤ number then .patient else if 12 ≤ number then .measure else .estimate := by
  unfold rigor
  by_cases h0 : number = 0
  · subst h0; rfl
  · have : (number + (2 ^ 32 - 1)) % 2 ^ 32 = number - 1 := by omega
    rw [this]
    by_cases h1 : 32 ≤ number
    · rw [if_pos (by omega), if_pos (.inr h1)]
    · rw [if_neg (show ¬number - 1 > 30 by omega), if_neg (show ¬(number = 0 ∨ 32 ≤ number) by omega)]
      by_cases h2 : 12 ≤ number
      · rw [if_pos (show number - 1 > 10 by omega), if_pos h2]
      · rw [if_neg (show ¬number - 1 > 10 by omega), if_neg h2]

example : rigor 0 = .patient ∧ rigor 11 = .estimate ∧ rigor 31 = .measure := by decide

/-- **C67 (split buffers).** The two halves of a buffer of `n` complex numbers are inside its `2 * n` scalars, and no real part is an imaginary part;
forward transforms are given them as they are, inverse transforms the other way around. -/
theorem C67_split_buffer (p : ℤ) (n : ℕ) : (∀ i : ℕ, i < n →
      (p ≤ (splitBuffer p n).re + i ∧ (splitBuffer p n).re + i < p + 2 * n) ∧ (p ≤ (splitBuffer p n).im + i ∧ (splitBuffer p n).im + i < p + 2 * n) ∧
      ∀ j : ℕ, j < n → (splitBuffer p n).re + i ≠ (splitBuffer p n).im + j) ∧
    (splitBuffer p n).re = p ∧ splitArgs .fwd (splitBuffer p n) = splitBuffer p n ∧
    (splitArgs .inv (splitBuffer p n)).re = (splitBuffer p n).im ∧ (splitArgs .inv (splitBuffer p n)).im = (splitBuffer p n).re := by
  refine ⟨fun i hi => ?_, rfl, rfl, rfl, rfl⟩
  simp only [splitBuffer]
  refine ⟨⟨by omega, by omega⟩, ⟨by omega, by omega⟩, fun j hj => by omega⟩
example : (splitBuffer 8 4).im = 12 := rfl

end Verif.Props
