import Verif.Fftw.Lemmas

/-! Lemmas on the row and column transforms. -/

namespace Verif.Fftw
open Verif Lay Dda Verif.Props

/-- The transform of a one dimensional array. -/
theorem dft_line (n : ℕ) (sgn : ℤ) (x : (Fin 1 → ℕ) → ℂ) (k : Fin 1 → ℕ) : dft (fun _ => n) sgn x k = line n sgn (fun j => x fun _ => j) (k 0) := by
  unfold dft line
  refine Finset.sum_nbij' (fun j => j 0) (fun j _ => j) ?_ ?_ ?_ ?_ ?_
  · intro j hj
    exact (Fintype.mem_piFinset.1 hj) 0
  · intro j hj
    rw [Fintype.mem_piFinset]
    exact fun _ => hj
  · intro j _; funext d; rw [Subsingleton.elim d 0]
  · intro j _; rfl
  · intro j _
    have : (fun _ : Fin 1 => j 0) = j := by funext d; rw [Subsingleton.elim d 0]
    dsimp only
    rw [this]
    simp

theorem line_congr {n : ℕ} {sgn : ℤ} {x y : ℕ → ℂ} (h : ∀ j < n, x j = y j) (k : ℕ) : line n sgn x k = line n sgn y k := by
  unfold line
  exact Finset.sum_congr rfl fun j hj => by rw [h j (Finset.mem_range.1 hj)]

theorem addr1 (k : Fin 1 → ℕ) (st : Fin 1 → ℤ) (h : ∀ d, st d = 1) : addr st k = k 0 := by simp [addr, h]

/-! ## The loop over the lines -/

theorem shift_shift (o : ℤ) (m : ℤ → ℂ) : shift (-o) (shift o m) = m := by funext a; simp [shift]

/-- No two of `mult` lines of `n` elements overlap. -/
def Apart (st : ℤ) (mult n : ℕ) : Prop := ∀ r < mult, ∀ r' < mult, ∀ c < n, ∀ c' < n, (r : ℤ) * st + c = r' * st + c' → r = r' ∧ c = c'

theorem lines_spec {simd : ℤ} (F : Lib simd) (p : Plan 1) (pin pout ie oe is os : ℤ) (m out : ℤ → ℂ) (mult n : ℕ) (val : ℕ → ℕ → ℂ)
    (hos : ∀ d, p.os d = 1) (hn : p.outSize = fun _ => n) (hap : Apart os mult n)
    (hkeep : p.preserve = true ∨ p.kind ≠ .c2r)
    (hval : ∀ r < mult, ∀ o, ∀ c < n, (F.exec p (pin + r * is * ie) (pout + r * os * oe) (shift (r * is) m) o).2 c = val r c) :
    ∀ i ≤ mult, (lines F p pin pout ie oe is os i (m, out)).1 = m ∧
      ∀ r < i, ∀ c < n, (lines F p pin pout ie oe is os i (m, out)).2 (r * os + c) = val r c
  | 0, _ => ⟨rfl, fun _ h => absurd h (by omega)⟩
  | i + 1, hi => by
      obtain ⟨h1, h2⟩ := lines_spec F p pin pout ie oe is os m out mult n val hos hn hap hkeep hval i (by omega)
      simp only [lines]
      rw [h1]
      refine ⟨?_, fun r hr c hc => ?_⟩
      · rw [F.keep _ _ _ _ _ hkeep]
        exact shift_shift _ _
      · by_cases he : r = i
        · subst he
          rw [← hval r (by omega) (shift (r * os) (lines F p pin pout ie oe is os r (m, out)).2) c hc]
          simp only [shift]
          rw [show -((r : ℤ) * os) + (r * os + c) = c by ring]
        · rw [← h2 r (by omega) c hc]
          conv_lhs => rw [shift]
          rw [F.frame]
          · simp only [shift]
            rw [show (i : ℤ) * os + (-(i * os) + (r * os + c)) = r * os + c by ring]
          · intro k hk hh
            rw [hn] at hk
            rw [addr1 k p.os hos] at hh
            have := hap r (by omega) i (by omega) c hc (k 0) (hk 0) (by linarith)
            omega

theorem linesIp_spec {simd : ℤ} (F : Lib simd) (p : Plan 1) (ptr e st : ℤ) (m : ℤ → ℂ) (mult n : ℕ) (S : ℤ) (hk : p.kind = .c2c S)
    (hok : p.Ok) (his : ∀ d, p.is d = 1) (hos : ∀ d, p.os d = 1) (hn : p.size = fun _ => n) (hap : Apart st mult n)
    (hal : p.unaligned = false → ∀ r : ℕ, r < mult → simd ∣ ptr + r * st * e) :
    ∀ i ≤ mult, (∀ r < i, ∀ c < n, linesIp F p ptr e st i m (r * st + c) = line n S (fun j => m (r * st + j)) c) ∧
      ∀ r < mult, i ≤ r → ∀ c < n, linesIp F p ptr e st i m (r * st + c) = m (r * st + c)
  | 0, _ => ⟨fun _ h => absurd h (by omega), fun _ _ _ _ _ => rfl⟩
  | i + 1, hi => by
      obtain ⟨h1, h2⟩ := linesIp_spec F p ptr e st m mult n S hk hok his hos hn hap hal i (by omega)
      obtain ⟨g1, g2⟩ := F.ip p S (ptr + i * st * e) (shift (i * st) (linesIp F p ptr e st i m)) hk hok
        (by funext d; rw [his, hos]) (fun h => hal h i (by omega))
      have frame : ∀ r < mult, r ≠ i → ∀ c < n, linesIp F p ptr e st (i + 1) m (r * st + c) = linesIp F p ptr e st i m (r * st + c) := by
        intro r hr hne c hc
        simp only [linesIp]
        conv_lhs => rw [shift]
        rw [g2]
        · simp only [shift]
          congr 1
          ring
        · intro k hk' hh
          rw [hn] at hk'
          rw [addr1 k p.os hos] at hh
          have := hap r hr i (by omega) c hc (k 0) (hk' 0) (by linarith)
          omega
      refine ⟨fun r hr c hc => ?_, fun r hr hir c hc => ?_⟩
      · by_cases he : r = i
        · subst he
          have := g1 (fun _ => c) (by rw [hn]; exact fun _ => hc)
          rw [addr1 _ p.os hos, hn, dft_line] at this
          simp only [linesIp]
          rw [shift, show -((r : ℤ) * st) + (r * st + c) = c by ring, this]
          refine line_congr (fun j hj => ?_) c
          rw [addr1 _ p.is his]
          exact h2 r (by omega) le_rfl j hj
        · rw [frame r (by omega) he c hc]
          exact h1 r (by omega) c hc
      · rw [frame r hr (by omega) c hc]
        exact h2 r hr (by omega) c hc

/-! ## Matrices handed over -/

/-- Sizes for which nothing wraps around. -/
structure FitsM (s : Fin 2 → ℕ) (al e : ℕ) : Prop where
  pos : ∀ d, 0 < s d
  lt : ∀ d, s d < 2 ^ 31
  al0 : 0 < al
  al1 : al < 2 ^ 31
  e0 : 0 < e
  e1 : e < 2 ^ 31

theorem adjust_le {al e n : ℕ} {un : Bool} {ax : Fin 2} (hn : n < 2 ^ 31) (ha : al < 2 ^ 31) :
    n ≤ rtAdjust (queryM al un ax) e n ∧ rtAdjust (queryM al un ax) e n ≤ n + al := by
  unfold rtAdjust
  split
  · have h1 : (al - w (n * e) % al) / e ≤ al := (Nat.div_le_self _ _).trans (Nat.sub_le _ _)
    have h2 : w (n + (al - w (n * e) % al) / e) = n + (al - w (n * e) % al) / e := Nat.mod_eq_of_lt (by omega)
    simp only [queryM] at *
    rw [h2]
    exact ⟨Nat.le_add_right _ _, Nat.add_le_add_left h1 _⟩
  · omega

theorem adjust_aligned {al e n : ℕ} {ax : Fin 2} (hn : n < 2 ^ 31) (ha0 : 0 < al) (ha : al < 2 ^ 31) (he : e < 2 ^ 31) (hd : e ∣ al) :
    al ∣ rtAdjust (queryM al false ax) e n * e := by
  have hb : n * e < 2 ^ 31 * 2 ^ 31 := Nat.mul_lt_mul'' hn he
  have hw : w (n * e) = n * e := Nat.mod_eq_of_lt (by omega)
  have hw' : w (e * n) = n * e := by rw [Nat.mul_comm, hw]
  unfold rtAdjust
  have hp : (queryM al false ax).packing.isAligned = true := rfl
  have ha' : (queryM al false ax).alignment = al := rfl
  rw [hp, ha', hw, hw']
  split
  · rename_i h
    have hr : n * e % al ≠ 0 := h.2.2
    have hlt : n * e % al < al := Nat.mod_lt _ ha0
    have h1 : (al - n * e % al) / e ≤ al := (Nat.div_le_self _ _).trans (Nat.sub_le _ _)
    rw [show w (n + (al - n * e % al) / e) = n + (al - n * e % al) / e from Nat.mod_eq_of_lt (by omega)]
    have hdr : e ∣ al - n * e % al := Nat.dvd_sub hd ((Nat.dvd_mod_iff hd).2 (Dvd.intro_left _ rfl))
    rw [Nat.add_mul, Nat.div_mul_cancel hdr]
    have := Nat.div_add_mod (n * e) al
    refine ⟨n * e / al + 1, ?_⟩
    rw [Nat.mul_add, Nat.mul_one]
    generalize al * (n * e / al) = q at *
    omega
  · rename_i h
    simp only [true_and, not_and, not_not] at h
    exact Nat.dvd_of_mod_eq_zero (h (by omega))

theorem ordM1 (ax : Fin 2) : (if ax = 0 then ![1, 0] else id : Fin 2 → Fin 2) 1 = ax := by fin_cases ax <;> rfl
theorem ordM0 (ax : Fin 2) : (if ax = 0 then ![1, 0] else id : Fin 2 → Fin 2) 0 = 1 - ax := by fin_cases ax <;> rfl
theorem ax_ne (ax : Fin 2) : ax ≠ 1 - ax := by fin_cases ax <;> decide

theorem copyM_stride {al e : ℕ} {un : Bool} {ax : Fin 2} {s : Fin 2 → ℕ} :
    (applied 2 (queryM al un ax) s e).stride ax = 1 ∧ (applied 2 (queryM al un ax) s e).stride (1 - ax) = rtAdjust (queryM al un ax) e (s ax) := by
  have h1 := ordM1 ax
  have h0 := ordM0 ax
  simp only [applied, rt2, queryM, h0, h1]
  exact ⟨by rw [Function.update_of_ne (ax_ne ax), Function.update_self], Function.update_self ..⟩

theorem copyM_index {al e : ℕ} {un : Bool} {ax : Fin 2} {s : Fin 2 → ℕ} (hs : FitsM s al e) {i : Fin 2 → ℕ} (hi : Box s i) :
    (applied 2 (queryM al un ax) s e).index i = i (1 - ax) * rtAdjust (queryM al un ax) e (s ax) + i ax := by
  have h1 := ordM1 ax
  have h0 := ordM0 ax
  have key : (applied 2 (queryM al un ax) s e).index i =
      w (i (1 - ax) * (applied 2 (queryM al un ax) s e).stride (1 - ax) + i ax * (applied 2 (queryM al un ax) s e).stride ax) := by
    conv_rhs => rw [← h0]
    simp only [applied, rt2, queryM, h0, h1]
  rw [key, copyM_stride.1, copyM_stride.2, Nat.mul_one]
  have b := adjust_le (e := e) (un := un) (ax := ax) (hs.lt ax) hs.al1
  have i0 := hi (1 - ax)
  have i1 := hi ax
  have l0 := hs.lt (1 - ax)
  have l1 := hs.lt ax
  have ha := hs.al1
  have : i (1 - ax) * rtAdjust (queryM al un ax) e (s ax) ≤ 2 ^ 31 * 2 ^ 32 := Nat.mul_le_mul (by omega) (by omega)
  exact Nat.mod_eq_of_lt (by omega)

theorem addrM (st : Fin 2 → ℤ) (ax : Fin 2) (i : Fin 2 → ℕ) : addr st i = i (1 - ax) * st (1 - ax) + i ax * st ax := by
  unfold addr
  rw [Fin.sum_univ_two]
  fin_cases ax
  · exact add_comm _ _
  · rfl

/-- What direct access to a matrix grants. -/
theorem directM {al e ptr : ℕ} {un : Bool} {ax : Fin 2} {s : Fin 2 → ℕ} {st : Fin 2 → ℤ} {o : Fin 2 → Fin 2} (hw : al ∣ W₆₄) (hl : s ax < 2 ^ 31)
    (h : compat 2 (queryM al un ax) s e ptr st o = true) :
    st ax = 1 ∧ (un = true → st (1 - ax) = s ax ∨ s (1 - ax) = 1) ∧ (un = false → ∀ i : ℕ, (al : ℤ) ∣ ptr + i * st (1 - ax) * e) := by
  have h1 := ordM1 ax
  have h0 := ordM0 ax
  simp only [compat] at h
  cases un
  · rw [if_neg (by simp [queryM])] at h
    split at h
    · simp at h
    · rename_i hne
      rw [not_not] at hne
      have e0 : o 0 = 1 - ax := by rw [← h0]; exact (Prod.mk.inj hne).1
      have e1 : o 1 = ax := by rw [← h1]; exact (Prod.mk.inj hne).2
      rw [e0, e1] at h
      refine ⟨(C26_aligned2 _ _ _ _ _ hw _ h 0).1, fun h => by simp at h, fun _ i => (C26_aligned2 _ _ _ _ _ hw _ h i).2⟩
  · rw [if_pos (by simp [queryM])] at h
    unfold compatDense2 at h
    split at h
    · simp at h
    · rename_i hne
      rw [not_not] at hne
      have e0 : o 0 = 1 - ax := by rw [← h0]; exact (Prod.mk.inj hne).1
      have e1 : o 1 = ax := by rw [← h1]; exact (Prod.mk.inj hne).2
      rw [e0, e1] at h
      simp only [Bool.and_eq_true, Bool.or_eq_true, beq_iff_eq] at h
      rw [signed_eq hl] at h
      exact ⟨h.1, fun _ => h.2, fun h => by simp at h⟩

/-- The elements of a block are at distinct places. -/
def Distinct {D : ℕ} (b : Blk D) : Prop := ∀ st, b.store = some st → ∀ i j, Box b.size i → Box b.size j → addr st.stride i = addr st.stride j → i = j

section
variable {al : ℕ} {un : Bool} {ax : Fin 2} {buf : Buf} {b : Blk 2} (hs : FitsM b.size al b.elem) (hw : al ∣ W₆₄)
include hs hw

theorem inM_mem {i : Fin 2 → ℕ} (hi : Box b.size i) :
    (accessIn (queryM al un ax) false buf b).mem (i (1 - ax) * (accessIn (queryM al un ax) false buf b).stride (1 - ax) + i ax) = b.get i := by
  unfold accessIn
  by_cases hd : direct (queryM al un ax) false b = true
  · rw [if_pos hd]
    unfold direct at hd
    unfold Blk.arr Blk.get
    cases hst : b.store with
    | none => rw [hst] at hd; simp at hd
    | some st =>
      rw [hst] at hd
      simp only [Bool.and_eq_true] at hd
      simp only
      rw [addrM st.stride ax, (directM hw (hs.lt ax) hd.2).1, mul_one]
  · rw [if_neg hd]
    simp only
    rw [copyM_stride.2]
    have e : ((i (1 - ax) : ℤ) * (rtAdjust (queryM al un ax) b.elem (b.size ax) : ℕ) + (i ax : ℕ)).toNat = (applied 2 (queryM al un ax) b.size b.elem).index i := by
      rw [copyM_index hs hi]
      exact_mod_cast Int.toNat_natCast _
    rw [e]
    refine toBuffer_at _ _ _ _ ?_ i ((visited_mem (by omega) _ _).2 hi)
    intro x hx y hy h
    rw [visited_mem (D := 1) (by omega)] at hx hy
    rw [copyM_index hs hx, copyM_index hs hy] at h
    have b1 := (adjust_le (e := b.elem) (un := un) (ax := ax) (hs.lt ax) hs.al1).1
    obtain ⟨p, q⟩ := mix (lt_of_lt_of_le (hx ax) b1) (lt_of_lt_of_le (hy ax) b1) h
    funext d
    fin_cases ax <;> fin_cases d
    · exact q
    · exact p
    · exact p
    · exact q

theorem outM_mem {i : Fin 2 → ℕ} (hi : Box b.size i) (m : ℤ → ℂ) :
    release (queryM al un ax) true (accessOut (queryM al un ax) buf b) m b i =
      m (i (1 - ax) * (accessOut (queryM al un ax) buf b).stride (1 - ax) + i ax) := by
  unfold release accessOut
  by_cases hd : direct (queryM al un ax) false b = true
  · rw [if_pos hd]
    unfold direct at hd
    unfold Blk.arr
    cases hst : b.store with
    | none => rw [hst] at hd; simp at hd
    | some st =>
      rw [hst] at hd
      simp only [Bool.and_eq_true] at hd
      simp only [if_true]
      rw [addrM st.stride ax, (directM hw (hs.lt ax) hd.2).1, mul_one]
  · rw [if_neg hd]
    simp only [Bool.false_eq_true, if_false, if_true]
    rw [toBlock_at _ _ _ _ _ ((visited_mem (D := 1) (by omega) _ _).2 hi), copyM_index hs hi, copyM_stride.2]
    push_cast
    rfl

theorem inoutM_mem {i : Fin 2 → ℕ} (hi : Box b.size i) (m : ℤ → ℂ) :
    release (queryM al un ax) true (accessIn (queryM al un ax) false buf b) m b i =
      m (i (1 - ax) * (accessIn (queryM al un ax) false buf b).stride (1 - ax) + i ax) := by
  have := outM_mem (un := un) (ax := ax) (buf := buf) hs hw hi m
  unfold release accessIn
  unfold release accessOut at this
  by_cases hd : direct (queryM al un ax) false b = true
  · simp only [if_pos hd] at this ⊢; exact this
  · simp only [if_neg hd, Bool.false_eq_true, if_false] at this ⊢; exact this

theorem outM_apart (hdis : Distinct b) : Apart ((accessOut (queryM al un ax) buf b).stride (1 - ax)) (b.size (1 - ax)) (b.size ax) := by
  intro r hr r' hr' c hc c' hc' h
  have pair : ∀ x y : ℕ, x < b.size (1 - ax) → y < b.size ax →
      ∃ i : Fin 2 → ℕ, Box b.size i ∧ i (1 - ax) = x ∧ i ax = y := by
    intro x y hx hy
    refine ⟨fun d => if d = ax then y else x, fun d => ?_, ?_, by simp⟩
    · by_cases hd : d = ax
      · subst hd; simpa using hy
      · have : d = 1 - ax := by fin_cases ax <;> fin_cases d <;> simp_all
        subst this
        simpa [hd] using hx
    · simp [(ax_ne ax).symm]
  unfold accessOut at h
  by_cases hd : direct (queryM al un ax) false b = true
  · rw [if_pos hd] at h
    unfold direct at hd
    unfold Blk.arr at h
    cases hst : b.store with
    | none => rw [hst] at hd; simp at hd
    | some st =>
      rw [hst] at hd h
      simp only [Bool.and_eq_true] at hd
      simp only at h
      obtain ⟨i, hi, i0, i1⟩ := pair r c hr hc
      obtain ⟨j, hj, j0, j1⟩ := pair r' c' hr' hc'
      have := hdis st hst i j hi hj (by
        rw [addrM st.stride ax, addrM st.stride ax, (directM hw (hs.lt ax) hd.2).1, i0, i1, j0, j1, mul_one, mul_one]
        exact h)
      rw [← i0, ← i1, ← j0, ← j1, this]
      exact ⟨rfl, rfl⟩
  · rw [if_neg hd] at h
    simp only at h
    rw [copyM_stride.2] at h
    have b1 := (adjust_le (e := b.elem) (un := un) (ax := ax) (hs.lt ax) hs.al1).1
    exact mix (lt_of_lt_of_le hc b1) (lt_of_lt_of_le hc' b1) (by exact_mod_cast h)

theorem inM_aligned {simd : ℤ} (hal : simd ∣ (al : ℤ)) (hb : simd ∣ (buf.ptr : ℤ)) (he : b.elem ∣ al) (h : un = false) (i : ℕ) :
    simd ∣ (accessIn (queryM al un ax) false buf b).ptr + i * (accessIn (queryM al un ax) false buf b).stride (1 - ax) * b.elem := by
  subst h
  unfold accessIn
  by_cases hd : direct (queryM al false ax) false b = true
  · rw [if_pos hd]
    unfold direct at hd
    unfold Blk.arr
    cases hst : b.store with
    | none => rw [hst] at hd; simp at hd
    | some st =>
      rw [hst] at hd
      simp only [Bool.and_eq_true] at hd
      exact hal.trans ((directM hw (hs.lt ax) hd.2).2.2 rfl i)
  · rw [if_neg hd]
    simp only
    rw [copyM_stride.2]
    have := adjust_aligned (ax := ax) (hs.lt ax) hs.al0 hs.al1 hs.e1 he
    refine dvd_add hb ?_
    rw [mul_assoc]
    exact Dvd.dvd.mul_left (hal.trans (by exact_mod_cast this)) _

omit hs hw in
theorem outM_eq : (accessOut (queryM al un ax) buf b).ptr = (accessIn (queryM al un ax) false buf b).ptr ∧
    (accessOut (queryM al un ax) buf b).stride = (accessIn (queryM al un ax) false buf b).stride := by
  unfold accessOut accessIn
  by_cases hd : direct (queryM al un ax) false b = true
  · simp only [if_pos hd, and_self]
  · simp only [if_neg hd, Bool.false_eq_true, if_false, and_self]

theorem outM_aligned {simd : ℤ} (hal : simd ∣ (al : ℤ)) (hb : simd ∣ (buf.ptr : ℤ)) (he : b.elem ∣ al) (h : un = false) (i : ℕ) :
    simd ∣ (accessOut (queryM al un ax) buf b).ptr + i * (accessOut (queryM al un ax) buf b).stride (1 - ax) * b.elem := by
  obtain ⟨h1, h2⟩ := outM_eq (al := al) (un := un) (ax := ax) (buf := buf) (b := b)
  rw [h1, h2]
  exact inM_aligned hs hw hal hb he h i

end

end Verif.Fftw
