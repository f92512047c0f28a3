import Verif.Dft.Multi

/-!
# C61: the default DFT backend

The specification is in `Spec.lean` (`dft1`, `dft2`, `dft3`: sums of values times roots of unity).  `Inj`, `Inj2`, `Inj3` say that a layout puts
distinct elements at distinct addresses.
-/

namespace Verif.Dft

/-- A split array read as complex values. -/
def joinZ (z : Zm) : Cm := fun a => ⟨z.first a, z.second a⟩

theorem loop_map {σ τ : Type*} (g : σ → τ) (n : ℕ) (f : ℕ → σ → σ) (f' : ℕ → τ → τ) (h : ∀ j < n, ∀ s, g (f j s) = f' j (g s)) (s : σ) :
    g (loop n f s) = loop n f' (g s) := by
  induction n with
  | zero => rfl
  | succ n ih => rw [loop_succ, loop_succ, h n (by omega), ih (fun j hj => h j (by omega))]

theorem join_put (a : ℤ) (z : ℂ) (m : Zm) : joinZ (putZ a z m) = Function.update (joinZ m) a z := by
  funext c
  by_cases h : c = a
  · subst h; simp [joinZ, putZ]
  · simp [joinZ, putZ, Function.update_of_ne h]

theorem pow2_inj (l : ℕ) (s : ℤ) (h : s ≠ 0) : Inj s l := fun w _ w' _ e => by
  have := mul_right_cancel₀ h e
  exact_mod_cast this

end Verif.Dft

namespace Verif.Props

open Verif.Dft

/-! ## The transforms are the sums -/

/-- 1-D, complex, in place: element `w` of the line becomes the transform of the line; nothing else changes. -/
theorem C61_in_place (S : Dir) (b s : ℤ) (l : ℕ) (h : Inj s l) (m : Cm) :
    (∀ w < l, inC2C S b s l m (b + (w : ℤ) * s) = dft1 (S = .fwd) l (fun k => m (b + (k : ℤ) * s)) w) ∧
    (∀ a, (∀ w < l, a ≠ b + (w : ℤ) * s) → inC2C S b s l m a = m a) :=
  ⟨fun w hw => by rw [(inC2C_op S b s l h).at_ m w hw]; cases S <;> rfl, fun a ha => (inC2C_op S b s l h).off m a ha⟩

/-- 1-D, complex, out of place. -/
theorem C61_out_of_place (S : Dir) (x : Cm) (ib is ob os : ℤ) (l : ℕ) (h : Inj os l) (m : Cm) :
    (∀ w < l, outC2C S x ib is ob os l m (ob + (w : ℤ) * os) = dft1 (S = .fwd) l (fun k => x (ib + (k : ℤ) * is)) w) ∧
    (∀ a, (∀ w < l, a ≠ ob + (w : ℤ) * os) → outC2C S x ib is ob os l m a = m a) :=
  ⟨fun w hw => by rw [(outC2C_op S x ib is ob os l h).at_ m w hw]; cases S <;> rfl, fun a ha => (outC2C_op S x ib is ob os l h).off m a ha⟩

/-- 1-D, real to complex: exactly the first `l/2 + 1` values of the forward transform are stored. -/
theorem C61_real_forward (x : Rm) (ib is ob os : ℤ) (l : ℕ) (h : Inj os (l / 2 + 1)) (m : Cm) :
    (∀ w < l / 2 + 1, outR2C x ib is ob os l m (ob + (w : ℤ) * os) = dft1 true l (fun k => (x (ib + (k : ℤ) * is) : ℂ)) w) ∧
    (∀ a, (∀ w < l / 2 + 1, a ≠ ob + (w : ℤ) * os) → outR2C x ib is ob os l m a = m a) :=
  ⟨fun w hw => (outR2C_op x ib is ob os l h).at_ m w hw, fun a ha => (outR2C_op x ib is ob os l h).off m a ha⟩

/-- 1-D, complex to real: given the first `l/2 + 1` values of a Hermitian spectrum, the inverse transform of the whole spectrum is stored. -/
theorem C61_real_inverse (x : Cm) (ib is ob os : ℤ) (l : ℕ) (h : Inj os l) (m : Rm) (X : ℕ → ℂ) (hX : Herm1 l X)
    (hx : ∀ k, k < l / 2 + 1 → k < l → x (ib + (k : ℤ) * is) = X k) :
    (∀ w < l, ((outC2R x ib is ob os l m (ob + (w : ℤ) * os) : ℝ) : ℂ) = dft1 false l X w) ∧
    (∀ a, (∀ w < l, a ≠ ob + (w : ℤ) * os) → outC2R x ib is ob os l m a = m a) :=
  ⟨fun w hw => by rw [(outC2R_op x ib is ob os l h).at_ m w hw, c2r_herm l X _ hX hx], fun a ha => (outC2R_op x ib is ob os l h).off m a ha⟩

/-- 2-D, complex, in place and out of place. -/
theorem C61_2d (S : Dir) (x : Cm) (ib irs ics b rs cs : ℤ) (R C : ℕ) (h : Inj2 rs cs R C) (m : Cm) :
    (∀ u < R, ∀ v < C, inC2C2 S b rs cs R C m (b + (u : ℤ) * rs + (v : ℤ) * cs)
      = dft2 (S = .fwd) R C (fun r c => m (b + (r : ℤ) * rs + (c : ℤ) * cs)) u v) ∧
    (∀ u < R, ∀ v < C, outC2C2 S x ib irs ics b rs cs R C m (b + (u : ℤ) * rs + (v : ℤ) * cs)
      = dft2 (S = .fwd) R C (fun r c => x (ib + (r : ℤ) * irs + (c : ℤ) * ics)) u v) ∧
    (∀ a, (∀ u < R, ∀ v < C, a ≠ b + (u : ℤ) * rs + (v : ℤ) * cs) →
      inC2C2 S b rs cs R C m a = m a ∧ outC2C2 S x ib irs ics b rs cs R C m a = m a) :=
  ⟨fun u hu v hv => by rw [(inC2C2_op S b rs cs R C h).at_ m (u, v) ⟨hu, hv⟩]; cases S <;> rfl,
   fun u hu v hv => by rw [(outC2C2_op S x ib irs ics b rs cs R C h).at_ m (u, v) ⟨hu, hv⟩]; cases S <;> rfl,
   fun a ha => ⟨(inC2C2_op S b rs cs R C h).off m a (fun p hp => ha p.1 hp.1 p.2 hp.2),
    (outC2C2_op S x ib irs ics b rs cs R C h).off m a (fun p hp => ha p.1 hp.1 p.2 hp.2)⟩⟩

/-- 2-D, real to complex, along either axis: the half of the spectrum that is stored is the forward transform. -/
theorem C61_2d_real_forward (axis : ℕ) (x : Rm) (ib irs ics b rs cs : ℤ) (R C : ℕ)
    (h : Inj2 rs cs (half2 axis R C).1 (half2 axis R C).2) (m : Cm) :
    (∀ u < (half2 axis R C).1, ∀ v < (half2 axis R C).2, outR2C2 axis x ib irs ics b rs cs R C m (b + (u : ℤ) * rs + (v : ℤ) * cs)
      = dft2 true R C (fun r c => (x (ib + (r : ℤ) * irs + (c : ℤ) * ics) : ℂ)) u v) ∧
    (∀ a, (∀ u < (half2 axis R C).1, ∀ v < (half2 axis R C).2, a ≠ b + (u : ℤ) * rs + (v : ℤ) * cs) →
      outR2C2 axis x ib irs ics b rs cs R C m a = m a) :=
  ⟨fun u hu v hv => (outR2C2_op axis x ib irs ics b rs cs R C h).at_ m (u, v) ⟨hu, hv⟩,
   fun a ha => (outR2C2_op axis x ib irs ics b rs cs R C h).off m a (fun p hp => ha p.1 hp.1 p.2 hp.2)⟩

/-- 2-D, complex to real, along either axis: given half of a Hermitian spectrum, the inverse transform of all of it. -/
theorem C61_2d_real_inverse (axis : ℕ) (x : Cm) (ib irs ics b rs cs : ℤ) (R C : ℕ) (h : Inj2 rs cs R C) (m : Rm)
    (X : ℕ → ℕ → ℂ) (hX : Herm2 R C X)
    (hx : ∀ u < R, ∀ v < C, u < (half2 axis R C).1 → v < (half2 axis R C).2 → x (ib + (u : ℤ) * irs + (v : ℤ) * ics) = X u v) :
    (∀ r < R, ∀ c < C, ((outC2R2 axis x ib irs ics b rs cs R C m (b + (r : ℤ) * rs + (c : ℤ) * cs) : ℝ) : ℂ) = dft2 false R C X r c) ∧
    (∀ a, (∀ u < R, ∀ v < C, a ≠ b + (u : ℤ) * rs + (v : ℤ) * cs) → outC2R2 axis x ib irs ics b rs cs R C m a = m a) := by
  obtain ⟨F, hF, hv⟩ := outC2R2_op axis x ib irs ics b rs cs R C h X hX hx
  exact ⟨fun r hr c hc => by rw [hF.at_ m (r, c) ⟨hr, hc⟩, hv _ (r, c) ⟨hr, hc⟩], fun a ha => hF.off m a (fun p hp => ha p.1 hp.1 p.2 hp.2)⟩

/-- 3-D, complex, in place and out of place. -/
theorem C61_3d (S : Dir) (x : Cm) (ib : ℤ) (is : T3 ℤ) (b : ℤ) (s : T3 ℤ) (n : T3 ℕ) (h : Inj3 s n) (m : Cm) :
    (∀ p, dom3 n p → inC2C3 S b s n m (addr3 b s p) = dft3 (S = .fwd) n.x n.y n.z (fun i j k => m (addr3 b s (i, j, k))) p.1 p.2.1 p.2.2) ∧
    (∀ p, dom3 n p → outC2C3 S x ib is b s n m (addr3 b s p)
      = dft3 (S = .fwd) n.x n.y n.z (fun i j k => x (addr3 ib is (i, j, k))) p.1 p.2.1 p.2.2) ∧
    (∀ a, (∀ p, dom3 n p → a ≠ addr3 b s p) → inC2C3 S b s n m a = m a ∧ outC2C3 S x ib is b s n m a = m a) :=
  ⟨fun p hp => by rw [(inC2C3_op S b s n h).at_ m p hp]; cases S <;> rfl,
   fun p hp => by rw [(outC2C3_op S x ib is b s n h).at_ m p hp]; cases S <;> rfl,
   fun a ha => ⟨(inC2C3_op S b s n h).off m a ha, (outC2C3_op S x ib is b s n h).off m a ha⟩⟩

/-- 3-D, real to complex, along any axis. -/
theorem C61_3d_real_forward (axis : ℕ) (x : Rm) (ib : ℤ) (is : T3 ℤ) (b : ℤ) (s : T3 ℤ) (n : T3 ℕ) (h : Inj3 s (half3 axis n)) (m : Cm) :
    (∀ p, dom3 (half3 axis n) p → outR2C3 axis x ib is b s n m (addr3 b s p)
      = dft3 true n.x n.y n.z (fun i j k => (x (addr3 ib is (i, j, k)) : ℂ)) p.1 p.2.1 p.2.2) ∧
    (∀ a, (∀ p, dom3 (half3 axis n) p → a ≠ addr3 b s p) → outR2C3 axis x ib is b s n m a = m a) :=
  ⟨fun p hp => (outR2C3_op axis x ib is b s n h).at_ m p hp, fun a ha => (outR2C3_op axis x ib is b s n h).off m a ha⟩

/-- 3-D, complex to real, along any axis. -/
theorem C61_3d_real_inverse (axis : ℕ) (x : Cm) (ib : ℤ) (is : T3 ℤ) (b : ℤ) (s : T3 ℤ) (n : T3 ℕ) (h : Inj3 s n) (m : Rm)
    (X : ℕ → ℕ → ℕ → ℂ) (hX : Herm3 n.x n.y n.z X)
    (hx : ∀ i < n.x, ∀ j < n.y, ∀ k < n.z, dom3 (half3 axis n) (i, j, k) → x (addr3 ib is (i, j, k)) = X i j k) :
    (∀ p, dom3 n p → ((outC2R3 axis x ib is b s n m (addr3 b s p) : ℝ) : ℂ) = dft3 false n.x n.y n.z X p.1 p.2.1 p.2.2) ∧
    (∀ a, (∀ p, dom3 n p → a ≠ addr3 b s p) → outC2R3 axis x ib is b s n m a = m a) := by
  obtain ⟨F, hF, hv⟩ := outC2R3_op axis x ib is b s n h X hX hx
  exact ⟨fun p hp => by rw [hF.at_ m p hp, hv _ p hp], fun a ha => hF.off m a ha⟩

/-! ## Round trips -/

/-- Forward then inverse multiplies by the number of values, in place, in one, two and three dimensions. -/
theorem C61_inverse (b s : ℤ) (l : ℕ) (h : Inj s l) (m : Cm) (w : ℕ) (hw : w < l) :
    inC2C .inv b s l (inC2C .fwd b s l m) (b + (w : ℤ) * s) = l * m (b + (w : ℤ) * s) := by
  rw [(C61_in_place .inv b s l h _).1 w hw]
  have : ∀ k < l, inC2C .fwd b s l m (b + (k : ℤ) * s) = dft1 true l (fun k => m (b + (k : ℤ) * s)) k :=
    fun k hk => (C61_in_place .fwd b s l h m).1 k hk
  rw [dft1_congr _ _ _ _ this]
  exact dft1_inv l _ w hw

theorem C61_2d_inverse (b rs cs : ℤ) (R C : ℕ) (h : Inj2 rs cs R C) (m : Cm) (r c : ℕ) (hr : r < R) (hc : c < C) :
    inC2C2 .inv b rs cs R C (inC2C2 .fwd b rs cs R C m) (b + (r : ℤ) * rs + (c : ℤ) * cs) = R * C * m (b + (r : ℤ) * rs + (c : ℤ) * cs) := by
  rw [(C61_2d .inv (fun _ => 0) 0 0 0 b rs cs R C h _).1 r hr c hc]
  rw [dft2_congr _ _ _ _ _ (fun u hu v hv => (C61_2d .fwd (fun _ => 0) 0 0 0 b rs cs R C h m).1 u hu v hv)]
  exact dft2_inv R C _ r c hr hc

theorem C61_3d_inverse (b : ℤ) (s : T3 ℤ) (n : T3 ℕ) (h : Inj3 s n) (m : Cm) (p : ℕ × ℕ × ℕ) (hp : dom3 n p) :
    inC2C3 .inv b s n (inC2C3 .fwd b s n m) (addr3 b s p) = n.x * n.y * n.z * m (addr3 b s p) := by
  rw [(C61_3d .inv (fun _ => 0) 0 s b s n h _).1 p hp]
  have : dft3 (decide (Dir.inv = Dir.fwd)) n.x n.y n.z (fun i j k => inC2C3 .fwd b s n m (addr3 b s (i, j, k))) p.1 p.2.1 p.2.2
      = dft3 false n.x n.y n.z (dft3 true n.x n.y n.z (fun i j k => m (addr3 b s (i, j, k)))) p.1 p.2.1 p.2.2 := by
    rw [← dft3_lines, ← dft3_lines]
    exact dft1_congr _ _ _ _ (fun i hi => dft2_congr _ _ _ _ _ (fun j hj k hk => (C61_3d .fwd (fun _ => 0) 0 s b s n h m).1 (i, j, k) ⟨hi, hj, hk⟩) _ _) _
  rw [this]
  exact dft3_inv n.x n.y n.z _ _ _ _ hp.1 hp.2.1 hp.2.2

/-- Real to complex and back multiplies by the number of values. -/
theorem C61_real_round_trip (x : Rm) (ib is tb ts ob os : ℤ) (l : ℕ) (ht : Inj ts (l / 2 + 1)) (ho : Inj os l) (t : Cm) (m : Rm) (w : ℕ) (hw : w < l) :
    outC2R (outR2C x ib is tb ts l t) tb ts ob os l m (ob + (w : ℤ) * os) = l * x (ib + (w : ℤ) * is) := by
  have h := (C61_real_inverse (outR2C x ib is tb ts l t) tb ts ob os l ho m (dft1 true l (fun k => (x (ib + (k : ℤ) * is) : ℂ)))
    (dft1_real_herm l (fun k => x (ib + (k : ℤ) * is))) (fun k hk _ => (C61_real_forward x ib is tb ts l ht t).1 k hk)).1 w hw
  rw [dft1_inv l _ w hw] at h
  exact_mod_cast h

theorem C61_2d_real_round_trip (axis : ℕ) (x : Rm) (ib irs ics tb trs tcs ob rs cs : ℤ) (R C : ℕ)
    (ht : Inj2 trs tcs (half2 axis R C).1 (half2 axis R C).2) (ho : Inj2 rs cs R C) (t : Cm) (m : Rm) (r c : ℕ) (hr : r < R) (hc : c < C) :
    outC2R2 axis (outR2C2 axis x ib irs ics tb trs tcs R C t) tb trs tcs ob rs cs R C m (ob + (r : ℤ) * rs + (c : ℤ) * cs)
      = R * C * x (ib + (r : ℤ) * irs + (c : ℤ) * ics) := by
  have h := (C61_2d_real_inverse axis (outR2C2 axis x ib irs ics tb trs tcs R C t) tb trs tcs ob rs cs R C ho m
    (dft2 true R C (fun r c => (x (ib + (r : ℤ) * irs + (c : ℤ) * ics) : ℂ)))
    (dft2_real_herm R C (fun r c => x (ib + (r : ℤ) * irs + (c : ℤ) * ics)))
    (fun u _ v _ hu hv => (C61_2d_real_forward axis x ib irs ics tb trs tcs R C ht t).1 u hu v hv)).1 r hr c hc
  rw [dft2_inv R C _ r c hr hc] at h
  exact_mod_cast h

theorem C61_3d_real_round_trip (axis : ℕ) (x : Rm) (ib : ℤ) (is : T3 ℤ) (tb : ℤ) (ts : T3 ℤ) (ob : ℤ) (os : T3 ℤ) (n : T3 ℕ)
    (ht : Inj3 ts (half3 axis n)) (ho : Inj3 os n) (t : Cm) (m : Rm) (p : ℕ × ℕ × ℕ) (hp : dom3 n p) :
    outC2R3 axis (outR2C3 axis x ib is tb ts n t) tb ts ob os n m (addr3 ob os p) = n.x * n.y * n.z * x (addr3 ib is p) := by
  have h := (C61_3d_real_inverse axis (outR2C3 axis x ib is tb ts n t) tb ts ob os n ho m
    (dft3 true n.x n.y n.z (fun i j k => (x (addr3 ib is (i, j, k)) : ℂ)))
    (dft3_real_herm n.x n.y n.z (fun i j k => x (addr3 ib is (i, j, k))))
    (fun i _ j _ k _ hd => (C61_3d_real_forward axis x ib is tb ts n ht t).1 (i, j, k) hd)).1 p hp
  rw [dft3_inv n.x n.y n.z _ _ _ _ hp.1 hp.2.1 hp.2.2] at h
  exact_mod_cast h

/-! ## Many lines -/

/-- `dftm`: every row (or every column) is transformed by itself. -/
theorem C61_lines (S : Dir) (x : Cm) (ib irs ics b rs cs : ℤ) (R C : ℕ) (h : Inj2 rs cs R C) (m : Cm) (r c : ℕ) (hr : r < R) (hc : c < C) :
    inM S false b rs cs R C m (b + (r : ℤ) * rs + (c : ℤ) * cs) = dft1 (S = .fwd) C (fun k => m (b + (r : ℤ) * rs + (k : ℤ) * cs)) c ∧
    inM S true b rs cs R C m (b + (r : ℤ) * rs + (c : ℤ) * cs) = dft1 (S = .fwd) R (fun k => m (b + (k : ℤ) * rs + (c : ℤ) * cs)) r ∧
    outM S false x ib irs ics b rs cs R C m (b + (r : ℤ) * rs + (c : ℤ) * cs)
      = dft1 (S = .fwd) C (fun k => x (ib + (r : ℤ) * irs + (k : ℤ) * ics)) c ∧
    outM S true x ib irs ics b rs cs R C m (b + (r : ℤ) * rs + (c : ℤ) * cs)
      = dft1 (S = .fwd) R (fun k => x (ib + (k : ℤ) * irs + (c : ℤ) * ics)) r := by
  refine ⟨?_, ?_, ?_, ?_⟩
  · have := (rows_in S b rs cs R C h).at_ m (r, c) ⟨hr, hc⟩
    cases S <;> exact this
  · have := (cols_in S b rs cs R C h).at_ m (r, c) ⟨hr, hc⟩
    cases S <;> exact this
  · have := (rows_out S x ib irs ics b rs cs R C h).at_ m (r, c) ⟨hr, hc⟩
    cases S <;> exact this
  · have := (cols_out S x ib irs ics b rs cs R C h).at_ m (r, c) ⟨hr, hc⟩
    cases S <;> exact this

/-- `dftm`, real: along rows and along columns, there and back. -/
theorem C61_lines_real (col : Bool) (x : Rm) (ib irs ics tb trs tcs ob rs cs : ℤ) (R C : ℕ)
    (ht : Inj2 trs tcs (if col then R / 2 + 1 else R) (if col then C else C / 2 + 1)) (ho : Inj2 rs cs R C) (t : Cm) (m : Rm)
    (r c : ℕ) (hr : r < R) (hc : c < C) :
    outMR col (outRM col x ib irs ics tb trs tcs R C t) tb trs tcs ob rs cs R C m (ob + (r : ℤ) * rs + (c : ℤ) * cs)
      = (if col then (R : ℝ) else C) * x (ib + (r : ℤ) * irs + (c : ℤ) * ics) := by
  cases col
  · have h1 := rows_r2c x ib irs ics tb trs tcs R C ht
    have h2 := (rows_c2r (outRM false x ib irs ics tb trs tcs R C t) tb trs tcs ob rs cs R C ho).at_ m (r, c) ⟨hr, hc⟩
    have h3 := c2r_herm C (dft1 true C (fun k => (x (ib + (r : ℤ) * irs + (k : ℤ) * ics) : ℂ)))
      (fun k => outRM false x ib irs ics tb trs tcs R C t (tb + (r : ℤ) * trs + (k : ℤ) * tcs))
      (dft1_real_herm C (fun k => x (ib + (r : ℤ) * irs + (k : ℤ) * ics))) (fun k hk _ => h1.at_ t (r, k) ⟨hr, hk⟩) c
    rw [dft1_inv C _ c hc] at h3
    refine Eq.trans h2 ?_
    exact_mod_cast h3
  · have h1 := cols_r2c x ib irs ics tb trs tcs R C ht
    have h2 := (cols_c2r (outRM true x ib irs ics tb trs tcs R C t) tb trs tcs ob rs cs R C ho).at_ m (r, c) ⟨hr, hc⟩
    have h3 := c2r_herm R (dft1 true R (fun k => (x (ib + (k : ℤ) * irs + (c : ℤ) * ics) : ℂ)))
      (fun k => outRM true x ib irs ics tb trs tcs R C t (tb + (k : ℤ) * trs + (c : ℤ) * tcs))
      (dft1_real_herm R (fun k => x (ib + (k : ℤ) * irs + (c : ℤ) * ics))) (fun k hk _ => h1.at_ t (k, c) ⟨hk, hc⟩) r
    rw [dft1_inv R _ r hr] at h3
    refine Eq.trans h2 ?_
    exact_mod_cast h3

/-! ## Split storage -/

/-- The split overloads compute the same values as the interleaved ones. -/
theorem C61_split (S : Dir) (x z : Zm) (y m : Rm) (ib is ob os : ℤ) (l : ℕ) :
    joinZ (inC2CZ S ob os l z) = inC2C S ob os l (joinZ z) ∧
    joinZ (outC2CZ S x ib is ob os l z) = outC2C S (joinZ x) ib is ob os l (joinZ z) ∧
    joinZ (outR2CZ y ib is ob os l z) = outR2C y ib is ob os l (joinZ z) ∧
    outC2RZ x ib is ob os l m = outC2R (joinZ x) ib is ob os l m := by
  refine ⟨?_, ?_, ?_, rfl⟩
  · exact loop_map joinZ l _ _ (fun j _ s => join_put _ _ s) z
  · exact loop_map joinZ l _ _ (fun j _ s => join_put _ _ s) z
  · exact loop_map joinZ (l / 2 + 1) _ _ (fun j _ s => join_put _ _ s) z

/-- `offset` moves both pointers by the given number of elements when it fits an `int`.
Missing: greater numbers, see `C61_offset_false`. -/
theorem C61_offset_partial (b o : ℤ) (h : -2 ^ 31 ≤ o) (h' : o < 2 ^ 31) : offsetZ b o = b + o := by
  unfold offsetZ
  rw [Int.emod_eq_of_lt (by linarith) (by linarith)]; ring

/-- It does not otherwise: the split 3-D transforms and `dftm` go wrong on arrays with a line 2^31 elements from the start. -/
theorem C61_offset_false : ¬ ∀ b o : ℤ, offsetZ b o = b + o := by
  intro h
  have := h 0 (2 ^ 31)
  revert this
  decide

/-! ## Examples -/

/-- A reversed line with gaps. -/
example : Inj (-3) 7 := pow2_inj 7 (-3) (by decide)

/-- Row-major and column-major matrices; the half spectra of a 4 by 6 matrix. -/
example : Inj2 6 1 4 6 ∧ Inj2 1 4 4 6 ∧ half2 0 4 6 = (3, 6) ∧ half2 1 4 6 = (4, 4) :=
  ⟨dense_inj2 4 6, (dense_inj2 6 4).swap, rfl, rfl⟩

/-- A tensor. -/
example : Inj3 ⟨12, 1, 3⟩ ⟨2, 3, 4⟩ := dense_inj3 2 3 4

/-- A spectrum that is Hermitian and not constant: 1, i, 2, -i. -/
example : Herm1 4 (fun k => if k = 0 then 1 else if k = 1 then Complex.I else if k = 2 then 2 else -Complex.I) := by
  intro k hk
  have h2 : (starRingEnd ℂ) 2 = 2 := map_ofNat (starRingEnd ℂ) 2
  match k, hk with
  | 0, _ => simp [opp]
  | 1, _ => simp [opp]
  | 2, _ => simp [opp, h2]
  | 3, _ => simp [opp]
  | _ + 4, h => omega

/-- The transform of two values is their sum and difference. -/
example (b : ℤ) (m : Cm) : inC2C .fwd b 1 2 m b = m b + m (b + 1) ∧ inC2C .fwd b 1 2 m (b + 1) = m b - m (b + 1) := by
  have h := (C61_in_place .fwd b 1 2 (pow2_inj 2 1 (by decide)) m).1
  have h0 := h 0 (by omega)
  have h1 := h 1 (by omega)
  have e : Complex.exp (-(2 * Real.pi * Complex.I) / 2) = -1 := by
    rw [show -(2 * Real.pi * Complex.I) / 2 = -(Real.pi * Complex.I) by ring, Complex.exp_neg, Complex.exp_pi_mul_I]; norm_num
  simp [dft1, Finset.sum_range_succ, Verif.Dft.unit, e] at h0 h1
  exact ⟨h0, by rw [h1]; ring⟩

end Verif.Props
