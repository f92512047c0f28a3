import Verif.Dft.Lemmas
import Mathlib.Tactic.NormNum

namespace Verif.Dft

open Finset

theorem Op.congr {ι V : Type*} {f : (ℤ → V) → ℤ → V} {addr : ι → ℤ} {dom : ι → Prop} {F G : (ι → V) → ι → V}
    (hf : Op f addr dom F) (h : ∀ x i, dom i → F x i = G x i) : Op f addr dom G where
  at_ m i hi := by rw [hf.at_ m i hi, h _ i hi]
  off := hf.off
  loc x y hxy i hi := by rw [← h x i hi, ← h y i hi]; exact hf.loc x y hxy i hi

/-- Distinct elements of a `R` by `C` matrix are at distinct addresses. -/
def Inj2 (rs cs : ℤ) (R C : ℕ) : Prop :=
  ∀ r < R, ∀ r' < R, ∀ c < C, ∀ c' < C, (r : ℤ) * rs + (c : ℤ) * cs = (r' : ℤ) * rs + (c' : ℤ) * cs → r = r' ∧ c = c'

theorem Inj2.row {rs cs : ℤ} {R C : ℕ} (h : Inj2 rs cs R C) (hR : 0 < R) : Inj cs C :=
  fun w hw w' hw' e => (h 0 hR 0 hR w hw w' hw' (by rw [e])).2

theorem Inj2.col {rs cs : ℤ} {R C : ℕ} (h : Inj2 rs cs R C) (hC : 0 < C) : Inj rs R :=
  fun w hw w' hw' e => (h w hw w' hw' 0 hC 0 hC (by rw [e])).1

theorem Inj2.swap {rs cs : ℤ} {R C : ℕ} (h : Inj2 rs cs R C) : Inj2 cs rs C R :=
  fun c hc c' hc' r hr r' hr' e => (h r hr r' hr' c hc c' hc' (by linarith)).symm

abbrev dom2 (R C : ℕ) (p : ℕ × ℕ) : Prop := p.1 < R ∧ p.2 < C

theorem rows_in (S : Dir) (b rs cs : ℤ) (R C : ℕ) (h : Inj2 rs cs R C) :
    Op (loop R (fun r m => inC2C S (b + (r : ℤ) * rs) cs C m)) (fun p : ℕ × ℕ => b + (p.1 : ℤ) * rs + (p.2 : ℤ) * cs) (dom2 R C)
      (fun x p => dft1 S.neg C (fun c => x (p.1, c)) p.2) :=
  Op.loop R (fun r m => inC2C S (b + (r : ℤ) * rs) cs C m) (fun r (w : ℕ) => b + (r : ℤ) * rs + (w : ℤ) * cs) (· < C)
    (fun _ x w => dft1 S.neg C x w) (fun r hr => inC2C_op S _ cs C (h.row (by omega)))
    (fun i hi j hj p q hp hq e => (h i hi j hj p hp q hq (by linarith)).1)

theorem cols_in (S : Dir) (b rs cs : ℤ) (R C : ℕ) (h : Inj2 rs cs R C) :
    Op (loop C (fun c m => inC2C S (b + (c : ℤ) * cs) rs R m)) (fun p : ℕ × ℕ => b + (p.1 : ℤ) * rs + (p.2 : ℤ) * cs) (dom2 R C)
      (fun x p => dft1 S.neg R (fun r => x (r, p.2)) p.1) :=
  (rows_in S b cs rs C R h.swap).reindex Prod.swap Prod.swap (fun _ => rfl) _ _ (fun p => by simp only [Prod.fst_swap, Prod.snd_swap]; ring)
    (fun p => and_comm)

theorem rows_out (S : Dir) (x : Cm) (ib irs ics ob rs cs : ℤ) (R C : ℕ) (h : Inj2 rs cs R C) :
    Op (loop R (fun r m => outC2C S x (ib + (r : ℤ) * irs) ics (ob + (r : ℤ) * rs) cs C m))
      (fun p : ℕ × ℕ => ob + (p.1 : ℤ) * rs + (p.2 : ℤ) * cs) (dom2 R C)
      (fun _ p => dft1 S.neg C (fun c => x (ib + (p.1 : ℤ) * irs + (c : ℤ) * ics)) p.2) :=
  Op.loop R (fun r m => outC2C S x (ib + (r : ℤ) * irs) ics (ob + (r : ℤ) * rs) cs C m) (fun r (w : ℕ) => ob + (r : ℤ) * rs + (w : ℤ) * cs) (· < C)
    (fun r _ w => dft1 S.neg C (fun c => x (ib + (r : ℤ) * irs + (c : ℤ) * ics)) w)
    (fun r hr => outC2C_op S x _ ics _ cs C (h.row (by omega)))
    (fun i hi j hj p q hp hq e => (h i hi j hj p hp q hq (by linarith)).1)

theorem cols_out (S : Dir) (x : Cm) (ib irs ics ob rs cs : ℤ) (R C : ℕ) (h : Inj2 rs cs R C) :
    Op (loop C (fun c m => outC2C S x (ib + (c : ℤ) * ics) irs (ob + (c : ℤ) * cs) rs R m))
      (fun p : ℕ × ℕ => ob + (p.1 : ℤ) * rs + (p.2 : ℤ) * cs) (dom2 R C)
      (fun _ p => dft1 S.neg R (fun r => x (ib + (r : ℤ) * irs + (p.2 : ℤ) * ics)) p.1) :=
  ((rows_out S x ib ics irs ob cs rs C R h.swap).reindex Prod.swap Prod.swap (fun _ => rfl) _ _
    (fun p => by simp only [Prod.fst_swap, Prod.snd_swap]; ring) (fun p => and_comm)).congr
    (fun _ p _ => dft1_congr _ _ _ _ (fun r _ => by
      show x (ib + (p.2 : ℤ) * ics + (r : ℤ) * irs) = _
      congr 1; ring) _)

theorem rows_r2c (x : Rm) (ib irs ics ob rs cs : ℤ) (R C : ℕ) (h : Inj2 rs cs R (C / 2 + 1)) :
    Op (loop R (fun r m => outR2C x (ib + (r : ℤ) * irs) ics (ob + (r : ℤ) * rs) cs C m))
      (fun p : ℕ × ℕ => ob + (p.1 : ℤ) * rs + (p.2 : ℤ) * cs) (dom2 R (C / 2 + 1))
      (fun _ p => dft1 true C (fun c => (x (ib + (p.1 : ℤ) * irs + (c : ℤ) * ics) : ℂ)) p.2) :=
  Op.loop R (fun r m => outR2C x (ib + (r : ℤ) * irs) ics (ob + (r : ℤ) * rs) cs C m) (fun r (w : ℕ) => ob + (r : ℤ) * rs + (w : ℤ) * cs) (· < C / 2 + 1)
    (fun r _ w => dft1 true C (fun c => (x (ib + (r : ℤ) * irs + (c : ℤ) * ics) : ℂ)) w)
    (fun r hr => outR2C_op x _ ics _ cs C (h.row (by omega)))
    (fun i hi j hj p q hp hq e => (h i hi j hj p hp q hq (by linarith)).1)

theorem cols_r2c (x : Rm) (ib irs ics ob rs cs : ℤ) (R C : ℕ) (h : Inj2 rs cs (R / 2 + 1) C) :
    Op (loop C (fun c m => outR2C x (ib + (c : ℤ) * ics) irs (ob + (c : ℤ) * cs) rs R m))
      (fun p : ℕ × ℕ => ob + (p.1 : ℤ) * rs + (p.2 : ℤ) * cs) (dom2 (R / 2 + 1) C)
      (fun _ p => dft1 true R (fun r => (x (ib + (r : ℤ) * irs + (p.2 : ℤ) * ics) : ℂ)) p.1) :=
  ((rows_r2c x ib ics irs ob cs rs C R h.swap).reindex Prod.swap Prod.swap (fun _ => rfl) _ _
    (fun p => by simp only [Prod.fst_swap, Prod.snd_swap]; ring) (fun p => and_comm)).congr
    (fun _ p _ => dft1_congr _ _ _ _ (fun r _ => by
      show (x (ib + (p.2 : ℤ) * ics + (r : ℤ) * irs) : ℂ) = _
      congr 2; ring) _)

theorem rows_c2r (x : Cm) (ib irs ics ob rs cs : ℤ) (R C : ℕ) (h : Inj2 rs cs R C) :
    Op (loop R (fun r m => outC2R x (ib + (r : ℤ) * irs) ics (ob + (r : ℤ) * rs) cs C m))
      (fun p : ℕ × ℕ => ob + (p.1 : ℤ) * rs + (p.2 : ℤ) * cs) (dom2 R C)
      (fun _ p => (dft1 false C (hext C (fun c => x (ib + (p.1 : ℤ) * irs + (c : ℤ) * ics))) p.2).re) :=
  Op.loop R (fun r m => outC2R x (ib + (r : ℤ) * irs) ics (ob + (r : ℤ) * rs) cs C m) (fun r (w : ℕ) => ob + (r : ℤ) * rs + (w : ℤ) * cs) (· < C)
    (fun r _ w => (dft1 false C (hext C (fun c => x (ib + (r : ℤ) * irs + (c : ℤ) * ics))) w).re)
    (fun r hr => outC2R_op x _ ics _ cs C (h.row (by omega)))
    (fun i hi j hj p q hp hq e => (h i hi j hj p hp q hq (by linarith)).1)

theorem cols_c2r (x : Cm) (ib irs ics ob rs cs : ℤ) (R C : ℕ) (h : Inj2 rs cs R C) :
    Op (loop C (fun c m => outC2R x (ib + (c : ℤ) * ics) irs (ob + (c : ℤ) * cs) rs R m))
      (fun p : ℕ × ℕ => ob + (p.1 : ℤ) * rs + (p.2 : ℤ) * cs) (dom2 R C)
      (fun _ p => (dft1 false R (hext R (fun r => x (ib + (r : ℤ) * irs + (p.2 : ℤ) * ics))) p.1).re) :=
  ((rows_c2r x ib ics irs ob cs rs C R h.swap).reindex Prod.swap Prod.swap (fun _ => rfl) _ _
    (fun p => by simp only [Prod.fst_swap, Prod.snd_swap]; ring) (fun p => and_comm)).congr
    (fun _ p _ => by
      have e : (fun c : ℕ => x (ib + ((Prod.swap p).1 : ℤ) * ics + (c : ℤ) * irs)) = (fun r : ℕ => x (ib + (r : ℤ) * irs + (p.2 : ℤ) * ics)) := by
        funext r
        show x (ib + (p.2 : ℤ) * ics + (r : ℤ) * irs) = _
        congr 1; ring
      show (dft1 false R (hext R (fun c : ℕ => x (ib + ((Prod.swap p).1 : ℤ) * ics + (c : ℤ) * irs))) _).re = _
      rw [e]; rfl)

/-! ## 2-D -/

theorem inC2C2_op (S : Dir) (b rs cs : ℤ) (R C : ℕ) (h : Inj2 rs cs R C) :
    Op (inC2C2 S b rs cs R C) (fun p : ℕ × ℕ => b + (p.1 : ℤ) * rs + (p.2 : ℤ) * cs) (dom2 R C)
      (fun x p => dft2 S.neg R C (fun r c => x (r, c)) p.1 p.2) :=
  ((rows_in S b rs cs R C h).comp (cols_in S b rs cs R C h)).congr (fun x p _ => dft2_lines S.neg R C (fun r c => x (r, c)) p.1 p.2)

theorem outC2C2_op (S : Dir) (x : Cm) (ib irs ics ob rs cs : ℤ) (R C : ℕ) (h : Inj2 rs cs R C) :
    Op (outC2C2 S x ib irs ics ob rs cs R C) (fun p : ℕ × ℕ => ob + (p.1 : ℤ) * rs + (p.2 : ℤ) * cs) (dom2 R C)
      (fun _ p => dft2 S.neg R C (fun r c => x (ib + (r : ℤ) * irs + (c : ℤ) * ics)) p.1 p.2) :=
  ((rows_out S x ib irs ics ob rs cs R C h).comp (cols_in S ob rs cs R C h)).congr
    (fun _ p _ => dft2_lines S.neg R C (fun r c => x (ib + (r : ℤ) * irs + (c : ℤ) * ics)) p.1 p.2)

/-- The sizes of the half spectrum: halved in the given axis. -/
def half2 (axis R C : ℕ) : ℕ × ℕ := if axis = 0 then (R / 2 + 1, C) else (R, C / 2 + 1)

theorem outR2C2_op (axis : ℕ) (x : Rm) (ib irs ics ob rs cs : ℤ) (R C : ℕ) (h : Inj2 rs cs (half2 axis R C).1 (half2 axis R C).2) :
    Op (outR2C2 axis x ib irs ics ob rs cs R C) (fun p : ℕ × ℕ => ob + (p.1 : ℤ) * rs + (p.2 : ℤ) * cs) (dom2 (half2 axis R C).1 (half2 axis R C).2)
      (fun _ p => dft2 true R C (fun r c => (x (ib + (r : ℤ) * irs + (c : ℤ) * ics) : ℂ)) p.1 p.2) := by
  unfold half2 at h ⊢
  unfold outR2C2
  split
  · rename_i ha
    rw [if_pos ha] at h
    exact ((cols_r2c x ib irs ics ob rs cs R C h).comp (rows_in .fwd ob rs cs (R / 2 + 1) C h)).congr
      (fun _ p _ => dft2_lines' true R C (fun r c => (x (ib + (r : ℤ) * irs + (c : ℤ) * ics) : ℂ)) p.1 p.2)
  · rename_i ha
    rw [if_neg ha] at h
    exact ((rows_r2c x ib irs ics ob rs cs R C h).comp (cols_in .fwd ob rs cs R (C / 2 + 1) h)).congr
      (fun _ p _ => dft2_lines true R C (fun r c => (x (ib + (r : ℤ) * irs + (c : ℤ) * ics) : ℂ)) p.1 p.2)

theorem dense_inj2 (R C : ℕ) : Inj2 (C : ℤ) 1 R C := by
  intro r _ r' _ c hc c' hc' e
  have e' : r * C + c = r' * C + c' := by exact_mod_cast (by linarith : (r : ℤ) * C + c = (r' : ℤ) * C + c')
  have hc0 : 0 < C := by omega
  have h1 : r = r' := by
    have := congrArg (· / C) e'
    simpa [Nat.add_div_of_dvd_right, Nat.mul_div_cancel _ hc0, Nat.div_eq_of_lt hc, Nat.div_eq_of_lt hc'] using this
  subst h1
  exact ⟨rfl, by omega⟩

theorem outC2R2_op (axis : ℕ) (x : Cm) (ib irs ics ob rs cs : ℤ) (R C : ℕ) (h : Inj2 rs cs R C)
    (X : ℕ → ℕ → ℂ) (hX : Herm2 R C X)
    (hx : ∀ u < R, ∀ v < C, u < (half2 axis R C).1 → v < (half2 axis R C).2 → x (ib + (u : ℤ) * irs + (v : ℤ) * ics) = X u v) :
    ∃ F, Op (outC2R2 axis x ib irs ics ob rs cs R C) (fun p : ℕ × ℕ => ob + (p.1 : ℤ) * rs + (p.2 : ℤ) * cs) (dom2 R C) F ∧
      ∀ o p, dom2 R C p → ((F o p : ℝ) : ℂ) = dft2 false R C X p.1 p.2 := by
  unfold half2 at hx
  unfold outC2R2
  by_cases ha : axis = 0
  · simp only [if_pos ha] at hx ⊢
    set tmp := loop (R / 2 + 1) (fun r tmp => outC2C .inv x (ib + (r : ℤ) * irs) ics ((r : ℤ) * C) 1 C tmp) (fun _ => (0 : ℂ)) with ht
    have htmp : ∀ r < R / 2 + 1, ∀ c < C, tmp ((0 : ℤ) + (r : ℤ) * C + (c : ℤ) * 1)
        = dft1 false C (fun v => x (ib + (r : ℤ) * irs + (v : ℤ) * ics)) c := by
      intro r hr c hc
      have := (rows_out .inv x ib irs ics 0 (C : ℤ) 1 (R / 2 + 1) C (dense_inj2 _ _)).at_ (fun _ => 0) (r, c) ⟨hr, hc⟩
      simp only [zero_add] at this ⊢
      exact this
    have := cols_c2r tmp 0 (C : ℤ) 1 ob rs cs R C h
    simp only [zero_add, mul_one] at this
    refine ⟨_, this, fun o p hp => ?_⟩
    rw [c2r_herm R (fun u => dft1 false C (fun v => X u v) p.2) _ ?_ ?_ p.1, dft2_lines]
    · intro u hu
      exact dft1_herm false C _ _ (fun v hv => hX u hu v hv) p.2
    · intro u hu huR
      have h1 := htmp u hu p.2 hp.2
      simp only [zero_add, mul_one] at h1
      rw [h1]
      exact dft1_congr _ _ _ _ (fun v hv => hx u huR v hv hu hv) _
  · simp only [if_neg ha] at hx ⊢
    set tmp := loop (C / 2 + 1) (fun c tmp => outC2C .inv x (ib + (c : ℤ) * ics) irs ((c : ℤ) * R) 1 R tmp) (fun _ => (0 : ℂ)) with ht
    have htmp : ∀ c < C / 2 + 1, ∀ r < R, tmp ((0 : ℤ) + (c : ℤ) * R + (r : ℤ) * 1)
        = dft1 false R (fun u => x (ib + (u : ℤ) * irs + (c : ℤ) * ics)) r := by
      intro c hc r hr
      have := (rows_out .inv x ib ics irs 0 (R : ℤ) 1 (C / 2 + 1) R (dense_inj2 _ _)).at_ (fun _ => 0) (c, r) ⟨hc, hr⟩
      simp only [zero_add] at this ⊢
      rw [ht, this]
      refine dft1_congr _ _ _ _ (fun u _ => ?_) _
      congr 1; ring
    have := rows_c2r tmp 0 1 (R : ℤ) ob rs cs R C h
    simp only [zero_add, mul_one] at this
    refine ⟨_, this, fun o p hp => ?_⟩
    rw [c2r_herm C (fun v => dft1 false R (fun u => X u v) p.1) _ ?_ ?_ p.2, dft2_lines']
    · intro v hv
      exact dft1_herm false R _ _ (fun u hu => hX u hu v hv) p.1
    · intro v hv hvC
      have h1 := htmp v hv p.1 hp.1
      simp only [zero_add, mul_one] at h1
      rw [add_comm, h1]
      exact dft1_congr _ _ _ _ (fun u hu => hx u hu v hvC hu hv) _

/-! ## 3-D -/

/-- Distinct elements of a tensor are at distinct addresses. -/
def Inj3 (s : T3 ℤ) (n : T3 ℕ) : Prop :=
  ∀ x < n.x, ∀ x' < n.x, ∀ y < n.y, ∀ y' < n.y, ∀ z < n.z, ∀ z' < n.z,
    (x : ℤ) * s.x + (y : ℤ) * s.y + (z : ℤ) * s.z = (x' : ℤ) * s.x + (y' : ℤ) * s.y + (z' : ℤ) * s.z → x = x' ∧ y = y' ∧ z = z'

theorem Inj3.plane {s : T3 ℤ} {n : T3 ℕ} (h : Inj3 s n) (hx : 0 < n.x) : Inj2 s.y s.z n.y n.z :=
  fun y hy y' hy' z hz z' hz' e => (h 0 hx 0 hx y hy y' hy' z hz z' hz' (by linarith)).2

theorem Inj3.rot {s : T3 ℤ} {n : T3 ℕ} (h : Inj3 s n) : Inj3 ⟨s.y, s.z, s.x⟩ ⟨n.y, n.z, n.x⟩ :=
  fun y hy y' hy' z hz z' hz' x hx x' hx' e => by
    obtain ⟨a, b, c⟩ := h x hx x' hx' y hy y' hy' z hz z' hz' (by simp only [] at e; linarith)
    exact ⟨b, c, a⟩

theorem Inj3.sw {s : T3 ℤ} {n : T3 ℕ} (h : Inj3 s n) : Inj3 ⟨s.y, s.x, s.z⟩ ⟨n.y, n.x, n.z⟩ :=
  fun y hy y' hy' x hx x' hx' z hz z' hz' e => by
    obtain ⟨a, b, c⟩ := h x hx x' hx' y hy y' hy' z hz z' hz' (by simp only [] at e; linarith)
    exact ⟨b, a, c⟩

abbrev dom3 (n : T3 ℕ) (p : ℕ × ℕ × ℕ) : Prop := p.1 < n.x ∧ p.2.1 < n.y ∧ p.2.2 < n.z

abbrev addr3 (b : ℤ) (s : T3 ℤ) (p : ℕ × ℕ × ℕ) : ℤ := b + (p.1 : ℤ) * s.x + (p.2.1 : ℤ) * s.y + (p.2.2 : ℤ) * s.z

theorem planes3 {V : Type*} (b : ℤ) (s : T3 ℤ) (n : T3 ℕ) (h : Inj3 s n) (body : ℕ → (ℤ → V) → ℤ → V) (F : ℕ → (ℕ × ℕ → V) → ℕ × ℕ → V)
    (hop : Inj2 s.y s.z n.y n.z → ∀ x < n.x, Op (body x) (fun p : ℕ × ℕ => b + (x : ℤ) * s.x + (p.1 : ℤ) * s.y + (p.2 : ℤ) * s.z) (dom2 n.y n.z) (F x)) :
    Op (loop n.x body) (addr3 b s) (dom3 n) (fun v p => F p.1 (fun q => v (p.1, q)) p.2) :=
  Op.loop n.x body (fun x (p : ℕ × ℕ) => b + (x : ℤ) * s.x + (p.1 : ℤ) * s.y + (p.2 : ℤ) * s.z) (dom2 n.y n.z) F
    (fun x hx => hop (h.plane (by omega)) x hx)
    (fun i hi j hj p q hp hq e => (h i hi j hj p.1 hp.1 q.1 hq.1 p.2 hp.2 q.2 hq.2 (by linarith)).1)

/-- Lines along the last index. -/
theorem lines3 {V : Type*} (b : ℤ) (s : T3 ℤ) (n : T3 ℕ) (h : Inj3 s n) (body : ℕ → ℕ → (ℤ → V) → ℤ → V) (F : ℕ → ℕ → (ℕ → V) → ℕ → V)
    (hop : Inj s.z n.z → ∀ x < n.x, ∀ y < n.y, Op (body x y) (fun w : ℕ => b + (x : ℤ) * s.x + (y : ℤ) * s.y + (w : ℤ) * s.z) (· < n.z) (F x y)) :
    Op (loop n.x (fun x m => loop n.y (fun y m => body x y m) m)) (addr3 b s) (dom3 n)
      (fun v p => F p.1 p.2.1 (fun w => v (p.1, p.2.1, w)) p.2.2) :=
  planes3 b s n h (fun x m => loop n.y (fun y m => body x y m) m) (fun x v p => F x p.1 (fun w => v (p.1, w)) p.2)
    (fun h2 x hx => Op.loop n.y (fun y m => body x y m) (fun y (w : ℕ) => b + (x : ℤ) * s.x + (y : ℤ) * s.y + (w : ℤ) * s.z) (· < n.z) (F x)
      (fun y hy => hop (h2.row (by omega)) x hx y hy)
      (fun i hi j hj p q hp hq e => (h2 i hi j hj p hp q hq (by linarith)).1))

theorem inC2C3_op (S : Dir) (b : ℤ) (s : T3 ℤ) (n : T3 ℕ) (h : Inj3 s n) :
    Op (inC2C3 S b s n) (addr3 b s) (dom3 n) (fun v p => dft3 S.neg n.x n.y n.z (fun x y z => v (x, y, z)) p.1 p.2.1 p.2.2) := by
  have h1 := planes3 b s n h (fun x m => inC2C2 S (b + (x : ℤ) * s.x) s.y s.z n.y n.z m)
    (fun _ v p => dft2 S.neg n.y n.z (fun r c => v (r, c)) p.1 p.2) (fun h2 x _ => inC2C2_op S _ _ _ _ _ h2)
  have h2 := (lines3 b ⟨s.y, s.z, s.x⟩ ⟨n.y, n.z, n.x⟩ h.rot (fun y z m => inC2C S (b + (y : ℤ) * s.y + (z : ℤ) * s.z) s.x n.x m)
    (fun _ _ v w => dft1 S.neg n.x v w) (fun hi y _ z _ => inC2C_op S _ _ _ hi)).reindex
      (fun p : ℕ × ℕ × ℕ => (p.2.1, p.2.2, p.1)) (fun p => (p.2.2, p.1, p.2.1)) (fun _ => rfl) (addr3 b s) (dom3 n)
      (fun p => by simp only [addr3]; ring) (fun p => by simp only [dom3]; tauto)
  exact (h1.comp h2).congr (fun v p _ => dft3_lines S.neg n.x n.y n.z (fun x y z => v (x, y, z)) p.1 p.2.1 p.2.2)

theorem outC2C3_op (S : Dir) (x : Cm) (ib : ℤ) (is : T3 ℤ) (b : ℤ) (s : T3 ℤ) (n : T3 ℕ) (h : Inj3 s n) :
    Op (outC2C3 S x ib is b s n) (addr3 b s) (dom3 n)
      (fun _ p => dft3 S.neg n.x n.y n.z (fun i j k => x (addr3 ib is (i, j, k))) p.1 p.2.1 p.2.2) := by
  have h1 := planes3 b s n h (fun i m => outC2C2 S x (ib + (i : ℤ) * is.x) is.y is.z (b + (i : ℤ) * s.x) s.y s.z n.y n.z m)
    (fun i _ p => dft2 S.neg n.y n.z (fun r c => x (ib + (i : ℤ) * is.x + (r : ℤ) * is.y + (c : ℤ) * is.z)) p.1 p.2)
    (fun h2 i _ => outC2C2_op S _ _ _ _ _ _ _ _ _ h2)
  have h2 := (lines3 b ⟨s.y, s.z, s.x⟩ ⟨n.y, n.z, n.x⟩ h.rot (fun y z m => inC2C S (b + (y : ℤ) * s.y + (z : ℤ) * s.z) s.x n.x m)
    (fun _ _ v w => dft1 S.neg n.x v w) (fun hi y _ z _ => inC2C_op S _ _ _ hi)).reindex
      (fun p : ℕ × ℕ × ℕ => (p.2.1, p.2.2, p.1)) (fun p => (p.2.2, p.1, p.2.1)) (fun _ => rfl) (addr3 b s) (dom3 n)
      (fun p => by simp only [addr3]; ring) (fun p => by simp only [dom3]; tauto)
  exact (h1.comp h2).congr (fun _ p _ => dft3_lines S.neg n.x n.y n.z (fun i j k => x (addr3 ib is (i, j, k))) p.1 p.2.1 p.2.2)

/-- The sizes of the half spectrum in three dimensions. -/
def half3 (axis : ℕ) (n : T3 ℕ) : T3 ℕ :=
  if axis = 0 then ⟨n.x / 2 + 1, n.y, n.z⟩ else if axis = 1 then ⟨n.x, n.y / 2 + 1, n.z⟩ else ⟨n.x, n.y, n.z / 2 + 1⟩

theorem outR2C3_op (axis : ℕ) (x : Rm) (ib : ℤ) (is : T3 ℤ) (b : ℤ) (s : T3 ℤ) (n : T3 ℕ) (h : Inj3 s (half3 axis n)) :
    Op (outR2C3 axis x ib is b s n) (addr3 b s) (dom3 (half3 axis n))
      (fun _ p => dft3 true n.x n.y n.z (fun i j k => (x (addr3 ib is (i, j, k)) : ℂ)) p.1 p.2.1 p.2.2) := by
  unfold half3 at h ⊢
  unfold outR2C3
  by_cases h0 : axis = 0
  · simp only [if_pos h0] at h ⊢
    have h1 := (lines3 b ⟨s.y, s.z, s.x⟩ ⟨n.y, n.z, n.x / 2 + 1⟩ h.rot
      (fun y z m => outR2C x (ib + (y : ℤ) * is.y + (z : ℤ) * is.z) is.x (b + (y : ℤ) * s.y + (z : ℤ) * s.z) s.x n.x m)
      (fun y z _ w => dft1 true n.x (fun k => (x (ib + (y : ℤ) * is.y + (z : ℤ) * is.z + (k : ℤ) * is.x) : ℂ)) w)
      (fun hi y _ z _ => outR2C_op x _ _ _ _ _ hi)).reindex
        (fun p : ℕ × ℕ × ℕ => (p.2.1, p.2.2, p.1)) (fun p => (p.2.2, p.1, p.2.1)) (fun _ => rfl) (addr3 b s) (dom3 ⟨n.x / 2 + 1, n.y, n.z⟩)
        (fun p => by simp only [addr3]; ring) (fun p => by simp only [dom3]; tauto)
    have h2 := planes3 b s ⟨n.x / 2 + 1, n.y, n.z⟩ h (fun i m => inC2C2 .fwd (b + (i : ℤ) * s.x) s.y s.z n.y n.z m)
      (fun _ v p => dft2 true n.y n.z (fun r c => v (r, c)) p.1 p.2) (fun h2 i _ => inC2C2_op .fwd _ _ _ _ _ h2)
    refine (h1.comp h2).congr (fun _ p _ => ?_)
    rw [← dft3_planes]
    refine dft2_congr _ _ _ _ _ (fun y _ z _ => dft1_congr _ _ _ _ (fun i _ => ?_) _) _ _
    congr 2; simp only [addr3]; ring
  · by_cases h1 : axis = 1
    · simp only [if_neg h0, if_pos h1] at h ⊢
      have h1 := (lines3 b ⟨s.x, s.z, s.y⟩ ⟨n.x, n.z, n.y / 2 + 1⟩ h.sw.rot
        (fun y z m => outR2C x (ib + (y : ℤ) * is.x + (z : ℤ) * is.z) is.y (b + (y : ℤ) * s.x + (z : ℤ) * s.z) s.y n.y m)
        (fun y z _ w => dft1 true n.y (fun k => (x (ib + (y : ℤ) * is.x + (z : ℤ) * is.z + (k : ℤ) * is.y) : ℂ)) w)
        (fun hi y _ z _ => outR2C_op x _ _ _ _ _ hi)).reindex
          (fun p : ℕ × ℕ × ℕ => (p.1, p.2.2, p.2.1)) (fun p => (p.1, p.2.2, p.2.1)) (fun _ => rfl) (addr3 b s) (dom3 ⟨n.x, n.y / 2 + 1, n.z⟩)
          (fun p => by simp only [addr3]; ring) (fun p => by simp only [dom3]; tauto)
      have h2 := (planes3 b ⟨s.y, s.x, s.z⟩ ⟨n.y / 2 + 1, n.x, n.z⟩ h.sw (fun i m => inC2C2 .fwd (b + (i : ℤ) * s.y) s.x s.z n.x n.z m)
        (fun _ v p => dft2 true n.x n.z (fun r c => v (r, c)) p.1 p.2) (fun h2 i _ => inC2C2_op .fwd _ _ _ _ _ h2)).reindex
          (fun p : ℕ × ℕ × ℕ => (p.2.1, p.1, p.2.2)) (fun p => (p.2.1, p.1, p.2.2)) (fun _ => rfl) (addr3 b s) (dom3 ⟨n.x, n.y / 2 + 1, n.z⟩)
          (fun p => by simp only [addr3]; ring) (fun p => by simp only [dom3]; tauto)
      refine (h1.comp h2).congr (fun _ p _ => ?_)
      rw [← dft3_perm1, ← dft3_planes]
      refine dft2_congr _ _ _ _ _ (fun y _ z _ => dft1_congr _ _ _ _ (fun i _ => ?_) _) _ _
      congr 2; simp only [addr3]; ring
    · simp only [if_neg h0, if_neg h1] at h ⊢
      have h1 := lines3 b s ⟨n.x, n.y, n.z / 2 + 1⟩ h
        (fun i j m => outR2C x (ib + (i : ℤ) * is.x + (j : ℤ) * is.y) is.z (b + (i : ℤ) * s.x + (j : ℤ) * s.y) s.z n.z m)
        (fun i j _ w => dft1 true n.z (fun k => (x (ib + (i : ℤ) * is.x + (j : ℤ) * is.y + (k : ℤ) * is.z) : ℂ)) w)
        (fun hi y _ z _ => outR2C_op x _ _ _ _ _ hi)
      have h2 := (planes3 b ⟨s.z, s.x, s.y⟩ ⟨n.z / 2 + 1, n.x, n.y⟩ h.rot.rot (fun i m => inC2C2 .fwd (b + (i : ℤ) * s.z) s.x s.y n.x n.y m)
        (fun _ v p => dft2 true n.x n.y (fun r c => v (r, c)) p.1 p.2) (fun h2 i _ => inC2C2_op .fwd _ _ _ _ _ h2)).reindex
          (fun p : ℕ × ℕ × ℕ => (p.2.2, p.1, p.2.1)) (fun p => (p.2.1, p.2.2, p.1)) (fun _ => rfl) (addr3 b s) (dom3 ⟨n.x, n.y, n.z / 2 + 1⟩)
          (fun p => by simp only [addr3]; ring) (fun p => by simp only [dom3]; tauto)
      refine (h1.comp h2).congr (fun _ p _ => ?_)
      rw [← dft3_perm2, ← dft3_planes]

/-- The temporary array of the 3-D complex to real transform: planes one after the other, each with its first index running fastest. -/
theorem dense_inj3 (A B C : ℕ) : Inj3 ⟨(B : ℤ) * C, 1, B⟩ ⟨A, B, C⟩ := by
  intro x hx x' hx' y hy y' hy' z hz z' hz' e
  simp only [] at hx hx' hy hy' hz hz' e
  have e1 : (z + C * x) * B + y = (z' + C * x') * B + y' := by
    have : ((z : ℤ) + C * x) * B + y = (z' + C * x') * B + y' := by linarith
    exact_mod_cast this
  obtain ⟨h1, h2⟩ := dense_inj2 (max (z + C * x) (z' + C * x') + 1) B (z + C * x) (by omega) (z' + C * x') (by omega) y hy y' hy'
    (by push_cast; have : (((z + C * x) * B + y : ℕ) : ℤ) = ((z' + C * x') * B + y' : ℕ) := by rw [e1]
        push_cast at this; linarith)
  obtain ⟨h3, h4⟩ := dense_inj2 (max x x' + 1) C x (by omega) x' (by omega) z hz z' hz'
    (by have : ((z + C * x : ℕ) : ℤ) = (z' + C * x' : ℕ) := by rw [h1]
        push_cast at this; linarith)
  exact ⟨h3, h2, h4⟩

/-- One axis of the 3-D complex to real transform, with the axis first. -/
theorem c2r3_axis0 (x : Cm) (ib : ℤ) (is : T3 ℤ) (b : ℤ) (s : T3 ℤ) (n : T3 ℕ) (h : Inj3 s n)
    (X : ℕ → ℕ → ℕ → ℂ) (hX : Herm3 n.x n.y n.z X)
    (hx : ∀ i < n.x, ∀ j < n.y, ∀ k < n.z, i < n.x / 2 + 1 → x (addr3 ib is (i, j, k)) = X i j k) :
    ∃ F, Op (outC2R3 0 x ib is b s n) (addr3 b s) (dom3 n) F ∧
      ∀ o p, dom3 n p → ((F o p : ℝ) : ℂ) = dft3 false n.x n.y n.z X p.1 p.2.1 p.2.2 := by
  unfold outC2R3
  simp only [if_pos]
  set tmp := loop (n.x / 2 + 1) (fun (i : ℕ) tmp =>
      outC2C2 .inv x (ib + (i : ℤ) * is.x) is.y is.z ((i : ℤ) * n.y * n.z) 1 n.y n.y n.z tmp) (fun _ => (0 : ℂ)) with ht
  have htmp : ∀ i < n.x / 2 + 1, ∀ j < n.y, ∀ k < n.z, tmp ((j : ℤ) + (k : ℤ) * n.y + (i : ℤ) * ((n.y : ℤ) * n.z))
      = dft2 false n.y n.z (fun r c => x (addr3 ib is (i, r, c))) j k := by
    intro i hi j hj k hk
    have h1 := planes3 0 ⟨(n.y : ℤ) * n.z, 1, n.y⟩ ⟨n.x / 2 + 1, n.y, n.z⟩ (dense_inj3 _ _ _)
      (fun (i : ℕ) (tmp : Cm) => outC2C2 .inv x (ib + (i : ℤ) * is.x) is.y is.z ((i : ℤ) * n.y * n.z) 1 n.y n.y n.z tmp)
      (fun i _ p => dft2 false n.y n.z (fun r c => x (ib + (i : ℤ) * is.x + (r : ℤ) * is.y + (c : ℤ) * is.z)) p.1 p.2)
      (fun h2 i _ => by
        have h3 := outC2C2_op .inv x (ib + (i : ℤ) * is.x) is.y is.z ((i : ℤ) * n.y * n.z) 1 n.y n.y n.z h2
        have e : (fun p : ℕ × ℕ => (i : ℤ) * n.y * n.z + (p.1 : ℤ) * 1 + (p.2 : ℤ) * n.y)
            = (fun p : ℕ × ℕ => 0 + (i : ℤ) * ((n.y : ℤ) * n.z) + (p.1 : ℤ) * 1 + (p.2 : ℤ) * n.y) := by funext p; ring
        rw [e] at h3
        exact h3)
    have h2 := h1.at_ (fun _ => 0) (i, j, k) ⟨hi, hj, hk⟩
    have e : (j : ℤ) + (k : ℤ) * n.y + (i : ℤ) * ((n.y : ℤ) * n.z) = addr3 0 ⟨(n.y : ℤ) * n.z, 1, n.y⟩ (i, j, k) := by simp only [addr3]; ring
    rw [e]
    exact h2
  have h1 := (lines3 b ⟨s.y, s.z, s.x⟩ ⟨n.y, n.z, n.x⟩ h.rot
    (fun y z m => outC2R tmp ((y : ℤ) + (z : ℤ) * n.y) ((n.y : ℤ) * n.z) (b + (y : ℤ) * s.y + (z : ℤ) * s.z) s.x n.x m)
    (fun y z _ w => (dft1 false n.x (hext n.x (fun k => tmp ((y : ℤ) + (z : ℤ) * n.y + (k : ℤ) * ((n.y : ℤ) * n.z)))) w).re)
    (fun hi y _ z _ => outC2R_op tmp _ _ _ _ _ hi)).reindex
      (fun p : ℕ × ℕ × ℕ => (p.2.1, p.2.2, p.1)) (fun p => (p.2.2, p.1, p.2.1)) (fun _ => rfl) (addr3 b s) (dom3 n)
      (fun p => by simp only [addr3]; ring) (fun p => by simp only [dom3]; tauto)
  refine ⟨_, h1, fun o p hp => ?_⟩
  rw [c2r_herm n.x (fun i => dft2 false n.y n.z (fun r c => X i r c) p.2.1 p.2.2) _ ?_ ?_ p.1, dft3_lines]
  · intro i hi
    exact dft2_herm false n.y n.z _ _ (fun u hu v hv => hX i hi u hu v hv) _ _
  · intro i hi hin
    rw [htmp i hi _ hp.2.1 _ hp.2.2]
    exact dft2_congr _ _ _ _ _ (fun r hr c hc => hx i hin r hr c hc hi) _ _

theorem c2r3_eq1 (x : Cm) (ib : ℤ) (is : T3 ℤ) (b : ℤ) (s : T3 ℤ) (n : T3 ℕ) :
    outC2R3 1 x ib is b s n = outC2R3 0 x ib ⟨is.y, is.x, is.z⟩ b ⟨s.y, s.x, s.z⟩ ⟨n.y, n.x, n.z⟩ := by
  funext out
  unfold outC2R3
  rw [if_neg Nat.one_ne_zero, if_pos rfl, if_pos rfl]

theorem c2r3_eq2 (axis : ℕ) (h0 : axis ≠ 0) (h1 : axis ≠ 1) (x : Cm) (ib : ℤ) (is : T3 ℤ) (b : ℤ) (s : T3 ℤ) (n : T3 ℕ) :
    outC2R3 axis x ib is b s n = outC2R3 0 x ib ⟨is.z, is.y, is.x⟩ b ⟨s.z, s.y, s.x⟩ ⟨n.z, n.y, n.x⟩ := by
  funext out
  unfold outC2R3
  rw [if_neg h0, if_neg h1, if_pos rfl]

theorem c2r3_axis1 (x : Cm) (ib : ℤ) (is : T3 ℤ) (b : ℤ) (s : T3 ℤ) (n : T3 ℕ) (h : Inj3 s n)
    (X : ℕ → ℕ → ℕ → ℂ) (hX : Herm3 n.x n.y n.z X)
    (hx : ∀ i < n.x, ∀ j < n.y, ∀ k < n.z, j < n.y / 2 + 1 → x (addr3 ib is (i, j, k)) = X i j k) :
    ∃ F, Op (outC2R3 1 x ib is b s n) (addr3 b s) (dom3 n) F ∧
      ∀ o p, dom3 n p → ((F o p : ℝ) : ℂ) = dft3 false n.x n.y n.z X p.1 p.2.1 p.2.2 := by
  rw [c2r3_eq1]
  obtain ⟨F, hF, hv⟩ := c2r3_axis0 x ib ⟨is.y, is.x, is.z⟩ b ⟨s.y, s.x, s.z⟩ ⟨n.y, n.x, n.z⟩ h.sw (fun j i k => X i j k)
    (fun j hj i hi k hk => hX i hi j hj k hk) (fun j hj i hi k hk hh => by
      have := hx i hi j hj k hk hh
      rw [← this]; congr 1; simp only [addr3]; ring)
  refine ⟨_, hF.reindex (fun p : ℕ × ℕ × ℕ => (p.2.1, p.1, p.2.2)) (fun p => (p.2.1, p.1, p.2.2)) (fun _ => rfl) (addr3 b s) (dom3 n)
    (fun p => by simp only [addr3]; ring) (fun p => by simp only [dom3]; tauto), fun o p hp => ?_⟩
  rw [hv _ (p.2.1, p.1, p.2.2) ⟨hp.2.1, hp.1, hp.2.2⟩]
  exact dft3_perm1 _ _ _ _ _ _ _ _

theorem c2r3_axis2 (axis : ℕ) (h0 : axis ≠ 0) (h1 : axis ≠ 1) (x : Cm) (ib : ℤ) (is : T3 ℤ) (b : ℤ) (s : T3 ℤ) (n : T3 ℕ) (h : Inj3 s n)
    (X : ℕ → ℕ → ℕ → ℂ) (hX : Herm3 n.x n.y n.z X)
    (hx : ∀ i < n.x, ∀ j < n.y, ∀ k < n.z, k < n.z / 2 + 1 → x (addr3 ib is (i, j, k)) = X i j k) :
    ∃ F, Op (outC2R3 axis x ib is b s n) (addr3 b s) (dom3 n) F ∧
      ∀ o p, dom3 n p → ((F o p : ℝ) : ℂ) = dft3 false n.x n.y n.z X p.1 p.2.1 p.2.2 := by
  rw [c2r3_eq2 axis h0 h1]
  obtain ⟨F, hF, hv⟩ := c2r3_axis0 x ib ⟨is.z, is.y, is.x⟩ b ⟨s.z, s.y, s.x⟩ ⟨n.z, n.y, n.x⟩ h.sw.rot.rot (fun k j i => X i j k)
    (fun k hk j hj i hi => hX i hi j hj k hk) (fun k hk j hj i hi hh => by
      have := hx i hi j hj k hk hh
      rw [← this]; congr 1; simp only [addr3]; ring)
  refine ⟨_, hF.reindex (fun p : ℕ × ℕ × ℕ => (p.2.2, p.2.1, p.1)) (fun p => (p.2.2, p.2.1, p.1)) (fun _ => rfl) (addr3 b s) (dom3 n)
    (fun p => by simp only [addr3]; ring) (fun p => by simp only [dom3]; tauto), fun o p hp => ?_⟩
  rw [hv _ (p.2.2, p.2.1, p.1) ⟨hp.2.2, hp.2.1, hp.1⟩]
  rw [← dft3_perm1, ← dft3_perm2]

theorem outC2R3_op (axis : ℕ) (x : Cm) (ib : ℤ) (is : T3 ℤ) (b : ℤ) (s : T3 ℤ) (n : T3 ℕ) (h : Inj3 s n)
    (X : ℕ → ℕ → ℕ → ℂ) (hX : Herm3 n.x n.y n.z X)
    (hx : ∀ i < n.x, ∀ j < n.y, ∀ k < n.z, dom3 (half3 axis n) (i, j, k) → x (addr3 ib is (i, j, k)) = X i j k) :
    ∃ F, Op (outC2R3 axis x ib is b s n) (addr3 b s) (dom3 n) F ∧
      ∀ o p, dom3 n p → ((F o p : ℝ) : ℂ) = dft3 false n.x n.y n.z X p.1 p.2.1 p.2.2 := by
  by_cases h0 : axis = 0
  · subst h0
    have e : half3 0 n = ⟨n.x / 2 + 1, n.y, n.z⟩ := by rw [half3, if_pos rfl]
    rw [e] at hx
    exact c2r3_axis0 x ib is b s n h X hX (fun i hi j hj k hk hh => hx i hi j hj k hk ⟨hh, hj, hk⟩)
  · by_cases h1 : axis = 1
    · subst h1
      have e : half3 1 n = ⟨n.x, n.y / 2 + 1, n.z⟩ := by rw [half3, if_neg h0, if_pos rfl]
      rw [e] at hx
      exact c2r3_axis1 x ib is b s n h X hX (fun i hi j hj k hk hh => hx i hi j hj k hk ⟨hi, hh, hk⟩)
    · have e : half3 axis n = ⟨n.x, n.y, n.z / 2 + 1⟩ := by rw [half3, if_neg h0, if_neg h1]
      rw [e] at hx
      exact c2r3_axis2 axis h0 h1 x ib is b s n h X hX (fun i hi j hj k hk hh => hx i hi j hj k hk ⟨hi, hj, hh⟩)

end Verif.Dft
