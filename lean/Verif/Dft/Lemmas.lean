import Verif.Dft.Model
import Verif.Dft.Math
import Mathlib.Data.Fintype.BigOperators
import Mathlib.Algebra.BigOperators.Intervals
import Mathlib.RingTheory.RootsOfUnity.Complex
import Mathlib.Data.List.Nodup
import Mathlib.Tactic.Ring
import Mathlib.Tactic.Linarith
import Mathlib.Tactic.FieldSimp
import Mathlib.Tactic.Push

namespace Verif.Dft

open Finset

/-! ## Loops -/

theorem loop_zero {σ : Type*} (body : ℕ → σ → σ) (s : σ) : loop 0 body s = s := rfl

theorem loop_succ {σ : Type*} (n : ℕ) (body : ℕ → σ → σ) (s : σ) : loop (n + 1) body s = body n (loop n body s) := by
  simp [loop, List.range_succ]

theorem loop_add {M : Type*} [AddCommMonoid M] (n : ℕ) (f : ℕ → M) (a : M) :
    loop n (fun k s => s + f k) a = a + ∑ k ∈ range n, f k := by
  induction n with
  | zero => simp [loop_zero]
  | succ n ih => rw [loop_succ, ih, Finset.sum_range_succ, add_assoc]

/-- A loop whose passes each change one region of memory, each as a function of that region alone, and whose regions do not meet, has at every
address of region `j` the value pass `j` alone would give it, and leaves the other addresses alone. -/
theorem loop_local {A V : Type*} (n : ℕ) (body : ℕ → (A → V) → A → V) (R : ℕ → A → Prop)
    (hout : ∀ j < n, ∀ m a, ¬ R j a → body j m a = m a)
    (hin : ∀ j < n, ∀ m m' a, R j a → (∀ a', R j a' → m a' = m' a') → body j m a = body j m' a)
    (hdis : ∀ i < n, ∀ j < n, ∀ a, R i a → R j a → i = j) (m : A → V) :
    (∀ j < n, ∀ a, R j a → loop n body m a = body j m a) ∧ (∀ a, (∀ j < n, ¬ R j a) → loop n body m a = m a) := by
  induction n with
  | zero => exact ⟨fun j h => absurd h (Nat.not_lt_zero j), fun a _ => rfl⟩
  | succ n ih =>
    obtain ⟨h1, h2⟩ := ih (fun j hj => hout j (by omega)) (fun j hj => hin j (by omega))
      (fun i hi j hj => hdis i (by omega) j (by omega))
    refine ⟨fun j hj a ha => ?_, fun a ha => ?_⟩
    · rw [loop_succ]
      rcases Nat.lt_succ_iff_lt_or_eq.1 hj with h | rfl
      · rw [hout n (by omega) _ a (fun hn => by have := hdis n (by omega) j (by omega) a hn ha; omega)]
        exact h1 j h a ha
      · exact hin _ (by omega) _ _ a ha (fun a' ha' => h2 a' (fun i hi hia => by have := hdis i (by omega) j (by omega) a' hia ha'; omega))
    · rw [loop_succ, hout n (by omega) _ a (ha n (by omega))]
      exact h2 a (fun j hj => ha j (by omega))

/-- The points `b + w * s`, `w < l`, of a line are distinct. -/
def Inj (s : ℤ) (l : ℕ) : Prop := ∀ w < l, ∀ w' < l, (w : ℤ) * s = (w' : ℤ) * s → w = w'

/-- Storing `f w` at `b + w * s` for all `w < l`. -/
theorem loop_store {V : Type*} (b s : ℤ) (l : ℕ) (h : Inj s l) (f : ℕ → V) (m : ℤ → V) :
    (∀ w < l, loop l (fun w m => Function.update m (b + (w : ℤ) * s) (f w)) m (b + (w : ℤ) * s) = f w) ∧
    (∀ a, (∀ w < l, a ≠ b + (w : ℤ) * s) → loop l (fun w m => Function.update m (b + (w : ℤ) * s) (f w)) m a = m a) := by
  have := loop_local l (fun w m => Function.update m (b + (w : ℤ) * s) (f w)) (fun w a => a = b + (w : ℤ) * s)
    (fun j _ m a ha => Function.update_of_ne ha _ _)
    (fun j _ m m' a ha _ => by subst ha; simp)
    (fun i hi j hj a h1 h2 => h i hi j hj (by linarith)) m
  exact ⟨fun w hw => by rw [this.1 w hw _ rfl]; simp, fun a ha => this.2 a ha⟩

/-! ## Operations on a region of memory -/

/-- `f` changes memory at the addresses `addr i`, `i` in `dom`, only; the new values are `F` of the old ones. -/
structure Op {ι V : Type*} (f : (ℤ → V) → ℤ → V) (addr : ι → ℤ) (dom : ι → Prop) (F : (ι → V) → ι → V) : Prop where
  at_ : ∀ m i, dom i → f m (addr i) = F (fun i => m (addr i)) i
  off : ∀ m a, (∀ i, dom i → a ≠ addr i) → f m a = m a
  loc : ∀ x y, (∀ i, dom i → x i = y i) → ∀ i, dom i → F x i = F y i

theorem Op.comp {ι V : Type*} {f g : (ℤ → V) → ℤ → V} {addr : ι → ℤ} {dom : ι → Prop} {F G : (ι → V) → ι → V}
    (hf : Op f addr dom F) (hg : Op g addr dom G) : Op (fun m => g (f m)) addr dom (fun x => G (F x)) where
  at_ m i hi := by
    rw [hg.at_ _ i hi]
    exact hg.loc _ _ (fun j hj => hf.at_ m j hj) i hi
  off m a ha := by rw [hg.off _ a ha, hf.off m a ha]
  loc x y h i hi := hg.loc _ _ (fun j hj => hf.loc x y h j hj) i hi

/-- Change of index. -/
theorem Op.reindex {ι κ V : Type*} {f : (ℤ → V) → ℤ → V} {addr : ι → ℤ} {dom : ι → Prop} {F : (ι → V) → ι → V}
    (hf : Op f addr dom F) (e : κ → ι) (d : ι → κ) (hed : ∀ i, e (d i) = i) (addr' : κ → ℤ) (dom' : κ → Prop)
    (ha : ∀ i, addr' i = addr (e i)) (hd : ∀ i, dom' i ↔ dom (e i)) :
    Op f addr' dom' (fun x i => F (fun j => x (d j)) (e i)) where
  at_ m i hi := by
    rw [ha, hf.at_ m (e i) ((hd i).1 hi)]
    refine hf.loc _ _ (fun j hj => ?_) _ ((hd i).1 hi)
    show m (addr j) = m (addr' (d j))
    rw [ha, hed]
  off m a h := hf.off m a (fun i hi => by
    have := h (d i) ((hd _).2 (by rw [hed]; exact hi))
    rwa [ha, hed] at this)
  loc x y h i hi := hf.loc _ _ (fun j hj => h (d j) ((hd _).2 (by rw [hed]; exact hj))) _ ((hd i).1 hi)

/-- A loop of operations on regions that do not meet. -/
theorem Op.loop {ι V : Type*} (n : ℕ) (body : ℕ → (ℤ → V) → ℤ → V) (addr : ℕ → ι → ℤ) (dom : ι → Prop)
    (F : ℕ → (ι → V) → ι → V) (h : ∀ j < n, Op (body j) (addr j) dom (F j))
    (hinj : ∀ i < n, ∀ j < n, ∀ p q, dom p → dom q → addr i p = addr j q → i = j) :
    Op (loop n body) (fun p : ℕ × ι => addr p.1 p.2) (fun p => p.1 < n ∧ dom p.2) (fun x p => F p.1 (fun i => x (p.1, i)) p.2) where
  at_ m p hp := by
    have := loop_local n body (fun j a => ∃ i, dom i ∧ a = addr j i)
      (fun j hj m a ha => (h j hj).off m a (fun i hi e => ha ⟨i, hi, e⟩))
      (fun j hj m m' a ha hag => by
        obtain ⟨i, hi, rfl⟩ := ha
        rw [(h j hj).at_ m i hi, (h j hj).at_ m' i hi]
        exact (h j hj).loc _ _ (fun k hk => hag _ ⟨k, hk, rfl⟩) i hi)
      (fun i hi j hj a h1 h2 => by
        obtain ⟨p, hp, rfl⟩ := h1
        obtain ⟨q, hq, e⟩ := h2
        exact hinj i hi j hj p q hp hq e) m
    rw [this.1 p.1 hp.1 _ ⟨p.2, hp.2, rfl⟩]
    exact (h p.1 hp.1).at_ m p.2 hp.2
  off m a ha := by
    have := loop_local n body (fun j a => ∃ i, dom i ∧ a = addr j i)
      (fun j hj m a ha => (h j hj).off m a (fun i hi e => ha ⟨i, hi, e⟩))
      (fun j hj m m' a ha hag => by
        obtain ⟨i, hi, rfl⟩ := ha
        rw [(h j hj).at_ m i hi, (h j hj).at_ m' i hi]
        exact (h j hj).loc _ _ (fun k hk => hag _ ⟨k, hk, rfl⟩) i hi)
      (fun i hi j hj a h1 h2 => by
        obtain ⟨p, hp, rfl⟩ := h1
        obtain ⟨q, hq, e⟩ := h2
        exact hinj i hi j hj p q hp hq e) m
    exact this.2 a (fun j hj ⟨i, hi, e⟩ => ha (j, i) ⟨hj, hi⟩ e)
  loc x y hxy p hp := (h p.1 hp.1).loc _ _ (fun i hi => hxy (p.1, i) ⟨hp.1, hi⟩) p.2 hp.2

/-! ## The 1-D transforms -/

theorem sinCos_exp (φ : ℝ) : sinCos φ = Complex.exp (φ * Complex.I) := by
  rw [Complex.exp_mul_I]
  apply Complex.ext
  · simp [sinCos]; rfl
  · simp [sinCos]; rfl

/-- The sign of a direction. -/
def Dir.neg : Dir → Bool
  | .fwd => true
  | .inv => false

theorem sinCos_phi (S : Dir) (l k w : ℕ) : sinCos (phi S l * (k : ℝ) * (w : ℝ)) = unit S.neg l k w := by
  rw [sinCos_exp]; unfold unit phi
  congr 1
  cases S <;> simp [exponent, Dir.neg] <;> ring

theorem sum1_eq (S : Dir) (x : Cm) (b s : ℤ) (l w : ℕ) :
    sum1 (phi S l) x b s l w = dft1 S.neg l (fun k => x (b + (k : ℤ) * s)) w := by
  unfold sum1 dft1
  rw [loop_add (f := fun k : ℕ => x (b + (k : ℤ) * s) * sinCos (phi S l * (k : ℝ) * (w : ℝ))), zero_add]
  exact Finset.sum_congr rfl fun k _ => by rw [sinCos_phi]

theorem tmp_eq (f : ℕ → ℂ) (l w : ℕ) (hw : w < l) :
    loop l (fun w tmp => Function.update tmp w (f w)) (fun _ => (0 : ℂ)) w = f w := by
  have := loop_local l (fun w (m : ℕ → ℂ) => Function.update m w (f w)) (fun w a => a = w)
    (fun j _ m a ha => Function.update_of_ne ha _ _)
    (fun j _ m m' a ha _ => by subst ha; simp)
    (fun i hi j hj a h1 h2 => by omega) (fun _ => (0 : ℂ))
  rw [this.1 w hw w rfl]; simp

theorem inC2C_op (S : Dir) (b s : ℤ) (l : ℕ) (h : Inj s l) :
    Op (inC2C S b s l) (fun w : ℕ => b + (w : ℤ) * s) (· < l) (fun x w => dft1 S.neg l x w) where
  at_ m w hw := by
    unfold inC2C
    rw [(loop_store b s l h _ m).1 w hw, tmp_eq _ l w hw, sum1_eq]
  off m a ha := by
    unfold inC2C
    exact (loop_store b s l h _ m).2 a ha
  loc x y hxy w _ := dft1_congr _ _ _ _ hxy w

theorem outC2C_op (S : Dir) (x : Cm) (ib is ob os : ℤ) (l : ℕ) (h : Inj os l) :
    Op (outC2C S x ib is ob os l) (fun w : ℕ => ob + (w : ℤ) * os) (· < l)
      (fun _ w => dft1 S.neg l (fun k => x (ib + (k : ℤ) * is)) w) where
  at_ m w hw := by
    unfold outC2C
    rw [(loop_store ob os l h _ m).1 w hw, sum1_eq]
  off m a ha := (loop_store ob os l h _ m).2 a ha
  loc _ _ _ _ _ := rfl

theorem outR2C_op (x : Rm) (ib is ob os : ℤ) (l : ℕ) (h : Inj os (l / 2 + 1)) :
    Op (outR2C x ib is ob os l) (fun w : ℕ => ob + (w : ℤ) * os) (· < l / 2 + 1)
      (fun _ w => dft1 true l (fun k => (x (ib + (k : ℤ) * is) : ℂ)) w) where
  at_ m w hw := by
    unfold outR2C
    rw [(loop_store ob os (l / 2 + 1) h _ m).1 w hw, loop_add (f := fun k : ℕ => (x (ib + (k : ℤ) * is) : ℂ) * sinCos (-2 * Real.pi / (l : ℝ) * (k : ℝ) * (w : ℝ))), zero_add]
    refine Finset.sum_congr rfl fun k _ => ?_
    rw [show (true : Bool) = Dir.fwd.neg from rfl, ← sinCos_phi]
    simp [phi, exponent]
  off m a ha := (loop_store ob os (l / 2 + 1) h _ m).2 a ha
  loc _ _ _ _ _ := rfl

/-- The full spectrum the complex to real transform reads off the half it is given. -/
noncomputable def hext (l : ℕ) (x : ℕ → ℂ) (k : ℕ) : ℂ := if k < l / 2 + 1 then x k else (starRingEnd ℂ) (x (l - k))

theorem outC2R_op (x : Cm) (ib is ob os : ℤ) (l : ℕ) (h : Inj os l) :
    Op (outC2R x ib is ob os l) (fun w : ℕ => ob + (w : ℤ) * os) (· < l)
      (fun _ w => (dft1 false l (hext l (fun k => x (ib + (k : ℤ) * is))) w).re) where
  at_ m w hw := by
    unfold outC2R
    simp only []
    rw [(loop_store ob os l h _ m).1 w hw]
    congr 1
    have hs : ∀ k : ℕ, sinCos (2 * Real.pi / (l : ℝ) * (k : ℝ) * (w : ℝ)) = unit false l k w := by
      intro k
      rw [show (false : Bool) = Dir.inv.neg from rfl, ← sinCos_phi]
      simp [phi, exponent]
    rw [loop_add (f := fun i : ℕ => (starRingEnd ℂ) (x (ib + ((l - (l / 2 + 1 + i) : ℕ) : ℤ) * is)) * sinCos (2 * Real.pi / (l : ℝ) * ((l / 2 + 1 + i : ℕ) : ℝ) * (w : ℝ))),
      loop_add (f := fun k : ℕ => x (ib + (k : ℤ) * is) * sinCos (2 * Real.pi / (l : ℝ) * (k : ℝ) * (w : ℝ))), zero_add]
    unfold dft1
    rcases Nat.lt_or_ge 1 l with hl | hl
    · obtain ⟨d, hd⟩ := Nat.exists_eq_add_of_le (show l / 2 + 1 ≤ l by omega)
      have hd' : l - (l / 2 + 1) = d := by omega
      rw [hd']
      conv_rhs => rw [show Finset.range l = Finset.range (l / 2 + 1 + d) from by rw [← hd], Finset.sum_range_add]
      congr 1
      · refine Finset.sum_congr rfl fun k hk => ?_
        rw [hs, hext, if_pos (mem_range.1 hk)]
      · refine Finset.sum_congr rfl fun i hi => ?_
        rw [hs, hext, if_neg (by omega)]
    · obtain rfl : l = 1 := by omega
      obtain rfl : w = 0 := by omega
      have := hs 0
      simp [hext] at this ⊢
      left; exact this
  off m a ha := (loop_store ob os l h _ m).2 a ha
  loc _ _ _ _ _ := rfl

/-- On a Hermitian spectrum the extension is the spectrum. -/
theorem hext_herm (l : ℕ) (X x : ℕ → ℂ) (hX : Herm1 l X) (hx : ∀ k, k < l / 2 + 1 → k < l → x k = X k) (k : ℕ) (hk : k < l) :
    hext l x k = X k := by
  unfold hext
  split
  · exact hx k ‹_› hk
  · have h1 : opp l (l - k) = k := by unfold opp; rw [Nat.mod_eq_of_lt] <;> omega
    rw [hx (l - k) (by omega) (by omega), ← hX (l - k) (by omega), h1]

/-- The complex to real transform of the lower half of a Hermitian spectrum is its inverse transform. -/
theorem c2r_herm (l : ℕ) (X x : ℕ → ℂ) (hX : Herm1 l X) (hx : ∀ k, k < l / 2 + 1 → k < l → x k = X k) (w : ℕ) :
    (((dft1 false l (hext l x) w).re : ℝ) : ℂ) = dft1 false l X w := by
  rw [dft1_congr false l _ X (hext_herm l X x hX hx)]
  exact Complex.conj_eq_iff_re.1 (dft1_herm false l X X hX w).symm

end Verif.Dft
