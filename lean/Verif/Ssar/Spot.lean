import Verif.Ssar.Lemmas

/-!
The two variants of the digital spotlighting.
-/

namespace Verif.Ssar

open Finset Verif.Dft

/-- All sizes even, and the padded rows at least as long as the given ones. -/
structure Even (p : Data) : Prop where
  n : p.n % 2 = 0
  mc : p.mc % 2 = 0
  m : p.m % 2 = 0
  le : p.mc ≤ p.m

theorem pad_val {p : Data} (he : Even p) (old row : ℕ → ℂ) {b : ℕ} (hb : b < p.m) :
    pad p old row b = if b < p.mc / 2 then row b else if b < p.mc / 2 + (p.m - p.mc) then 0 else row (b - (p.m - p.mc)) := by
  have := he.mc; have := he.le
  simp only [pad, assign]
  by_cases h1 : b < p.mc / 2
  · rw [if_neg (by omega), if_neg (by omega), if_pos (by omega), if_pos h1]; simp
  · rw [if_neg h1]
    by_cases h2 : b < p.mc / 2 + (p.m - p.mc)
    · rw [if_neg (by omega), if_pos (by omega), if_pos h2]
    · rw [if_pos (by omega), if_neg h2]; congr 1; omega

theorem padded_sw {p : Data} (he : Even p) (raw : ℕ → ℕ → ℂ) (a : ℕ) {b : ℕ} (hb : b < p.m) (old : ℕ → ℂ) :
    padded p raw a (sw p.m b) = pad p old (fun w => narrow p raw a (sw p.mc w)) b := by
  have h1 := he.mc; have h2 := he.le; have h3 := he.m
  rw [pad_val he old _ hb, padded]
  by_cases c1 : b < p.mc / 2
  · rw [if_pos c1, sw_lo h3 (by omega), if_pos (by omega), sw_lo h1 c1]; congr 1; omega
  · rw [if_neg c1]
    by_cases c2 : b < p.mc / 2 + (p.m - p.mc)
    · rw [if_pos c2]
      by_cases c3 : b < p.m / 2
      · rw [sw_lo h3 c3, if_neg (by omega)]
      · rw [sw_hi h3 (by omega) hb, if_neg (by omega)]
    · rw [if_neg c2, sw_hi h3 (by omega) hb, if_pos (by omega), sw_hi h1 (by omega) (by omega)]; congr 1; omega

theorem pad_congr {p : Data} (he : Even p) (old old' row row' : ℕ → ℂ) (h : ∀ w < p.mc, row w = row' w) {b : ℕ} (hb : b < p.m) :
    pad p old row b = pad p old' row' b := by
  have := he.mc; have := he.le
  rw [pad_val he old _ hb, pad_val he old' _ hb]
  by_cases c1 : b < p.mc / 2
  · rw [if_pos c1, if_pos c1, h _ (by omega)]
  · rw [if_neg c1, if_neg c1]
    by_cases c2 : b < p.mc / 2 + (p.m - p.mc)
    · rw [if_pos c2, if_pos c2]
    · rw [if_neg c2, if_neg c2, h _ (by omega)]

theorem comprRow_eq {p : Data} (he : Even p) (raw : ℕ → ℕ → ℂ) {i : ℕ} (hi : i < p.n) {w : ℕ} (hw : w < p.mc) :
    comprRow p raw i w = narrow p raw (sw p.n i) (sw p.mc w) := by
  rw [comprRow, narrow, cdft_eq true he.mc _ (sw_lt (by omega) w), sw_sw he.mc hw]
  congr 1
  refine dft1_congr _ _ _ _ (fun j hj => ?_) w
  rw [compr, fast, ← sw_even he.n, sw_sw he.n hi, cdft_eq true he.n _ (sw_lt (by omega) i), sw_sw he.n hi, echo, comprFilt, phase]
  push_cast
  ring

theorem spotRow_eq {p : Data} (he : Even p) (raw : ℕ → ℕ → ℂ) {i : ℕ} (hi : i < p.n) (old : ℕ → ℂ) {b : ℕ} (hb : b < p.m) :
    spotRow p raw i old (sw p.m b) = cdft true p.m (decompr p raw (sw p.n i)) b := by
  rw [spotRow, cdft_eq true he.m _ hb]
  refine dft1_congr _ _ _ _ (fun j hj => ?_) _
  rw [decompr, cdft_eq false he.m _ (sw_lt (by omega) j), sw_sw he.m hj, decomprFilt, phase]
  congr 2
  refine dft1_congr _ _ _ _ (fun c hc => ?_) _
  rw [padded_sw he raw _ hc old]
  exact pad_congr he old old _ _ (fun w hw => comprRow_eq he raw hi hw) hc

theorem xr_eq {p : Data} (he : Even p) {i : ℕ} (hi : i < p.n) : xr p i = sw p.n i := by
  rw [xr]
  by_cases h : i < p.n / 2
  · rw [if_pos h, sw_lo he.n h]; omega
  · rw [if_neg h, sw_hi he.n (by omega) hi]

theorem fsmRow_eq {p : Data} (he : Even p) (i : ℕ) (row dst : ℕ → ℂ) {b : ℕ} (hb : b < p.m) :
    fsmRow p i row dst b = row (sw p.m b) * p.ref (xr p i) b := by
  have := he.m
  simp only [fsmRow, assign]
  by_cases h : b < p.m / 2
  · rw [if_neg (by omega), if_pos (by omega), sw_lo he.m h]
    simp [Nat.add_comm]
  · rw [if_pos (by omega), sw_hi he.m (by omega) hb]
    congr 2; omega

theorem spot_fold {p : Data} (he : Even p) (raw : ℕ → ℕ → ℂ) (buf : ℕ → ℂ) (fsm : ℕ → ℕ → ℂ) (r : ℕ) (hr : r ≤ p.n) :
    ∀ i < r, ∀ b < p.m, ((List.range r).foldl (spotStep p raw) (buf, fsm)).2 (sw p.n i) b = matched p raw (sw p.n i) b := by
  induction r with
  | zero => intro i hi; omega
  | succ r ih =>
    intro i hi b hb
    rw [List.range_succ, List.foldl_append, List.foldl_cons, List.foldl_nil]
    generalize hs : (List.range r).foldl (spotStep p raw) (buf, fsm) = s at ih
    simp only [spotStep]
    by_cases h : i = r
    · subst h
      rw [if_pos (xr_eq he (by omega)).symm, fsmRow_eq he _ _ _ hb, spotRow_eq he raw (by omega) _ hb, xr_eq he (by omega), matched]
    · have : sw p.n i ≠ xr p r := by
        rw [xr_eq he (by omega)]
        intro e
        have e2 := congrArg (sw p.n) e
        rw [sw_sw he.n (by omega), sw_sw he.n (by omega)] at e2
        exact h e2
      rw [if_neg this]
      exact ih (by omega) i (by omega) b hb

theorem spotlight_eq {p : Data} (he : Even p) (raw : ℕ → ℕ → ℂ) (buf : ℕ → ℂ) (fsm : ℕ → ℕ → ℂ) {a b : ℕ} (ha : a < p.n) (hb : b < p.m) :
    spotlight p raw buf fsm a b = matched p raw a b := by
  have := spot_fold he raw buf fsm p.n le_rfl (sw p.n a) (sw_lt (by omega) a) b hb
  rwa [sw_sw he.n ha] at this

/-! ## Whole matrices -/

theorem gFilt_eq {p : Data} (he : Even p) (raw : ℕ → ℕ → ℂ) {i : ℕ} (hi : i < p.n) {j : ℕ} (hj : j < p.mc) :
    gFilt p raw i j = echo p raw i (sw p.mc j) * comprFilt p i (sw p.mc j) := by
  rw [gFilt, fdSign_eq hi, echo, sw_sw he.mc hj, dft1_sw true he.n (fun r => raw r j)]; ring

theorem gCompr_eq {p : Data} (he : Even p) (raw : ℕ → ℕ → ℂ) {i : ℕ} (hi : i < p.n) (w : ℕ) :
    gCompr p raw i w = sgn w * comprRow p raw i w := by
  rw [gCompr, comprRow, dft1_congr _ _ _ _ (fun j hj => gFilt_eq he raw hi hj), dft1_sw true he.mc (fun j => echo p raw i j * comprFilt p i j)]
  ring

theorem pad_sgn {p : Data} (he : Even p) (old old' row : ℕ → ℂ) {b : ℕ} (hb : b < p.m) :
    pad p old (fun w => sgn w * row w) b = sgn b * pad p old' row b := by
  have h1 := he.mc; have h2 := he.le; have h3 := he.m
  rw [pad_val he old _ hb, pad_val he old' _ hb]
  by_cases c1 : b < p.mc / 2
  · rw [if_pos c1, if_pos c1]
  · rw [if_neg c1, if_neg c1]
    by_cases c2 : b < p.mc / 2 + (p.m - p.mc)
    · rw [if_pos c2, if_pos c2, mul_zero]
    · rw [if_neg c2, if_neg c2, sgn_congr (show (b - (p.m - p.mc)) % 2 = b % 2 by omega)]

theorem gDec_eq {p : Data} (he : Even p) (raw : ℕ → ℕ → ℂ) (old old' : ℕ → ℂ) {i : ℕ} (hi : i < p.n) {j : ℕ} (hj : j < p.m) :
    gDec p raw old i j =
      sgn j * (1 / (p.m : ℂ) * dft1 false p.m (pad p old' (comprRow p raw i)) (sw p.m j) * decomprFilt p i (sw p.m j)) := by
  rw [gDec, fdSign_eq hj, dft1_congr _ _ _ _ (fun b hb => (pad_congr he old old _ _ (fun w _ => gCompr_eq he raw hi w) hb).trans (pad_sgn he old old' _ hb)),
    dft1_sgn false he.m]
  ring

theorem gSpot_eq {p : Data} (he : Even p) (raw : ℕ → ℕ → ℂ) (old : ℕ → ℂ) {i : ℕ} (hi : i < p.n) {b : ℕ} (hb : b < p.m) :
    dft1 true p.m (gDec p raw old i) b = sgn (p.m / 2) * (sgn b * cdft true p.m (decompr p raw (sw p.n i)) b) := by
  rw [← spotRow_eq he raw hi old hb, spotRow, dft1_congr _ _ _ _ (fun j hj => gDec_eq he raw old old hi hj)]
  set f : ℕ → ℂ := fun j => 1 / (p.m : ℂ) * dft1 false p.m (pad p old (comprRow p raw i)) j * decomprFilt p i j with hf
  have e1 : ∀ j < p.m, sgn j * f (sw p.m j) = sgn (p.m / 2) * (fun k => sgn k * f k) (sw p.m j) := by
    intro j hj
    have e : sgn j = sgn (p.m / 2) * sgn (sw p.m j) := by
      have := he.m
      rcases Nat.lt_or_ge j (p.m / 2) with h | h
      · rw [sw_lo he.m h, sgn, sgn, sgn, ← pow_add]
        exact sgn_congr (by omega)
      · rw [sw_hi he.m h hj, sgn, sgn, sgn, ← pow_add]
        exact sgn_congr (by omega)
    dsimp only
    rw [e]; ring
  rw [dft1_congr _ _ _ _ e1, dft1_smul, dft1_sw true he.m (fun k => sgn k * f k), dft1_sgn true he.m]

end Verif.Ssar
