import Verif.Random.Model
import Mathlib.Tactic.Ring
import Mathlib.Tactic.LinearCombination
import Mathlib.Tactic.NormNum
import Mathlib.Tactic.Abel
import Mathlib.Algebra.BigOperators.Intervals
import Mathlib.Algebra.Ring.GeomSum
import Mathlib.Data.Nat.ModEq
import Verif.Expr.Props
/-! Properties C32–C35: random number streams. -/
namespace Verif.Props
open Verif Rng

/-- the sequential sequence of states (specification): `x_n` -/
def seqState (a c seed : U32) (n : Nat) : U32 := (fun x => a * x + c)^[n] seed

theorem iter_eq {α : Type} (f : α → α) : ∀ (n : Nat) (x : α), iter f n x = f^[n] x
  | 0, _ => rfl
  | n + 1, x => by rw [iter, iter_eq f n, Function.iterate_succ_apply]

theorem iter_mul (t : U32) : ∀ (n : Nat) (x : U32), iter (fun a => a * t) n x = x * t ^ n
  | 0, x => by simp [iter]
  | n + 1, x => by rw [iter, iter_mul t n]; ring

/-- closed form of the iterated affine map -/
theorem seqState_closed (a c x : U32) (n : Nat) : seqState a c x n = a ^ n * x + c * ∑ i ∈ Finset.range n, a ^ i := by
  induction n with
  | zero => simp [seqState]
  | succ n ih =>
    have : seqState a c x (n + 1) = a * seqState a c x n + c := by
      simp only [seqState, Function.iterate_succ_apply']
    have hg : ∑ i ∈ Finset.range (n + 1), a ^ i = a * (∑ i ∈ Finset.range n, a ^ i) + 1 := by
      rw [Finset.sum_range_succ', Finset.mul_sum, pow_zero]
      congr 1
      apply Finset.sum_congr rfl
      intro i _
      ring
    rw [this, ih, hg]
    ring

theorem seqState_add (a c x : U32) (m n : Nat) : seqState a c x (m + n) = seqState a c (seqState a c x n) m := by
  simp only [seqState, Function.iterate_add_apply]

theorem split2_spec (k n : Nat) (hk : k ≠ 0) : k * 2 ^ n = (split2 k n).1 * 2 ^ (split2 k n).2 ∧ (split2 k n).1 ≠ 0 ∧ n ≤ (split2 k n).2 := by
  induction k using Nat.strong_induction_on generalizing n with
  | _ k ih =>
    rw [split2]
    by_cases h : k ≠ 0 ∧ k % 2 = 0
    · rw [dif_pos h]
      obtain ⟨h1, h2, h3⟩ := ih (k / 2) (by omega) (n + 1) (by omega)
      refine ⟨?_, h2, by omega⟩
      rw [← h1, pow_succ]
      have : k / 2 * 2 = k := by omega
      calc k * 2 ^ n = (k / 2 * 2) * 2 ^ n := by rw [this]
        _ = _ := by ring
    · rw [dif_neg h]
      exact ⟨rfl, hk, le_refl _⟩

/-- the product loop (l.105-109) -/
theorem prodLoop (n : Nat) (c t : U32) :
    (iter (fun (p : U32 × U32) => (p.1 * (p.2 + 1), p.2 * p.2)) n (c, t)).1 = c * ∑ j ∈ Finset.range (2 ^ n), t ^ j := by
  induction n generalizing c t with
  | zero => simp [iter]
  | succ n ih =>
    rw [iter, ih, mul_assoc]
    congr 1
    have h2 : ∀ N : Nat, ∑ j ∈ Finset.range (2 * N), t ^ j = (t + 1) * ∑ j ∈ Finset.range N, (t * t) ^ j := by
      intro N
      induction N with
      | zero => simp
      | succ N ih =>
        rw [show 2 * (N + 1) = 2 * N + 1 + 1 by ring, Finset.sum_range_succ, Finset.sum_range_succ, ih, Finset.sum_range_succ, mul_add]
        have : (t * t) ^ N = t ^ (2 * N) := by rw [← pow_two, ← pow_mul]
        rw [this]; ring
    rw [pow_succ, Nat.mul_comm, h2]

/-- the sum loop (l.111-117) -/
theorem geomLoop (a : U32) (m : Nat) (t n : U32) :
    (iter (fun (p : U32 × U32) => (p.1 + p.2, p.2 * a)) m (t, n)).1 = t + n * ∑ j ∈ Finset.range m, a ^ j := by
  induction m generalizing t n with
  | zero => simp [iter]
  | succ m ih =>
    rw [iter, ih, Finset.sum_range_succ', mul_add, Finset.mul_sum, Finset.mul_sum]
    simp only [pow_zero, mul_one]
    rw [add_assoc, add_comm n]
    congr 2
    apply Finset.sum_congr rfl
    intro i _
    ring

theorem geom_factor (a : U32) (k0 N : Nat) :
    ∑ i ∈ Finset.range (k0 * N), a ^ i = (∑ j ∈ Finset.range N, (a ^ k0) ^ j) * ∑ i ∈ Finset.range k0, a ^ i := by
  induction N with
  | zero => simp
  | succ N ih =>
    rw [Nat.mul_succ, Finset.sum_range_add, ih, Finset.sum_range_succ, add_mul]
    congr 1
    rw [Finset.mul_sum]
    apply Finset.sum_congr rfl
    intro i _
    rw [← pow_mul, pow_add]

/-- the constructor computes the multiplier and the increment of `k` steps at once -/
theorem nonportable_ac (seed k id : Nat) (hk : k ≠ 0) :
    (initNonPortable seed k id).a = A0 ^ k ∧ (initNonPortable seed k id).c = C0 * ∑ i ∈ Finset.range k, A0 ^ i ∧
    (initNonPortable seed k id).X = seqState A0 C0 seed id ∧ (initNonPortable seed k id).portable = false := by
  obtain ⟨h1, h2, _⟩ := split2_spec k 0 hk
  refine ⟨?_, ?_, ?_, rfl⟩
  · show iter (fun a => a * A0) (k - 1) A0 = _
    rw [iter_mul, ← pow_succ']
    congr 1; omega
  · show (iter (fun (p : U32 × U32) => (p.1 * (p.2 + 1), p.2 * p.2)) (split2 k 0).2 ((1 : U32), iter (fun t => t * A0) (split2 k 0).1 1)).1 *
        ((iter (fun (p : U32 × U32) => (p.1 + p.2, p.2 * A0)) ((split2 k 0).1 - 1) ((1 : U32), A0)).1 * C0) = _
    rw [prodLoop, geomLoop, iter_mul, one_mul, one_mul]
    have hs : 1 + A0 * ∑ j ∈ Finset.range ((split2 k 0).1 - 1), A0 ^ j = ∑ i ∈ Finset.range (split2 k 0).1, A0 ^ i := by
      obtain ⟨m, hm⟩ : ∃ m, (split2 k 0).1 = m + 1 := ⟨(split2 k 0).1 - 1, by omega⟩
      rw [hm, Nat.add_sub_cancel, Finset.sum_range_succ', pow_zero, Finset.mul_sum, add_comm]
      congr 1
      apply Finset.sum_congr rfl
      intro i _
      ring
    rw [hs]
    have hk' : k = (split2 k 0).1 * 2 ^ (split2 k 0).2 := by simpa using h1
    conv_rhs => rw [hk', geom_factor]
    ring
  · show iter (lcg A0 C0) id _ = _
    rw [iter_eq]; rfl

/-- `j`-th draw (from zero) of a generator -/
def nthDraw (s : State) (j : Nat) : U32 := (draw ((fun s => (draw s).2)^[j] s)).1

theorem nonportable_draw (s : State) (h : s.portable = false) : draw s = (s.a * s.X + s.c, { s with X := s.a * s.X + s.c }) := by
  simp [draw, h]

theorem nonportable_after (s : State) (h : s.portable = false) (j : Nat) :
    (fun s => (draw s).2)^[j] s = { s with X := seqState s.a s.c s.X j } := by
  induction j with
  | zero => simp [seqState]
  | succ j ih =>
    rw [Function.iterate_succ_apply', ih]
    simp [draw, h, seqState, Function.iterate_succ_apply']

/-- leapfrogging: `n` steps of the combined map are `n * k` steps -/
theorem leap (k n : Nat) (x : U32) : seqState (A0 ^ k) (C0 * ∑ i ∈ Finset.range k, A0 ^ i) x n = seqState A0 C0 x (n * k) := by
  induction n with
  | zero => simp [seqState]
  | succ n ih =>
    have h1 : seqState (A0 ^ k) (C0 * ∑ i ∈ Finset.range k, A0 ^ i) x (n + 1) =
        A0 ^ k * seqState (A0 ^ k) (C0 * ∑ i ∈ Finset.range k, A0 ^ i) x n + C0 * ∑ i ∈ Finset.range k, A0 ^ i := by
      simp only [seqState, Function.iterate_succ_apply']
    rw [h1, ih, Nat.succ_mul, Nat.add_comm (n * k) k, seqState_add, seqState_closed A0 C0 (seqState A0 C0 x (n * k)) k]

/-- **C32 (states).** Draw `j` of stream `id` out of `k` is state `id + (j+1)k` of the seed's sequence. -/
theorem C32_stream (seed k id j : Nat) (hk : k ≠ 0) :
    nthDraw (initNonPortable seed k id) j = seqState A0 C0 seed (id + (j + 1) * k) := by
  obtain ⟨ha, hc, hx, hp⟩ := nonportable_ac seed k id hk
  have h : nthDraw (initNonPortable seed k id) j = seqState (initNonPortable seed k id).a (initNonPortable seed k id).c (initNonPortable seed k id).X (j + 1) := by
    rw [nthDraw, nonportable_after _ hp, nonportable_draw _ (by simpa using hp)]
    simp only [seqState, Function.iterate_succ_apply']
  rw [h, ha, hc, hx, leap, Nat.add_comm id, seqState_add]

/-- **C32.** The `k` streams are the single stream dealt out: draw `j` of stream `id` is draw `(k - 1) + (id - 1) + j k` of the generator
with one stream. -/
theorem C32_interleave (seed k id j : Nat) (hk : k ≠ 0) (hid : 1 ≤ id) :
    nthDraw (initNonPortable seed k id) j = nthDraw (initNonPortable seed 1 1) ((k - 1) + (id - 1) + j * k) := by
  rw [C32_stream seed k id j hk, C32_stream seed 1 1 _ one_ne_zero]
  congr 1
  rw [Nat.add_mul]; omega

/-- conversely every draw of the single stream from number `k - 1` on belongs to exactly one stream and position -/
theorem C32_partition (k n : Nat) (hk : k ≠ 0) (hn : k - 1 ≤ n) :
    ∃ p : Nat × Nat, (1 ≤ p.1 ∧ p.1 ≤ k ∧ n = (k - 1) + (p.1 - 1) + p.2 * k) ∧
      ∀ q : Nat × Nat, (1 ≤ q.1 ∧ q.1 ≤ k ∧ n = (k - 1) + (q.1 - 1) + q.2 * k) → q = p := by
  refine ⟨((n - (k - 1)) % k + 1, (n - (k - 1)) / k), ⟨by omega, ?_, ?_⟩, ?_⟩
  · have := Nat.mod_lt (n - (k - 1)) (by omega : k > 0); omega
  · have := Nat.mod_add_div (n - (k - 1)) k
    rw [Nat.mul_comm] at this
    simp only [Nat.add_sub_cancel]
    omega
  · rintro ⟨i, j⟩ ⟨h1, h2, h3⟩
    simp only at h1 h2 h3
    have e : n - (k - 1) = (i - 1) + k * j := by rw [Nat.mul_comm]; omega
    rw [e, Nat.add_mul_mod_self_left, Nat.add_mul_div_left _ _ (by omega), Nat.mod_eq_of_lt (by omega), Nat.div_eq_of_lt (by omega)]
    simp only [Prod.mk.injEq]
    omega

/-- six streams: the third draw of stream 4 is draw 5 + 3 + 12 of the single stream -/
example : nthDraw (initNonPortable 12345 6 4) 2 = nthDraw (initNonPortable 12345 1 1) 20 := C32_interleave 12345 6 4 2 (by decide) (by decide)

/-! ### C33 -/

/-- geometric sums with ratio `1` modulo 4 have the same powers of two as the number of terms -/
theorem two_pow_dvd_geom (a : Nat) (ha : a % 4 = 1) (e : Nat) : ∀ n : Nat, 2 ^ e ∣ ∑ i ∈ Finset.range n, a ^ i ↔ 2 ^ e ∣ n := by
  have hpow : ∀ n, a ^ n % 4 = 1 := by
    intro n
    induction n with
    | zero => rfl
    | succ n ih => rw [pow_succ, Nat.mul_mod, ih, ha]
  have hpar : ∀ n, (∑ i ∈ Finset.range n, a ^ i) % 2 = n % 2 := by
    intro n
    induction n with
    | zero => rfl
    | succ n ih =>
      rw [Finset.sum_range_succ, Nat.add_mod, ih]
      have := hpow n
      omega
  have hdbl : ∀ n, ∑ i ∈ Finset.range (2 * n), a ^ i = (∑ i ∈ Finset.range n, a ^ i) * (1 + a ^ n) := by
    intro n
    rw [two_mul, Finset.sum_range_add, mul_add, mul_one, Finset.sum_mul]
    congr 1
    apply Finset.sum_congr rfl
    intro i _
    rw [pow_add, mul_comm]
  induction e with
  | zero => intro n; simp
  | succ e ih =>
    intro n
    rcases Nat.even_or_odd' n with ⟨m, rfl | rfl⟩
    · rw [hdbl]
      have h4 := hpow m
      obtain ⟨w, hw⟩ : ∃ w, 1 + a ^ m = 2 * w := ⟨(1 + a ^ m) / 2, by omega⟩
      have hwo : w % 2 = 1 := by omega
      rw [hw, pow_succ, show (∑ i ∈ Finset.range m, a ^ i) * (2 * w) = ((∑ i ∈ Finset.range m, a ^ i) * w) * 2 by ring, Nat.mul_comm 2 m,
        Nat.mul_dvd_mul_iff_right (by decide), Nat.mul_dvd_mul_iff_right (by decide), ← ih m]
      constructor
      · intro h
        exact Nat.Coprime.dvd_of_dvd_mul_right (Nat.Coprime.pow_left _ (by rw [Nat.coprime_two_left, Nat.odd_iff]; exact hwo)) h
      · intro h; exact Dvd.dvd.mul_right h _
    · constructor
      · intro h
        have : 2 ∣ ∑ i ∈ Finset.range (2 * m + 1), a ^ i := Dvd.dvd.trans (Dvd.intro_left _ (pow_succ 2 e).symm) h
        have := hpar (2 * m + 1)
        omega
      · intro h
        have : 2 ∣ 2 * m + 1 := Dvd.dvd.trans (Dvd.intro_left _ (pow_succ 2 e).symm) h
        omega

theorem odd_unit (w : Nat) (h : w % 2 = 1) : IsUnit ((w : Nat) : U32) := by
  rw [ZMod.isUnit_iff_coprime]
  have : (4294967296 : Nat) = 2 ^ 32 := by norm_num
  rw [this]
  exact Nat.Coprime.pow_right _ (by rw [Nat.coprime_two_right, Nat.odd_iff]; exact h)

/-- a state returns after `n` steps only if `2^32` divides `n` -/
theorem return_iff (a c : Nat) (ha : a % 4 = 1) (hc : c % 2 = 1) (x : U32) (n : Nat) :
    seqState (a : U32) (c : U32) x n = x ↔ 4294967296 ∣ n := by
  have key : seqState (a : U32) (c : U32) x n - x = ((∑ i ∈ Finset.range n, a ^ i : Nat) : U32) * (((a - 1) * x.val + c : Nat) : U32) := by
    rw [seqState_closed]
    have hx : ((x.val : Nat) : U32) = x := ZMod.natCast_zmod_val x
    have h1 : 1 ≤ a := by omega
    push_cast [Nat.cast_sub h1]
    rw [hx]
    have hg := geom_sum_mul (a : U32) n
    linear_combination (-x) * hg
  have hu : IsUnit (((a - 1) * x.val + c : Nat) : U32) := by
    apply odd_unit
    obtain ⟨b, hb⟩ : ∃ b, a - 1 = 2 * b := ⟨(a - 1) / 2, by omega⟩
    rw [hb, Nat.mul_assoc]; omega
  rw [← sub_eq_zero, key, hu.mul_left_eq_zero, ZMod.natCast_eq_zero_iff]
  have h32 : (4294967296 : Nat) = 2 ^ 32 := by norm_num
  rw [h32]
  exact two_pow_dvd_geom a ha 32 n

theorem seqState_inj (a c : Nat) (ha : a % 4 = 1) (n : Nat) (x y : U32) (h : seqState (a : U32) (c : U32) x n = seqState (a : U32) (c : U32) y n) : x = y := by
  have hinj : Function.Injective (fun x : U32 => (a : U32) * x + (c : U32)) := by
    intro u v huv
    have := add_right_cancel huv
    exact (odd_unit a (by omega)).mul_left_cancel this
  exact hinj.iterate n h

/-- full period for every multiplier and increment of the right form -/
theorem full_period (a c : Nat) (ha : a % 4 = 1) (hc : c % 2 = 1) (x : U32) :
    (∀ i j, i < 4294967296 → j < 4294967296 → seqState (a : U32) (c : U32) x i = seqState (a : U32) (c : U32) x j → i = j) ∧
    (∀ y : U32, ∃ i, i < 4294967296 ∧ seqState (a : U32) (c : U32) x i = y) ∧ seqState (a : U32) (c : U32) x 4294967296 = x := by
  have hlt : ∀ i j, i ≤ j → j < 4294967296 → seqState (a : U32) (c : U32) x i = seqState (a : U32) (c : U32) x j → i = j := by
    intro i j hij hj h
    have e : seqState (a : U32) (c : U32) x j = seqState (a : U32) (c : U32) (seqState (a : U32) (c : U32) x i) (j - i) := by
      rw [← seqState_add]; congr 1; omega
    rw [e] at h
    have := (return_iff a c ha hc (seqState (a : U32) (c : U32) x i) (j - i)).1 h.symm
    rcases Nat.eq_zero_or_pos (j - i) with h0 | h0
    · omega
    · have := Nat.le_of_dvd h0 this
      omega
  have hinj : ∀ i j, i < 4294967296 → j < 4294967296 → seqState (a : U32) (c : U32) x i = seqState (a : U32) (c : U32) x j → i = j := by
    intro i j hi hj h
    rcases Nat.le_total i j with hij | hij
    · exact hlt i j hij hj h
    · exact (hlt j i hij hi h.symm).symm
  refine ⟨hinj, ?_, (return_iff a c ha hc x _).2 (dvd_refl _)⟩
  intro y
  have hf : Function.Injective (fun z : U32 => seqState (a : U32) (c : U32) x z.val) := by
    intro u v huv
    exact ZMod.val_injective _ (hinj _ _ (ZMod.val_lt u) (ZMod.val_lt v) huv)
  obtain ⟨z, hz⟩ := (Finite.injective_iff_surjective.1 hf) y
  exact ⟨z.val, ZMod.val_lt z, hz⟩

theorem A0_cast : A0 = ((1664525 : Nat) : U32) := by norm_num [A0]
theorem C0_cast : C0 = ((1013904223 : Nat) : U32) := by norm_num [C0]
theorem A1_cast : A1 = ((69069 : Nat) : U32) := by norm_num [A1]

/-- **C33.** From any seed the main generator visits all `2^32` states before it repeats one. -/
theorem C33_main (x : U32) :
    (∀ i j, i < 4294967296 → j < 4294967296 → seqState A0 C0 x i = seqState A0 C0 x j → i = j) ∧
    (∀ y : U32, ∃ i, i < 4294967296 ∧ seqState A0 C0 x i = y) ∧ seqState A0 C0 x 4294967296 = x := by
  rw [A0_cast, C0_cast]
  exact full_period 1664525 1013904223 (by norm_num) (by norm_num) x

theorem primes_odd : ∀ i, i < 100 → (primes.getD i 0) % 2 = 1 := by decide

/-- the same for the second generator of each of the 100 portable streams -/
theorem C33_second (id : Nat) (h1 : 1 ≤ id) (h2 : id ≤ 100) (x : U32) :
    (∀ i j, i < 4294967296 → j < 4294967296 →
      seqState A1 ((primes.getD (id - 1) 0 : Nat) : U32) x i = seqState A1 ((primes.getD (id - 1) 0 : Nat) : U32) x j → i = j) ∧
    (∀ y : U32, ∃ i, i < 4294967296 ∧ seqState A1 ((primes.getD (id - 1) 0 : Nat) : U32) x i = y) ∧
    seqState A1 ((primes.getD (id - 1) 0 : Nat) : U32) x 4294967296 = x := by
  rw [A1_cast]
  exact full_period 69069 _ (by norm_num) (primes_odd (id - 1) (by omega)) x

/-- a stream of the non-portable generator with `k` odd has full period too -/
theorem C33_stream (seed k id : Nat) (hk : k % 2 = 1) :
    ∀ i j, i < 4294967296 → j < 4294967296 → nthDraw (initNonPortable seed k id) i = nthDraw (initNonPortable seed k id) j → i = j := by
  intro i j hi hj h
  rw [C32_stream _ _ _ _ (by omega), C32_stream _ _ _ _ (by omega), A0_cast, C0_cast] at h
  have key : ∀ i j, i ≤ j → j < 4294967296 → seqState ((1664525 : Nat) : U32) ((1013904223 : Nat) : U32) seed (id + (i + 1) * k) =
      seqState ((1664525 : Nat) : U32) ((1013904223 : Nat) : U32) seed (id + (j + 1) * k) → i = j := by
    intro i j hij hj h
    have e : id + (j + 1) * k = (j - i) * k + (id + (i + 1) * k) := by
      obtain ⟨d, rfl⟩ : ∃ d, j = i + d := ⟨j - i, by omega⟩
      rw [Nat.add_sub_cancel_left]; ring
    rw [e, seqState_add _ _ _ ((j - i) * k)] at h
    have hd := (return_iff 1664525 1013904223 (by norm_num) (by norm_num) _ ((j - i) * k)).1 h.symm
    have h32 : (4294967296 : Nat) = 2 ^ 32 := by norm_num
    have hd' : 4294967296 ∣ j - i := by
      rw [h32] at hd ⊢
      exact Nat.Coprime.dvd_of_dvd_mul_right (Nat.Coprime.pow_left _ (by rw [Nat.coprime_two_left, Nat.odd_iff]; exact hk)) hd
    rcases Nat.eq_zero_or_pos (j - i) with h0 | h0
    · omega
    · have := Nat.le_of_dvd h0 hd'
      omega
  rcases Nat.le_total i j with hij | hij
  · exact key i j hij hj h
  · exact (key j i hij hi h.symm).symm

/-! ### C34 -/

theorem skipLoop_eq (skip : Nat) (x : U32) : ∀ (n i : Nat) (y : U32), y = seqState A0 C0 x (skip % 2 ^ i) →
    skipLoop skip i n (A0 ^ 2 ^ i) (C0 * ∑ j ∈ Finset.range (2 ^ i), A0 ^ j) y = seqState A0 C0 x (skip % 2 ^ (i + n))
  | 0, i, y, h => by rw [skipLoop, h, Nat.add_zero]
  | n + 1, i, y, h => by
      rw [skipLoop]
      have ha : A0 ^ 2 ^ i * A0 ^ 2 ^ i = A0 ^ 2 ^ (i + 1) := by rw [← pow_add, ← two_mul, ← pow_succ']
      have hc : (A0 ^ 2 ^ i + 1) * (C0 * ∑ j ∈ Finset.range (2 ^ i), A0 ^ j) = C0 * ∑ j ∈ Finset.range (2 ^ (i + 1)), A0 ^ j := by
        rw [pow_succ, Nat.mul_comm, two_mul, Finset.sum_range_add]
        simp only [pow_add, ← Finset.mul_sum]
        ring
      rw [ha, hc, skipLoop_eq skip x n (i + 1), Nat.add_assoc, Nat.add_comm 1 n]
      have hmod : skip % 2 ^ (i + 1) = 2 ^ i * (skip / 2 ^ i % 2) + skip % 2 ^ i := by
        rw [pow_succ, Nat.mod_mul]; omega
      have htb : skip.testBit i = decide (skip / 2 ^ i % 2 = 1) := Nat.testBit_eq_decide_div_mod_eq
      rw [hmod, htb]
      by_cases hb : skip / 2 ^ i % 2 = 1
      · rw [hb, h]
        simp only [decide_true, if_true, mul_one]
        rw [seqState_add, seqState_closed A0 C0 (seqState A0 C0 x (skip % 2 ^ i)) (2 ^ i)]
      · have h0 : skip / 2 ^ i % 2 = 0 := by omega
        rw [h0, h]
        simp

/-- **C34.** The portable generator of stream `id` out of `k` starts exactly `(2^32 - 1) / k * (id - 1)` steps into the seed's sequence
(for any `id` up to 100, also beyond the number of streams, since a skip that wraps around does a whole number of periods less). -/
theorem C34_skip (seed k id : Nat) (h1 : 1 ≤ id) (h2 : id ≤ 100) (hk : 1 ≤ k) (hk' : k < 4294967296) :
    ∃ s, initPortable seed k id = some s ∧ s.X = seqState A0 C0 seed ((4294967295 / k) * (id - 1)) ∧
      s.a = A0 ∧ s.c = C0 ∧ s.a1 = A1 ∧ s.X1 = 1 ∧ s.X2 = 1 ∧ s.portable = true := by
  have hkm : k % 4294967296 = k := Nat.mod_eq_of_lt hk'
  rw [initPortable, if_pos ⟨by omega, h2, by omega⟩]
  refine ⟨_, rfl, ?_, rfl, rfl, rfl, rfl, rfl, rfl⟩
  simp only [hkm]
  by_cases hid : 1 < id
  · rw [if_pos hid]
    have h := skipLoop_eq ((4294967295 / k * (id - 1)) % 4294967296) (seed : U32) 32 0 (seed : U32) (by simp [seqState, Nat.mod_one])
    simp only [pow_zero, pow_one, Finset.range_one, Finset.sum_singleton, mul_one, Nat.zero_add] at h
    rw [h]
    have h32 : (2 : Nat) ^ 32 = 4294967296 := by norm_num
    rw [h32, Nat.mod_mod]
    generalize 4294967295 / k * (id - 1) = N
    have hper : ∀ (q : Nat) (x : U32), seqState A0 C0 x (4294967296 * q) = x := by
      intro q x
      rw [A0_cast, C0_cast]
      exact (return_iff 1664525 1013904223 (by norm_num) (by norm_num) x _).2 ⟨q, rfl⟩
    conv_rhs => rw [← Nat.mod_add_div N 4294967296, seqState_add, hper]
  · rw [if_neg hid]
    have : id - 1 = 0 := by omega
    rw [this]; rfl

/-- The portable generator's two components do not meet before `2^32` draws: the guard that shifts both is not taken earlier. -/
theorem C34_guard (seed k id : Nat) (h1 : 1 ≤ id) (h2 : id ≤ 100) (hk : 1 ≤ k) (hk' : k < 4294967296) (s : State)
    (hs : initPortable seed k id = some s) (n : Nat) (hn : n < 4294967296) :
    (fun s => (draw s).2)^[n] s = { s with X := seqState A0 C0 s.X n, X1 := seqState A1 ((primes.getD (id - 1) 0 : Nat) : U32) 1 n } := by
  have hs' := hs
  rw [initPortable, if_pos ⟨by omega, h2, by rw [Nat.mod_eq_of_lt hk']; omega⟩] at hs'
  injection hs' with hs'
  have e1 : s.a = A0 := by rw [← hs']
  have e2 : s.c = C0 := by rw [← hs']
  have e3 : s.a1 = A1 := by rw [← hs']
  have e4 : s.c1 = ((primes.getD (id - 1) 0 : Nat) : U32) := by rw [← hs']
  have e5 : s.X1 = 1 := by rw [← hs']
  have e6 : s.X2 = 1 := by rw [← hs']
  have e7 : s.portable = true := by rw [← hs']
  clear hs hs'
  induction n with
  | zero => simp only [Function.iterate_zero, id_eq, seqState, ← e5]
  | succ n ih =>
    rw [Function.iterate_succ_apply', ih (by omega)]
    have hne : seqState A1 ((primes.getD (id - 1) 0 : Nat) : U32) 1 (n + 1) ≠ 1 := by
      intro h
      rw [A1_cast] at h
      have := Nat.le_of_dvd (by omega) ((return_iff 69069 _ (by norm_num) (primes_odd (id - 1) (by omega)) 1 (n + 1)).1 h)
      omega
    have hx1 : seqState A1 ((primes.getD (id - 1) 0 : Nat) : U32) 1 n * A1 + ((primes.getD (id - 1) 0 : Nat) : U32) =
        seqState A1 ((primes.getD (id - 1) 0 : Nat) : U32) 1 (n + 1) := by
      simp only [seqState, Function.iterate_succ_apply']; ring
    have hx : seqState A0 C0 s.X n * A0 + C0 = seqState A0 C0 s.X (n + 1) := by
      simp only [seqState, Function.iterate_succ_apply']; ring
    simp only [draw, e1, e2, e3, e4, e6, e7, hx1, hx, if_neg hne]
    rfl

/-- The state of a portable generator after any number of draws, `m` full periods and `n` more: the first component is in its period, the
second one started period `m` from `1 + m`. -/
theorem C34_portable_state (seed k id : Nat) (h1 : 1 ≤ id) (h2 : id ≤ 100) (hk : 1 ≤ k) (hk' : k < 4294967296) (s : State)
    (hs : initPortable seed k id = some s) (m n : Nat) (hn : n < 4294967296) :
    (fun s => (draw s).2)^[m * 4294967296 + n] s =
      { s with X := seqState A0 C0 s.X n, X1 := seqState A1 ((primes.getD (id - 1) 0 : Nat) : U32) (1 + m) n, X2 := 1 + m } := by
  have hs' := hs
  rw [initPortable, if_pos ⟨by omega, h2, by rw [Nat.mod_eq_of_lt hk']; omega⟩] at hs'
  injection hs' with hs'
  have e1 : s.a = A0 := by rw [← hs']
  have e2 : s.c = C0 := by rw [← hs']
  have e3 : s.a1 = A1 := by rw [← hs']
  have e4 : s.c1 = ((primes.getD (id - 1) 0 : Nat) : U32) := by rw [← hs']
  have e5 : s.X1 = 1 := by rw [← hs']
  have e6 : s.X2 = 1 := by rw [← hs']
  have e7 : s.portable = true := by rw [← hs']
  clear hs hs'
  have hx1 : ∀ v n, seqState A1 ((primes.getD (id - 1) 0 : Nat) : U32) v n * A1 + ((primes.getD (id - 1) 0 : Nat) : U32) =
      seqState A1 ((primes.getD (id - 1) 0 : Nat) : U32) v (n + 1) := by
    intro v n; simp only [seqState, Function.iterate_succ_apply']; ring
  have hx : ∀ n, seqState A0 C0 s.X n * A0 + C0 = seqState A0 C0 s.X (n + 1) := by
    intro n; simp only [seqState, Function.iterate_succ_apply']; ring
  have ret : ∀ (v : U32) n, seqState A1 ((primes.getD (id - 1) 0 : Nat) : U32) v n = v ↔ 4294967296 ∣ n := by
    intro v n
    rw [A1_cast]
    exact return_iff 69069 _ (by norm_num) (primes_odd (id - 1) (by omega)) v n
  have ret0 : seqState A0 C0 s.X 4294967296 = s.X := by
    rw [A0_cast, C0_cast]
    exact (return_iff 1664525 1013904223 (by norm_num) (by norm_num) s.X _).2 ⟨1, rfl⟩
  have inner : ∀ m, ∀ t, t = { s with X1 := 1 + (m : U32), X2 := 1 + m } → ∀ n < 4294967296, (fun s => (draw s).2)^[n] t =
      { s with X := seqState A0 C0 s.X n, X1 := seqState A1 ((primes.getD (id - 1) 0 : Nat) : U32) (1 + m) n, X2 := 1 + m } := by
    rintro m t rfl n
    induction n with
    | zero => intro _; rfl
    | succ n ih =>
      intro hn
      rw [Function.iterate_succ_apply', ih (by omega)]
      have hne : seqState A1 ((primes.getD (id - 1) 0 : Nat) : U32) (1 + m) (n + 1) ≠ 1 + m := by
        intro h
        have := Nat.le_of_dvd (by omega) ((ret _ _).1 h)
        omega
      simp only [draw, e1, e2, e3, e4, e7, hx1, hx, if_neg hne]
      rfl
  have outer : ∀ m : Nat, (fun s => (draw s).2)^[m * 4294967296] s = { s with X1 := 1 + (m : U32), X2 := 1 + m } := by
    intro m
    induction m with
    | zero =>
      rw [Nat.zero_mul, Function.iterate_zero, id_eq]
      rcases s with ⟨_, _, _, _, _, X1, X2, _⟩
      simp only at e5 e6
      subst e5 e6
      simp
    | succ m ih =>
      have : (m + 1) * 4294967296 = (4294967295 + 1) + m * 4294967296 := by ring
      rw [this, Function.iterate_add_apply, ih, Function.iterate_succ_apply', inner m _ rfl 4294967295 (by norm_num)]
      have heq : seqState A1 ((primes.getD (id - 1) 0 : Nat) : U32) (1 + m) (4294967295 + 1) = 1 + m := (ret _ _).2 ⟨1, rfl⟩
      simp only [draw, e1, e2, e3, e4, e7, hx1, hx, heq, if_true, show (4294967295 + 1 : Nat) = 4294967296 from rfl, ret0]
      simp [add_assoc]
  rw [Nat.add_comm, Function.iterate_add_apply, outer m]
  exact inner m _ rfl n hn

/-- the number drawn then is the difference of the two components after their next step -/
theorem C34_portable_draw (seed k id : Nat) (h1 : 1 ≤ id) (h2 : id ≤ 100) (hk : 1 ≤ k) (hk' : k < 4294967296) (s : State)
    (hs : initPortable seed k id = some s) (m n : Nat) (hn : n < 4294967296) :
    (draw ((fun s => (draw s).2)^[m * 4294967296 + n] s)).1 =
      seqState A0 C0 s.X (n + 1) - seqState A1 ((primes.getD (id - 1) 0 : Nat) : U32) (1 + m) (n + 1) := by
  rw [C34_portable_state seed k id h1 h2 hk hk' s hs m n hn]
  rw [initPortable, if_pos ⟨by omega, h2, by rw [Nat.mod_eq_of_lt hk']; omega⟩] at hs
  injection hs with hs
  have e1 : s.a = A0 := by rw [← hs]
  have e2 : s.c = C0 := by rw [← hs]
  have e3 : s.a1 = A1 := by rw [← hs]
  have e4 : s.c1 = ((primes.getD (id - 1) 0 : Nat) : U32) := by rw [← hs]
  have e7 : s.portable = true := by rw [← hs]
  simp only [draw, e1, e2, e3, e4, e7, seqState, Function.iterate_succ_apply']
  rw [if_neg (by simp)]
  split <;> ring

/-- **C33 (portable generator).** The state of the portable generator, including the guard that shifts its second component, does not
repeat before `2^64` draws. -/
theorem C33_portable (seed k id : Nat) (h1 : 1 ≤ id) (h2 : id ≤ 100) (hk : 1 ≤ k) (hk' : k < 4294967296) (s : State)
    (hs : initPortable seed k id = some s) (i j : Nat) (hi : i < 2 ^ 64) (hj : j < 2 ^ 64)
    (he : (fun s => (draw s).2)^[i] s = (fun s => (draw s).2)^[j] s) : i = j := by
  rw [← Nat.div_add_mod i 4294967296, ← Nat.div_add_mod j 4294967296, Nat.mul_comm _ (i / _), Nat.mul_comm _ (j / _)] at he ⊢
  have hmi := Nat.mod_lt i (show 0 < 4294967296 by norm_num)
  have hmj := Nat.mod_lt j (show 0 < 4294967296 by norm_num)
  rw [C34_portable_state seed k id h1 h2 hk hk' s hs _ _ hmi, C34_portable_state seed k id h1 h2 hk hk' s hs _ _ hmj] at he
  simp only [State.mk.injEq, true_and, and_true] at he
  have hX := (C33_main s.X).1 _ _ hmi hmj he.1
  have hd : ((i / 4294967296 : Nat) : U32) = ((j / 4294967296 : Nat) : U32) := add_left_cancel he.2.2
  have hq : i / 4294967296 = j / 4294967296 := by
    have := congrArg ZMod.val hd
    rw [ZMod.val_natCast, ZMod.val_natCast, Nat.mod_eq_of_lt, Nat.mod_eq_of_lt] at this
    · exact this
    · omega
    · omega
  rw [hX, hq]

example : ∃ s, initPortable 7 10 3 = some s ∧ s.X = seqState A0 C0 7 (429496729 * 2) := by
  obtain ⟨s, h1, h2, _⟩ := C34_skip 7 10 3 (by decide) (by decide) (by decide) (by decide)
  exact ⟨s, h1, h2⟩

/-! ### C35 -/

section
variable {T : Type}

theorem draws_length : ∀ (n : Nat) (s : State), (draws n s).1.length = n
  | 0, _ => rfl
  | n + 1, s => by simp [draws, draws_length n]

/-- `n` scalar calls of a generator: the numbers and the final state (specification) -/
def calls (gen : State → T × State) : Nat → State → List T × State
  | 0, s => ([], s)
  | n + 1, s => ((gen s).1 :: (calls gen n (gen s).2).1, (calls gen n (gen s).2).2)

theorem calls_length (gen : State → T × State) : ∀ (n : Nat) (s : State), (calls gen n s).1.length = n
  | 0, _ => rfl
  | n + 1, s => by simp [calls, calls_length gen n]

theorem fill_spec {I : Type} [DecidableEq I] (gen : State → T × State) : ∀ (l : List I) (m : I → T) (s : State), l.Nodup →
    (∀ k (hk : k < l.length), (fill gen m s l).1 l[k] = (calls gen l.length s).1[k]'(by rw [calls_length]; exact hk)) ∧
    (∀ i, i ∉ l → (fill gen m s l).1 i = m i) ∧ (fill gen m s l).2 = (calls gen l.length s).2
  | [], m, s, _ => ⟨fun k hk => by simp at hk, fun _ _ => rfl, rfl⟩
  | i :: l, m, s, h => by
      obtain ⟨hi, hl⟩ := List.nodup_cons.1 h
      obtain ⟨h1, h2, h3⟩ := fill_spec gen l (Function.update m i (gen s).1) (gen s).2 hl
      have hstep : fill gen m s (i :: l) = fill gen (Function.update m i (gen s).1) (gen s).2 l := rfl
      rw [hstep]
      refine ⟨?_, ?_, ?_⟩
      · intro k hk
        cases k with
        | zero =>
          simp only [List.getElem_cons_zero, List.length_cons, calls]
          rw [h2 i hi, Function.update_self]
        | succ k =>
          simp only [List.getElem_cons_succ, List.length_cons, calls]
          exact h1 k (by simpa using hk)
      · intro j hj
        simp only [List.mem_cons, not_or] at hj
        rw [h2 j hj.2, Function.update_of_ne hj.1]
      · simpa [calls] using h3

theorem flatMap_getElem {β : Type} (n c : Nat) (f : Nat → Nat → β) (i j : Nat) (hi : i < n) (hj : j < c) :
    ((List.range n).flatMap fun i => (List.range c).map (f i))[i * c + j]? = some (f i j) := by
  induction n with
  | zero => omega
  | succ n ih =>
    have hlen : ((List.range n).flatMap fun i => (List.range c).map (f i)).length = n * c := by
      induction n with
      | zero => simp
      | succ n _ => simp [List.length_flatMap]
    rw [List.range_succ, List.flatMap_append]
    by_cases h : i < n
    · rw [List.getElem?_append_left, ih h]
      rw [hlen]
      calc i * c + j < i * c + c := by omega
        _ = (i + 1) * c := by ring
        _ ≤ n * c := Nat.mul_le_mul_right _ h
    · have : i = n := by omega
      subst this
      rw [List.getElem?_append_right (by rw [hlen]; omega), hlen]
      simp [hj]

theorem flatMap_flatten {β : Type} (n b c : Nat) (f : Nat → Nat → Nat → β) (i j k : Nat) (hi : i < n) (hj : j < b) (hk : k < c) :
    ((List.range n).flatMap fun i => (List.range b).flatMap fun j => (List.range c).map (f i j))[(i * b + j) * c + k]? = some (f i j k) := by
  have hlen : ∀ n, ((List.range n).flatMap fun i => (List.range b).flatMap fun j => (List.range c).map (f i j)).length = n * (b * c) := by
    intro n
    simp [List.length_flatMap]
  induction n with
  | zero => omega
  | succ n ih =>
    rw [List.range_succ, List.flatMap_append]
    by_cases h : i < n
    · rw [List.getElem?_append_left, ih h]
      rw [hlen]
      calc (i * b + j) * c + k < (i * b + j) * c + c := by omega
        _ = (i * b + (j + 1)) * c := by ring
        _ ≤ (i * b + b) * c := Nat.mul_le_mul_right _ (by omega)
        _ = (i + 1) * (b * c) := by ring
        _ ≤ n * (b * c) := Nat.mul_le_mul_right _ h
    · have : i = n := by omega
      subst this
      have e : (i * b + j) * c + k = i * (b * c) + (j * c + k) := by ring
      rw [e, List.getElem?_append_right (by rw [hlen]; omega), hlen, Nat.add_sub_cancel_left]
      simp only [List.flatMap_cons, List.flatMap_nil, List.append_nil]
      exact flatMap_getElem b c (f i) j k hj hk

open Ex in
/-- **C35 (any order).** Filling a view of any dimension order draws exactly one number per element and leaves the generator in the state
after that many scalar calls; the elements receive the numbers in the order in which the loop nest of that dimension order visits them. -/
theorem C35_fill (gen : State → T × State) (sz o : List Nat) (l : List Idx) (hl : Loop sz o l) (m : Idx → T) (s : State) :
    (∀ k (hk : k < l.length), (fill gen m s l).1 l[k] = (calls gen l.length s).1[k]'(by rw [calls_length]; exact hk)) ∧
    (fill gen m s l).2 = (calls gen l.length s).2 ∧ l.length = sz.prod ∧ ∀ i, InRange i sz → i ∈ l := by
  obtain ⟨hn, hm⟩ := loop_visits hl
  obtain ⟨h1, _, h3⟩ := fill_spec gen l m s hn
  refine ⟨h1, h3, ?_, fun i hi => (hm i).2 hi⟩
  cases hl <;> simp [visit1, visit2row, visit2col, visit012, visit021, visit102, visit120, visit201, visit210, List.length_flatMap] <;>
    first | ring1 | (left; ring1)

open Ex in
/-- **C35 (vectors and row-major views).** Element `i`, `(i,j)`, `(i,j,k)` of a view in row-major order gets the number with its row-major
position.
Missing: other dimension orders, see `C35_colmajor_false`. -/
theorem C35_row_partial (gen : State → T × State) (s : State) :
    (∀ (n : Nat) (m : Idx → T) (i : Nat), i < n → (calls gen n s).1[i]? = some ((fill gen m s (visit1 n)).1 [i])) ∧
    (∀ (r c : Nat) (m : Idx → T) (i j : Nat), i < r → j < c →
      (calls gen (r * c) s).1[i * c + j]? = some ((fill gen m s (visit2row r c)).1 [i, j])) ∧
    (∀ (a b c : Nat) (m : Idx → T) (i j k : Nat), i < a → j < b → k < c →
      (calls gen (a * b * c) s).1[(i * b + j) * c + k]? = some ((fill gen m s (visit012 a b c)).1 [i, j, k])) := by
  have main : ∀ (sz o : List Nat) (l : List Idx) (_ : Loop sz o l) (m : Idx → T) (p : Nat) (x : Idx), l[p]? = some x →
      (calls gen sz.prod s).1[p]? = some ((fill gen m s l).1 x) := by
    intro sz o l hl m p x hx
    obtain ⟨h1, _, h3, _⟩ := C35_fill gen sz o l hl m s
    obtain ⟨hp, rfl⟩ := List.getElem?_eq_some_iff.1 hx
    rw [h1 p hp, ← h3]
    exact List.getElem?_eq_getElem _
  refine ⟨?_, ?_, ?_⟩
  · intro n m i hi
    have := main _ _ _ (.d1 n) m i [i] (by simp [visit1, hi])
    simpa using this
  · intro r c m i j hi hj
    have := main _ _ _ (.row r c) m (i * c + j) [i, j] (flatMap_getElem r c (fun i j => [i, j]) i j hi hj)
    simpa using this
  · intro a b c m i j k hi hj hk
    have := main _ _ _ (.d012 a b c) m ((i * b + j) * c + k) [i, j, k] (flatMap_flatten a b c (fun i j k => [i, j, k]) i j k hi hj hk)
    have e : [a, b, c].prod = a * b * c := by simp [Nat.mul_assoc]
    rwa [e] at this

open Ex in
/-- **C35 is false for other dimension orders.** In a column-major 2×2 matrix element `(0,1)` receives the third number, not the second. -/
theorem C35_colmajor_false : ∃ (s : State) (m : Idx → U32), initNonPortable 1 1 1 = s ∧
    (calls (randu id) 4 s).1[0 * 2 + 1]? ≠ some ((fill (randu id) m s (visit2col 2 2)).1 [0, 1]) := by
  refine ⟨_, fun _ => 0, rfl, ?_⟩
  have h := (C35_fill (randu (id : U32 → U32)) _ _ _ (.col 2 2) (fun _ => 0) (initNonPortable 1 1 1)).1 2 (by decide)
  have e : (visit2col 2 2)[2]'(by decide) = [0, 1] := by decide
  rw [e] at h
  rw [h]
  have hc : ∀ (n : Nat) (s : State) (j : Nat) (hj : j < n), s.portable = false → (calls (randu (id : U32 → U32)) n s).1[j]? = some (nthDraw s j) := by
    intro n
    induction n with
    | zero => intro s j hj; omega
    | succ n ih =>
      intro s j hj hp
      cases j with
      | zero => rfl
      | succ j =>
        rw [calls, List.getElem?_cons_succ]
        have : (randu (id : U32 → U32) s).2 = (draw s).2 := rfl
        rw [this, ih _ j (by omega) (by rw [nonportable_draw s hp]; exact hp)]
        rfl
  have hp : (initNonPortable 1 1 1).portable = false := rfl
  have e2 := hc 4 (initNonPortable 1 1 1) 2 (by decide) hp
  have e1 := hc 4 (initNonPortable 1 1 1) 1 (by decide) hp
  have hlen : (visit2col 2 2).length = 4 := by decide
  simp only [hlen]
  have e2' : (calls (randu (id : U32 → U32)) 4 (initNonPortable 1 1 1)).1[2]'(by rw [calls_length]; decide) = nthDraw (initNonPortable 1 1 1) 2 :=
    Option.some.inj ((List.getElem?_eq_getElem _).symm.trans e2)
  rw [e2', show 0 * 2 + 1 = 1 from rfl, e1]
  intro h
  have := C33_stream 1 1 1 rfl 1 2 (by norm_num) (by norm_num) (Option.some.inj h)
  omega

/-- `randn()` consumes twelve numbers of the uniform stream and is a function of them -/
theorem C35_randn (conv : U32 → T) (add : T → T → T) (zero : T) (sub6 from6 : T → T) (s : State) :
    (randn conv add zero sub6 from6 s).2 = (calls (randu conv) 12 s).2 ∧
    (randn conv add zero sub6 from6 s).1 =
      (if s.portable then from6 else sub6) (((calls (randu conv) 12 s).1).foldl add zero) := by
  have h : ∀ (n : Nat) (rp : T) (s : State), sumLoop conv add n rp s = (((calls (randu conv) n s).1).foldl add rp, (calls (randu conv) n s).2) := by
    intro n
    induction n with
    | zero => intro rp s; rfl
    | succ n ih =>
      intro rp s
      show sumLoop conv add n (add rp (conv (draw s).1)) (draw s).2 = _
      rw [ih]
      rfl
  constructor
  · simp only [randn]; rw [h]
  · simp only [randn]; rw [h]
    cases s.portable <;> rfl

/-- complex `randu()` consumes two numbers of the uniform stream: the real part, then the imaginary part -/
theorem C35_randu_complex (conv : U32 → T) (s : State) :
    (randuComplex conv s).2 = (calls (randu conv) 2 s).2 ∧
    (calls (randu conv) 2 s).1 = [(randuComplex conv s).1.1, (randuComplex conv s).1.2] := ⟨rfl, rfl⟩

/-- `randn_complex()` consumes six numbers `x₀ … x₅` of the uniform stream; its real part is `3` minus their sum, its imaginary part the sum of
the first three minus the sum of the others -/
theorem C35_randn_complex [AddCommGroup T] (conv : U32 → T) (three : T) (s : State) (x : Nat → T)
    (hx : ∀ i < 6, (calls (randu conv) 6 s).1[i]? = some (x i)) :
    (randnComplex conv (· + ·) (· - ·) 0 three s).2 = (calls (randu conv) 6 s).2 ∧
    (randnComplex conv (· + ·) (· - ·) 0 three s).1.1 = three - ∑ i ∈ Finset.range 6, x i ∧
    (randnComplex conv (· + ·) (· - ·) 0 three s).1.2 = ∑ i ∈ Finset.range 3, x i - ∑ i ∈ Finset.range 3, x (i + 3) := by
  have h0 := hx 0 (by norm_num)
  have h1 := hx 1 (by norm_num)
  have h2 := hx 2 (by norm_num)
  have h3 := hx 3 (by norm_num)
  have h4 := hx 4 (by norm_num)
  have h5 := hx 5 (by norm_num)
  simp only [calls, randu, List.getElem?_cons_zero, List.getElem?_cons_succ, Option.some.injEq] at h0 h1 h2 h3 h4 h5
  refine ⟨by simp only [randnComplex, sumLoop, calls, randu], ?_, ?_⟩
  · simp only [randnComplex, sumLoop, Finset.sum_range_succ, Finset.sum_range_zero, ← h0, ← h1, ← h2, ← h3, ← h4, ← h5]
    abel
  · simp only [randnComplex, sumLoop, Finset.sum_range_succ, Finset.sum_range_zero, Nat.zero_add, Nat.reduceAdd,
      ← h0, ← h1, ← h2, ← h3, ← h4, ← h5]

example : ∃ x : Nat → U32, ∀ i < 6, (calls (randu id) 6 (initNonPortable 1 1 1)).1[i]? = some (x i) :=
  by
  have hl := calls_length (randu (id : U32 → U32)) 6 (initNonPortable 1 1 1)
  generalize (calls (randu (id : U32 → U32)) 6 (initNonPortable 1 1 1)).1 = l at hl
  exact ⟨fun i => l.getD i 0, fun i hi => by simp [List.getD, List.getElem?_eq_getElem (show i < l.length by omega)]⟩

/-- **C35 (range, `double`).** Uniform numbers, as numerators over `2^32`, are below `2^32`: the value lies in `[0,1)`. -/
theorem C35_range_double (s : State) : (randu convDouble s).1 < 2 ^ 32 := by
  show ZMod.val (draw s).1 < 2 ^ 32
  exact ZMod.val_lt _

/-- **C35 (range, `float`) is false.** For some seed the first draw is `2^32 - 1`, which rounds to 1. -/
theorem C35_range_float_false : ∃ seed : Nat, seed < 2 ^ 32 ∧ (randu convFloat (initNonPortable seed 1 1)).1 = 2 ^ 32 := by
  have hs := (C33_main (-1 : U32)).2.2
  refine ⟨(seqState A0 C0 (-1) 4294967294).val, ZMod.val_lt _, ?_⟩
  have hd : (draw (initNonPortable (seqState A0 C0 (-1) 4294967294).val 1 1)).1 = -1 := by
    have := C32_stream (seqState A0 C0 (-1) 4294967294).val 1 1 0 one_ne_zero
    rw [ZMod.natCast_zmod_val, ← seqState_add] at this
    exact this.trans hs
  have hr : ∀ s, (randu convFloat s).1 = convFloat (draw s).1 := fun _ => rfl
  rw [hr]
  have hm : (-1 : U32) = ((4294967295 : Nat) : U32) := by
    rw [neg_eq_iff_add_eq_zero]
    have h0 : ((1 + 4294967295 : Nat) : U32) = 0 := ZMod.natCast_self 4294967296
    rw [Nat.cast_add, Nat.cast_one] at h0
    exact h0
  have hv : (-1 : U32).val = 4294967295 := by rw [hm]; exact ZMod.val_natCast_of_lt (by norm_num)
  rw [hd, convFloat, hv]
  have hl : Nat.log2 4294967295 = 31 := by rw [Nat.log2_eq_iff (by norm_num)]; norm_num
  simp only [round24, hl]
  norm_num

/-- Exactly the 128 largest integers round to one.
Missing: those integers, see `C35_range_float_false`. -/
theorem C35_range_float_partial (s : State) (h : (draw s).1.val < 2 ^ 32 - 128) : (randu convFloat s).1 < 2 ^ 32 := by
  show round24 (draw s).1.val < 2 ^ 32
  revert h
  generalize (draw s).1.val = n
  intro h
  simp only [round24]
  have hlog : n.log2 ≤ 31 := by
    by_cases h0 : n = 0
    · subst h0; decide
    · have := (Nat.log2_lt h0 (k := 32)).2 (by omega)
      omega
  have he : n.log2 - 23 ≤ 8 := by omega
  have hq : n / 2 ^ (n.log2 - 23) * 2 ^ (n.log2 - 23) ≤ n := Nat.div_mul_le_self _ _
  by_cases h8 : n.log2 - 23 = 8
  · rw [h8]
    norm_num at h ⊢
    split <;> omega
  · have hl : n.log2 < 31 := by omega
    have hn : n < 2 ^ 31 := by
      by_cases h0 : n = 0
      · subst h0; norm_num
      · exact (Nat.log2_lt h0).1 hl
    have hp : 2 ^ (n.log2 - 23) ≤ 2 ^ 8 := Nat.pow_le_pow_right (by decide) he
    split
    · rw [Nat.add_mul]; norm_num at hp hn ⊢; omega
    · norm_num at hp hn ⊢; omega

end

end Verif.Props
