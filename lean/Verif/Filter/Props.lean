import Verif.Filter.Model
import Mathlib.Algebra.BigOperators.Intervals
import Mathlib.Tactic.Ring
import Mathlib.Tactic.LinearCombination
import Mathlib.Tactic.Abel
/-! Properties C36–C38: FIR and IIR filters. -/
namespace Verif.Props
open Verif Filt Finset

section
variable {T : Type} [Semiring T]

/-- the full kernel given by `k` coefficients and a symmetry (specification) -/
def fullKernel (s : Sym) (k : Nat) (h : Nat → T) (j : Nat) : T :=
  match s with
  | .nonsym => h j
  | .evenLenOdd => if j < k then h j else h (2 * k - 2 - j)
  | .evenLenEven => if j < k then h j else h (2 * k - 1 - j)

/-- number of its coefficients -/
def fullLength (s : Sym) (k : Nat) : Nat :=
  match s with
  | .nonsym => k
  | .evenLenOdd => 2 * k - 1
  | .evenLenEven => 2 * k

/-- decimated convolution of a signal (zero before time 0) with a kernel of `L` coefficients: sample `q` of the result -/
def decimated (g : Nat → T) (L d : Nat) (x : Nat → T) (q : Nat) : T :=
  ∑ j ∈ range L, g j * (if j ≤ q * d then x (q * d - j) else 0)

theorem order_eq (s : Sym) (k : Nat) : order s k = fullLength s k := by
  cases s <;> simp [order, fullLength] <;> omega

omit [Semiring T] in
theorem foldl_update_at (f : Nat → Nat) (h : Nat → T) : ∀ (k : Nat) (K : Nat → T) (j : Nat), (∀ i j, i < k → j < k → f i = f j → i = j) → j < k →
    (List.range k).foldl (fun K j => Function.update K (f j) (h j)) K (f j) = h j
  | 0, _, _, _, hj => by omega
  | k + 1, K, j, hf, hj => by
      rw [List.range_succ, List.foldl_append]
      simp only [List.foldl_cons, List.foldl_nil]
      by_cases e : j = k
      · subst e; rw [Function.update_self]
      · rw [Function.update_of_ne (fun he => e (hf j k hj (by omega) he)),
          foldl_update_at f h k K j (fun a b ha hb => hf a b (by omega) (by omega)) (by omega)]

omit [Semiring T] in
theorem foldl_update_other (f : Nat → Nat) (h : Nat → T) : ∀ (k : Nat) (K : Nat → T) (u : Nat), (∀ j, j < k → u ≠ f j) →
    (List.range k).foldl (fun K j => Function.update K (f j) (h j)) K u = K u
  | 0, _, _, _ => rfl
  | k + 1, K, u, hf => by
      rw [List.range_succ, List.foldl_append]
      simp only [List.foldl_cons, List.foldl_nil]
      rw [Function.update_of_ne (hf k (by omega)), foldl_update_other f h k K u (fun j hj => hf j (by omega))]

/-- the constructor stores the full kernel reversed -/
theorem unpack_eq (s : Sym) (k : Nat) (hk : 0 < k) (h : Nat → T) (u v : Nat) (hu : u + v + 1 = fullLength s k) :
    unpack s k h u = fullKernel s k h v := by
  have rev : ∀ M j u, k ≤ M + 1 → j < k → u = M - j →
      (List.range k).foldl (fun K j => Function.update K (M - j) (h j)) (fun _ => (0 : T)) u = h j := by
    intro M j u hM hj hu
    subst hu
    exact foldl_update_at (fun j => M - j) h k _ j (fun a b ha hb (e : M - a = M - b) => by omega) hj
  have fwd : ∀ (K : Nat → T) j, j < k → (List.range k).foldl (fun K j => Function.update K j (h j)) K j = h j :=
    fun K j hj => foldl_update_at (fun j => j) h k K j (fun a b _ _ e => e) hj
  have fwd' : ∀ (K : Nat → T) j, k ≤ j → (List.range k).foldl (fun K j => Function.update K j (h j)) K j = K j :=
    fun K j hj => foldl_update_other (fun j => j) h k K j (fun i hi => by omega)
  simp only [unpack, order_eq, ← hu]
  cases s with
  | nonsym =>
    rw [if_neg (by decide)]
    simp only [fullLength] at hu
    exact rev _ v u (by omega) (by omega) (by omega)
  | evenLenOdd =>
    rw [if_pos (by decide)]
    simp only [fullLength] at hu
    simp only [fullKernel]
    by_cases hlt : u < k
    · rw [fwd _ u hlt]
      by_cases h2 : v < k
      · rw [if_pos h2]; congr 1; omega
      · rw [if_neg h2]; congr 1; omega
    · rw [fwd' _ u (by omega), if_pos (by omega)]
      exact rev _ v u (by omega) (by omega) (by omega)
  | evenLenEven =>
    rw [if_pos (by decide)]
    simp only [fullLength] at hu
    simp only [fullKernel]
    by_cases hlt : u < k
    · rw [fwd _ u hlt, if_neg (by omega)]; congr 1; omega
    · rw [fwd' _ u (by omega), if_pos (by omega)]
      exact rev _ v u (by omega) (by omega) (by omega)

omit [Semiring T] in
theorem steps_spec (dec bound : Nat) (hd : 0 < dec) (f : Nat → T) : ∀ (fuel i : Nat), bound ≤ i + fuel →
    ∃ n, steps dec bound f fuel i = ((List.range n).map (fun k => f (i + k * dec)), i + n * dec) ∧ bound ≤ i + n * dec ∧
      ∀ k, k < n → i + k * dec < bound
  | 0, i, h => ⟨0, by simp [steps], by omega, by omega⟩
  | fuel + 1, i, h => by
      by_cases hi : i < bound
      · obtain ⟨n, h1, h2, h3⟩ := steps_spec dec bound hd f fuel (i + dec) (by omega)
        refine ⟨n + 1, ?_, ?_, ?_⟩
        · rw [steps, if_pos hi, h1]
          simp only [List.range_succ_eq_map, List.map_cons, List.map_map, Nat.zero_mul, Nat.add_zero, Prod.mk.injEq, List.cons.injEq, true_and]
          refine ⟨List.map_congr_left fun k _ => ?_, by ring⟩
          simp only [Function.comp]; congr 1; rw [Nat.succ_mul]; omega
        · have : (n + 1) * dec = n * dec + dec := by ring
          omega
        · intro k hk
          cases k with
          | zero => simpa using hi
          | succ k => have := h3 k (by omega); have : (k + 1) * dec = k * dec + dec := by ring
                      omega
      · exact ⟨0, by rw [steps, if_neg hi]; simp, by omega, by omega⟩

/-- well-formedness of the filter object, as guaranteed by the constructor's preconditions -/
structure FirOk (F : Fir T) : Prop where
  dec_pos : 0 < F.dec
  dec_le : F.dec ≤ F.M
  size : F.M ≤ F.inputSize

/-- the state after `f` frames of the signal `x` -/
structure FirInv (F : Fir T) (x : Nat → T) (f q : Nat) (S : FirState T) : Prop where
  skip_lt : S.skip < F.dec
  pos : f * F.inputSize + S.skip = q * F.dec
  hist : (f = 0 ∧ S.saved = 0) ∨
    (0 < f ∧ S.saved = F.M - S.skip ∧ ∀ k, k < S.saved → S.state k = x (f * F.inputSize + k + S.skip - F.M))

/-- kernel sums of the model in terms of the convolution -/
theorem conv_split (K x : Nat → T) (M t : Nat) :
    ∑ j ∈ range (M + 1), K (M - j) * (if j ≤ t then x (t - j) else 0) = ∑ u ∈ range (M + 1), K u * (if M ≤ t + u then x (t + u - M) else 0) := by
  rw [← Finset.sum_range_reflect]
  apply Finset.sum_congr rfl
  intro u hu
  rw [mem_range] at hu
  rw [show M - (M + 1 - 1 - u) = u by omega]
  by_cases h : M ≤ t + u
  · rw [if_pos h, if_pos (by omega)]; congr 2; omega
  · rw [if_neg h, if_neg (by omega)]

/-- one call: the outputs of frame `f`, the multiples of the decimation that fall in it, and the new invariant -/
theorem apply_frame (F : Fir T) (ok : FirOk F) (hsave : F.save = true) (x : Nat → T) (f q : Nat) (S : FirState T) (inv : FirInv F x f q S) :
    ∃ n, (F.apply S (fun k => x (f * F.inputSize + k))).1 =
        (List.range n).map (fun k => decimated (fun j => F.kernel (F.M - j)) (F.M + 1) F.dec x (q + k)) ∧
      FirInv F x (f + 1) (q + n) (F.apply S (fun k => x (f * F.inputSize + k))).2 := by
  obtain ⟨hd, hdM, hN⟩ := ok
  obtain ⟨hs, hpos, hh⟩ := inv
  obtain ⟨N, M, d, K, sv⟩ := F
  obtain ⟨skip, saved, state⟩ := S
  simp only at *
  subst hsave
  obtain ⟨n1, e1, b1, l1⟩ := steps_spec d (M - skip) hd (fun i =>
      let sum := dot K (fun k => x (f * N + k)) (M - skip - i) 0 (i + skip + 1)
      if true = true ∧ i < saved then sum + dot K state 0 i (saved - i) else sum) (M - skip) 0 (by omega)
  simp only [Nat.zero_add] at e1 b1 l1
  have hst : n1 * d - (M - skip) + M = n1 * d + skip := by omega
  obtain ⟨n2, e2, b2, l2⟩ := steps_spec d N hd (fun p => dot K (fun k => x (f * N + k)) 0 (p - M) (M + 1)) N (n1 * d + skip) (by omega)
  have hap : Fir.apply ⟨N, M, d, K, true⟩ ⟨skip, saved, state⟩ (fun k => x (f * N + k)) =
      ((List.range n1).map (fun i => (fun i =>
          let sum := dot K (fun k => x (f * N + k)) (M - skip - i) 0 (i + skip + 1)
          if true = true ∧ i < saved then sum + dot K state 0 i (saved - i) else sum) (i * d)) ++
        (List.range n2).map (fun k => dot K (fun k => x (f * N + k)) 0 (n1 * d + skip + k * d - M) (M + 1)),
       ⟨(n1 * d + skip + n2 * d - M) + M - N, N - (n1 * d + skip + n2 * d - M),
        fun k => if k < N - (n1 * d + skip + n2 * d - M) then x (f * N + ((n1 * d + skip + n2 * d - M) + k)) else state k⟩) := by
    simp only [Fir.apply]
    rw [e1]
    simp only [hst, e2, if_true]
  -- values
  have hval1 : ∀ k, k < n1 → (let sum := dot K (fun k => x (f * N + k)) (M - skip - k * d) 0 (k * d + skip + 1)
      if true = true ∧ k * d < saved then sum + dot K state 0 (k * d) (saved - k * d) else sum) =
      decimated (fun j => K (M - j)) (M + 1) d x (q + k) := by
    intro k hk
    have hlt := l1 k hk
    rw [decimated, conv_split]
    have ht : (q + k) * d = f * N + (k * d + skip) := by rw [Nat.add_mul, ← hpos]; omega
    rw [ht, show M + 1 = (M - skip - k * d) + (k * d + skip + 1) by omega, Finset.sum_range_add]
    have hfirst : ∑ u ∈ range (k * d + skip + 1), K (M - skip - k * d + u) *
        (if M ≤ f * N + (k * d + skip) + (M - skip - k * d + u) then x (f * N + (k * d + skip) + (M - skip - k * d + u) - M) else 0) =
        dot K (fun k => x (f * N + k)) (M - skip - k * d) 0 (k * d + skip + 1) := by
      rw [dot]
      apply Finset.sum_congr rfl
      intro u hu
      rw [if_pos (by omega)]
      congr 2; omega
    rw [hfirst]
    have hsecond : ∑ u ∈ range (M - skip - k * d), K u * (if M ≤ f * N + (k * d + skip) + u then x (f * N + (k * d + skip) + u - M) else 0) =
        (if k * d < saved then dot K state 0 (k * d) (saved - k * d) else 0) := by
      rcases hh with ⟨hf, hsv⟩ | ⟨hf, hsv, hst⟩
      · rw [hsv, if_neg (by omega)]
        apply Finset.sum_eq_zero
        intro u hu
        rw [mem_range] at hu
        rw [hf, if_neg (by omega), mul_zero]
      · rw [if_pos (by omega), dot, hsv]
        apply Finset.sum_congr rfl
        intro u hu
        rw [mem_range] at hu
        have hNN : N ≤ f * N := by
          calc N = 1 * N := by ring
            _ ≤ f * N := Nat.mul_le_mul_right _ hf
        rw [if_pos (by omega), hst _ (by omega), Nat.zero_add]
        congr 2; omega
    rw [hsecond]
    by_cases hc : k * d < saved
    · simp only [hc, and_self, if_true]; rw [add_comm]
    · simp only [hc, and_false, if_false, zero_add]
  have hval2 : ∀ k, k < n2 → dot K (fun k => x (f * N + k)) 0 (n1 * d + skip + k * d - M) (M + 1) =
      decimated (fun j => K (M - j)) (M + 1) d x (q + (n1 + k)) := by
    intro k hk
    have hlt := l2 k hk
    rw [decimated, conv_split]
    have ht : (q + (n1 + k)) * d = f * N + (n1 * d + skip + k * d) := by rw [Nat.add_mul, Nat.add_mul, ← hpos]; omega
    rw [ht, dot]
    apply Finset.sum_congr rfl
    intro u hu
    rw [if_pos (by omega), Nat.zero_add]
    congr 2; omega
  refine ⟨n1 + n2, ?_, ?_⟩
  · rw [hap]
    simp only
    rw [List.range_add, List.map_append, List.map_map]
    congr 1
    · apply List.map_congr_left
      intro k hk
      have := hval1 k (by simpa using hk)
      simpa using this
    · apply List.map_congr_left
      intro k hk
      simp only [Function.comp]
      exact hval2 k (by simpa using hk)
  · rw [hap]
    -- the end position
    have hend : n1 * d + skip + n2 * d < N + d := by
      rcases Nat.eq_zero_or_pos n2 with h0 | h0
      · subst h0
        rcases Nat.eq_zero_or_pos n1 with h1 | h1
        · subst h1; omega
        · have := l1 (n1 - 1) (by omega)
          rw [Nat.sub_mul, Nat.one_mul] at this
          have : d ≤ n1 * d := Nat.le_mul_of_pos_left d h1
          omega
      · have := l2 (n2 - 1) (by omega)
        rw [Nat.sub_mul, Nat.one_mul] at this
        have : d ≤ n2 * d := Nat.le_mul_of_pos_left d h0
        omega
    refine ⟨?_, ?_, Or.inr ⟨by omega, ?_, ?_⟩⟩
    · simp only; omega
    · simp only
      rw [Nat.add_mul, Nat.add_mul, Nat.add_mul, ← hpos]; omega
    · simp only; omega
    · intro k hk
      simp only at hk ⊢
      rw [if_pos hk]
      congr 1
      rw [Nat.add_mul]; omega

/-- cutting a signal into frames of the input size -/
def frames (x : Nat → T) (N : Nat) (f0 f : Nat) : List (Nat → T) := (List.range f).map fun i k => x ((f0 + i) * N + k)

theorem run_frames (F : Fir T) (ok : FirOk F) (hsave : F.save = true) (x : Nat → T) :
    ∀ (f f0 q : Nat) (S : FirState T), FirInv F x f0 q S →
      ∃ n, (F.run S (frames x F.inputSize f0 f)).1.flatten =
          (List.range n).map (fun k => decimated (fun j => F.kernel (F.M - j)) (F.M + 1) F.dec x (q + k)) ∧
        FirInv F x (f0 + f) (q + n) (F.run S (frames x F.inputSize f0 f)).2
  | 0, f0, q, S, inv => ⟨0, by simp [frames, Fir.run], by simpa [frames, Fir.run] using inv⟩
  | f + 1, f0, q, S, inv => by
      obtain ⟨n1, h1, h2⟩ := apply_frame F ok hsave x f0 q S inv
      obtain ⟨n2, h3, h4⟩ := run_frames F ok hsave x f (f0 + 1) (q + n1) _ h2
      have hfr : frames x F.inputSize f0 (f + 1) = (fun k => x (f0 * F.inputSize + k)) :: frames x F.inputSize (f0 + 1) f := by
        simp only [frames, List.range_succ_eq_map, List.map_cons, List.map_map, Nat.add_zero, List.cons.injEq, true_and]
        apply List.map_congr_left
        intro i _
        funext k
        simp only [Function.comp]
        congr 3; omega
      refine ⟨n1 + n2, ?_, ?_⟩
      · rw [hfr, Fir.run]
        simp only [List.flatten_cons]
        rw [h1, h3, List.range_add, List.map_append, List.map_map]
        congr 1
        apply List.map_congr_left
        intro k _
        simp only [Function.comp, Nat.add_assoc]
      · rw [hfr, Fir.run]
        simp only
        rw [show f0 + (f + 1) = f0 + 1 + f by omega, ← Nat.add_assoc q]
        exact h4

theorem make_some (s : Sym) (sv : Bool) (h : Nat → T) (k N d : Nat) (F : Fir T) (hF : Fir.make s sv h k N d = some F) :
    F = ⟨N, order s k - 1, d, unpack s k h, sv⟩ ∧
      (0 < N ∧ 0 < d ∧ d < order s k - 1 + 1 ∧ order s k - 1 ≤ N ∧ (if s = .nonsym then 1 else 0) < k) := by
  by_cases hc : 0 < N ∧ 0 < d ∧ d < order s k - 1 + 1 ∧ order s k - 1 ≤ N ∧ (if s = .nonsym then 1 else 0) < k
  · simp only [Fir.make] at hF
    rw [if_pos hc] at hF
    injection hF with hF
    exact ⟨hF.symm, hc⟩
  · simp only [Fir.make] at hF
    rw [if_neg hc] at hF
    cases hF

/-- **C36.** With state saving, the outputs of any number of consecutive frames, concatenated, are the decimated convolution of the whole
signal with the full kernel: sample `q` is `Σ_j g_j x(q d - j)`, for all `q` with `q d` below the number of samples seen. -/
theorem C36_frames (s : Sym) (h : Nat → T) (k N d : Nat) (F : Fir T) (hF : Fir.make s true h k N d = some F) (x : Nat → T) (f : Nat) :
    ∃ n, (∀ q, q < n ↔ q * d < f * N) ∧
      (F.run .initial (frames x N 0 f)).1.flatten = (List.range n).map (decimated (fullKernel s k h) (fullLength s k) d x) := by
  have hmake : F = ⟨N, order s k - 1, d, unpack s k h, true⟩ ∧
      (0 < N ∧ 0 < d ∧ d < order s k - 1 + 1 ∧ order s k - 1 ≤ N ∧ (if s = .nonsym then 1 else 0) < k) := make_some s true h k N d F hF
  · obtain ⟨hF, c1, c2, c3, c4, c5⟩ := hmake
    subst hF
    rw [order_eq] at *
    have hk : 0 < k := by split at c5 <;> omega
    have hL : 0 < fullLength s k := by cases s <;> simp only [fullLength] <;> omega
    have ok : FirOk (⟨N, fullLength s k - 1, d, unpack s k h, true⟩ : Fir T) := ⟨c2, by simp only; omega, c4⟩
    obtain ⟨n, h1, h2⟩ := run_frames _ ok rfl x f 0 0 .initial ⟨c2, by simp [FirState.initial], Or.inl ⟨rfl, rfl⟩⟩
    refine ⟨n, ?_, ?_⟩
    · have hp := h2.pos
      have hs := h2.skip_lt
      simp only [Nat.zero_add] at hp hs
      intro q
      constructor
      · intro hq
        have : (q + 1) * d ≤ n * d := Nat.mul_le_mul_right _ hq
        rw [Nat.add_mul] at this
        omega
      · intro hq
        by_contra hcon
        have : n * d ≤ q * d := Nat.mul_le_mul_right _ (by omega)
        omega
    · simp only at h1
      rw [h1]
      apply List.map_congr_left
      intro q _
      rw [decimated, decimated, Nat.zero_add, Nat.sub_add_cancel hL]
      apply Finset.sum_congr rfl
      intro j hj
      rw [mem_range] at hj
      rw [unpack_eq s k hk h _ j (by omega)]

/-- **C36 (bounds).** In every frame of a run the number of outputs is at most the output size, and the skip left satisfies the
precondition checked at l.150. -/
theorem C36_bounds (s : Sym) (h : Nat → T) (k N d : Nat) (F : Fir T) (hF : Fir.make s true h k N d = some F) (x : Nat → T) (f : Nat) :
    let S := (F.run .initial (frames x N 0 f)).2
    let r := F.apply S (fun k => x (f * N + k))
    r.1.length ≤ (N + d - 1) / d ∧ (N % d ≠ 0 ∨ r.2.skip = 0) := by
  obtain ⟨hFe, c1, c2, c3, c4, c5⟩ := make_some s true h k N d F hF
  subst hFe
  have ok : FirOk (⟨N, order s k - 1, d, unpack s k h, true⟩ : Fir T) := ⟨c2, by simp only; omega, c4⟩
  obtain ⟨q, -, h2⟩ := run_frames _ ok rfl x f 0 0 .initial ⟨c2, by simp [FirState.initial], Or.inl ⟨rfl, rfl⟩⟩
  rw [Nat.zero_add, Nat.zero_add] at h2
  obtain ⟨n, h3, h4⟩ := apply_frame _ ok rfl x f q _ h2
  have p1 := h2.pos
  have p2 := h4.pos
  have p3 := h4.skip_lt
  simp only at p1 p2 p3 h3 h4
  simp only
  constructor
  · rw [h3, List.length_map, List.length_range, Nat.le_div_iff_mul_le c2]
    rw [Nat.add_mul, Nat.add_mul, Nat.one_mul] at p2
    omega
  · by_cases hd : N % d = 0
    · right
      have hdvd : d ∣ N := Nat.dvd_of_mod_eq_zero hd
      have h5 : d ∣ (f + 1) * N := Dvd.dvd.mul_left hdvd _
      have h6 : d ∣ (q + n) * d := Dvd.intro_left _ rfl
      rw [← p2] at h6
      exact Nat.eq_zero_of_dvd_of_lt ((Nat.dvd_add_right h5).1 h6) p3
    · exact Or.inl hd

/-- a symmetric kernel of odd length 5, frames of 7, decimation 3 -/
example : ∃ F, Fir.make .evenLenOdd true (fun j => ([1, 2, 5] : List Int).getD j 0) 3 7 3 = some F := ⟨_, rfl⟩
example : ∃ F, Fir.make .nonsym true (fun j => ([1, 2, 5, 9] : List Int).getD j 0) 4 5 2 = some F ∧
    (F.run .initial (frames (fun k => (k : Int) * k) 5 0 3)).1 = [[0, 6, 63], [247, 567], [1023, 1615, 2343]] := ⟨_, rfl, by decide +kernel⟩

/-- **C37 (memoryless).** Without state saving the output of a call after any history of calls is the output of a new filter, and is the
decimated convolution of that call's input alone. -/
theorem C37_memoryless (s : Sym) (h : Nat → T) (k N d : Nat) (F : Fir T) (hF : Fir.make s false h k N d = some F) (hist : List (Nat → T)) :
    (F.run .initial hist).2 = .initial ∧
    ∀ x : Nat → T, F.apply (F.run .initial hist).2 x = F.apply .initial x ∧
      ∃ n, (∀ q, q < n ↔ q * d < N) ∧ (F.apply .initial x).1 = (List.range n).map (decimated (fullKernel s k h) (fullLength s k) d x) := by
  obtain ⟨hFe, hc⟩ := make_some s false h k N d F hF
  have hsv : F.save = false := by rw [hFe]
  have hst : ∀ (l : List (Nat → T)) (S : FirState T), (F.run S l).2 = S := by
    intro l
    induction l with
    | nil => intro S; rfl
    | cons y l ih =>
      intro S
      have : (F.apply S y).2 = S := by simp [Fir.apply, hsv]
      rw [Fir.run]
      simp only
      rw [this]; exact ih S
  refine ⟨hst _ _, fun x => ⟨by rw [hst], ?_⟩⟩
  -- the first call of the saving filter with the same kernel
  obtain ⟨F', hF', hFF⟩ : ∃ F', Fir.make s true h k N d = some F' ∧ F' = { F with save := true } := by
    simp only [Fir.make]
    rw [if_pos hc]
    exact ⟨_, rfl, by rw [hFe]⟩
  obtain ⟨n, h1, h2⟩ := C36_frames s h k N d F' hF' x 1
  refine ⟨n, by simpa using h1, ?_⟩
  have e : (F'.run .initial (frames x N 0 1)).1.flatten = (F'.apply .initial x).1 := by
    simp [frames, Fir.run]
  rw [← h2, e, hFF]
  simp only [Fir.apply, hsv, FirState.initial, Nat.not_lt_zero, and_false, if_false]

/-- **C37 (reset).** After `reset()` the filter behaves like a new one whatever was filtered before. -/
theorem C37_reset (F : Fir T) (hist l : List (Nat → T)) : F.run (F.run .initial hist).2.reset l = F.run .initial l := rfl

end

/-! ### C38 -/

section
variable {T : Type} [CommRing T]

/-- the whole signal through one section -/
def section1 (s : Sec T) : (T × T) → List T → List T × (T × T)
  | w, [] => ([], w)
  | w, x :: xs => ((s.step w x).1 :: (section1 s (s.step w x).2 xs).1, (section1 s (s.step w x).2 xs).2)

theorem frame_append (ss : List (Sec T)) : ∀ (xs ys : List T) (ws : List (T × T)),
    frame ss ws (xs ++ ys) = ((frame ss ws xs).1 ++ (frame ss (frame ss ws xs).2 ys).1, (frame ss (frame ss ws xs).2 ys).2)
  | [], _, _ => rfl
  | x :: xs, ys, ws => by
      simp only [List.cons_append, frame]
      rw [frame_append ss xs ys]

/-- **C38 (frames).** With state saving, filtering any sequence of frames gives, concatenated, the output for the concatenated input, and
the same final state. -/
theorem C38_frames (ss : List (Sec T)) : ∀ (fs : List (List T)) (ws : List (T × T)),
    (iirRun true ss ws fs).1.flatten = (iir true ss ws fs.flatten).1 ∧ (iirRun true ss ws fs).2 = (iir true ss ws fs.flatten).2
  | [], ws => ⟨rfl, rfl⟩
  | f :: fs, ws => by
      obtain ⟨h1, h2⟩ := C38_frames ss fs (frame ss ws f).2
      simp only [iir, if_true] at h1 h2
      simp only [iirRun, iir, if_true, List.flatten_cons]
      rw [h1, h2, frame_append]
      exact ⟨rfl, rfl⟩

/-- Without state saving every call starts from zero state. -/
theorem C38_no_save (ss : List (Sec T)) (fs : List (List T)) :
    (iirRun false ss (wInit ss) fs).1 = fs.map (fun f => (iir true ss (wInit ss) f).1) ∧ (iirRun false ss (wInit ss) fs).2 = wInit ss := by
  induction fs with
  | nil => exact ⟨rfl, rfl⟩
  | cons f fs ih =>
    simp only [iirRun, iir, List.map_cons]
    exact ⟨congrArg _ ih.1, ih.2⟩

/-- **C38 (cascade).** Passing each sample through all sections is passing the whole signal through the sections one after the other. -/
theorem C38_cascade (s : Sec T) (ss : List (Sec T)) : ∀ (xs : List T) (w : T × T) (ws : List (T × T)),
    frame (s :: ss) (w :: ws) xs =
      ((frame ss ws (section1 s w xs).1).1, (section1 s w xs).2 :: (frame ss ws (section1 s w xs).1).2)
  | [], w, ws => rfl
  | x :: xs, w, ws => by
      simp only [frame, sample, section1]
      rw [C38_cascade s ss xs]

theorem C38_cascade_nil (xs : List T) : (frame ([] : List (Sec T)) [] xs).1 = xs := by
  have h : ∀ xs : List T, frame ([] : List (Sec T)) [] xs = (xs, []) := by
    intro xs
    induction xs with
    | nil => rfl
    | cons x xs ih => simp only [frame, sample]; rw [ih]
  rw [h]

theorem section1_length (s : Sec T) : ∀ (xs : List T) (w : T × T), (section1 s w xs).1.length = xs.length
  | [], _ => rfl
  | _ :: xs, w => by simp [section1, section1_length s xs]

/-- a sample of a signal, zero before its start -/
def past (l : List T) (n k : Nat) : T := if k ≤ n then l.getD (n - k) 0 else 0

/-- general step: outputs after a state reached from `p1, p2` (previous inputs) and `q1, q2` (previous outputs) -/
theorem section1_recurrence (s : Sec T) : ∀ (xs : List T) (w : T × T) (p1 p2 q1 q2 v3 v4 : T),
    -- the state `w = (w1, w2)` continues a history `w1, w2, v3, v4` of internal values with inputs `p1, p2` and outputs `q1, q2`
    p1 = w.1 + s.a1 * w.2 + s.a2 * v3 → p2 = w.2 + s.a1 * v3 + s.a2 * v4 →
    q1 = s.b0 * w.1 + s.b1 * w.2 + s.b2 * v3 → q2 = s.b0 * w.2 + s.b1 * v3 + s.b2 * v4 →
    ∀ n, n < xs.length →
      (section1 s w xs).1.getD n 0 + s.a1 * (q1 :: (section1 s w xs).1).getD n 0 +
          s.a2 * (q2 :: q1 :: (section1 s w xs).1).getD n 0 =
        s.b0 * xs.getD n 0 + s.b1 * (p1 :: xs).getD n 0 + s.b2 * (p2 :: p1 :: xs).getD n 0
  | [], _, _, _, _, _, _, _, _, _, _, _, n, hn => by simp at hn
  | x :: xs, w, p1, p2, q1, q2, v3, v4, h1, h2, h3, h4, n, hn => by
      cases n with
      | zero =>
        simp only [section1, Sec.step, List.getD_cons_zero]
        rw [h1, h2, h3, h4]; ring
      | succ n =>
        have ih := section1_recurrence s xs (s.step w x).2 x p1 (s.step w x).1 q1 w.2 v3 (by simp only [Sec.step]; ring) h1
          (by simp only [Sec.step]) h3 n (by simpa using hn)
        simp only [section1, List.getD_cons_succ]
        cases n with
        | zero =>
          simp only [List.getD_cons_zero] at ih ⊢
          exact ih
        | succ n =>
          simp only [List.getD_cons_succ] at ih ⊢
          cases n with
          | zero => simpa only [List.getD_cons_zero] using ih
          | succ n => simpa only [List.getD_cons_succ] using ih

/-- **C38 (difference equation).** From zero state the output `y` of a section for input `x` satisfies
`y[n] + a1 y[n-1] + a2 y[n-2] = b0 x[n] + b1 x[n-1] + b2 x[n-2]`, with zero samples before the start. -/
theorem C38_difference (s : Sec T) (xs : List T) (n : Nat) (hn : n < xs.length) :
    past (section1 s (0, 0) xs).1 n 0 + s.a1 * past (section1 s (0, 0) xs).1 n 1 + s.a2 * past (section1 s (0, 0) xs).1 n 2 =
      s.b0 * past xs n 0 + s.b1 * past xs n 1 + s.b2 * past xs n 2 := by
  have h := section1_recurrence s xs (0, 0) 0 0 0 0 0 0 (by simp) (by simp) (by simp) (by simp) n hn
  have e : ∀ l : List T, past l n 0 = l.getD n 0 ∧ past l n 1 = ((0 : T) :: l).getD n 0 ∧ past l n 2 = ((0 : T) :: 0 :: l).getD n 0 := by
    intro l
    refine ⟨by simp [past], ?_, ?_⟩
    · cases n <;> simp [past]
    · rcases n with _ | _ | n <;> simp [past]
  rw [(e _).1, (e _).2.1, (e _).2.2, (e xs).1, (e xs).2.1, (e xs).2.2]
  exact h

/-- one section with integer coefficients, two frames -/
example : (iirRun true [⟨-1, 2, 1, 3, 0⟩] (wInit [⟨-1, 2, 1, 3, 0⟩]) [[1, 0], [0, 0, 5]]).1 = [[1, 4], [2, -6, -5]] := by decide +kernel

end

end Verif.Props
