import Verif.Signal.Lemmas
/-!
C40: frequency swap.
-/
namespace Verif.Props
open Verif.Sig

/-- specification: the source index of destination `i` -/
def swapSrc (M i : Nat) : Nat := (i + (M + 1) / 2) % M

theorem swapSrc_lo {M i : Nat} (h : i < M / 2) : swapSrc M i = M / 2 + i + M % 2 := by
  unfold swapSrc
  rw [Nat.mod_eq_of_lt (by omega)]
  omega

theorem swapSrc_hi {M i : Nat} (h : i < M / 2) : swapSrc M (M / 2 + i) = i := by
  unfold swapSrc
  have e : M / 2 + i + (M + 1) / 2 = i + M := by omega
  rw [e, Nat.add_mod_right, Nat.mod_eq_of_lt (by omega)]

theorem swapSrc_last {M : Nat} (h : M % 2 = 1) : swapSrc M (M - 1) = M / 2 := by
  unfold swapSrc
  have e : M - 1 + (M + 1) / 2 = M / 2 + M := by omega
  rw [e, Nat.add_mod_right, Nat.mod_eq_of_lt (by omega)]

theorem swapSrc_lt {M i : Nat} (h : 0 < M) : swapSrc M i < M := Nat.mod_lt _ h

/-- one line read from a constant source `x` -/
theorem swapLine_out {T σ ι : Type} (x : Nat → T) (get : σ → Nat → Option T) (put : σ → Nat → T → Option σ) (M : Nat) (hM : 0 < M)
    (v : σ → Nat → T) (F : σ → ι → T) (Ok : σ → Prop)
    (hget : ∀ s i, i < M → get s i = some (x i))
    (hput : ∀ s i t, Ok s → i < M → ∃ s', put s i t = some s' ∧ Ok s' ∧ (∀ k, v s' k = if k = i then t else v s k) ∧
      (∀ q, F s' q = F s q)) (s : σ) (hs : Ok s) :
    ∃ s', swapLine get put M s = some s' ∧ Ok s' ∧ (∀ k < M, v s' k = x (swapSrc M k)) ∧ (∀ q, F s' q = F s q) := by
  unfold swapLine
  obtain ⟨s1, e1, ok1, f1, c1⟩ := loop_inv (σ := σ) (fun j s' => Ok s' ∧ (∀ q, F s' q = F s q) ∧
      ∀ k, (k < j ∨ M / 2 ≤ k ∧ k < M / 2 + j) → v s' k = x (swapSrc M k)) (M / 2) s
    (fun s i => do
      let ii := M / 2 + i
      let tmp ← get s (ii + M % 2)
      let s ← put s ii (← get s i)
      put s i tmp)
    ⟨hs, fun _ => rfl, fun k hk => by omega⟩ (by
      intro j s' hj ⟨ok, fr, cov⟩
      obtain ⟨s1, e1, ok1, v1, f1⟩ := hput s' (M / 2 + j) (x j) ok (by omega)
      obtain ⟨s2, e2, ok2, v2, f2⟩ := hput s1 j (x (M / 2 + j + M % 2)) ok1 (by omega)
      refine ⟨s2, ?_, ok2, fun q => by rw [f2, f1, fr], fun k hk => ?_⟩
      · simp [hget s' j (by omega), hget s' (M / 2 + j + M % 2) (by omega), e1, e2]
      · rw [v2, v1]
        by_cases h1 : k = j
        · rw [if_pos h1, h1, swapSrc_lo hj]
        · rw [if_neg h1]
          by_cases h2 : k = M / 2 + j
          · rw [if_pos h2, h2, swapSrc_hi hj]
          · rw [if_neg h2]
            exact cov k (by omega))
  simp only [hget s (M / 2) (by omega), Option.bind_eq_bind, Option.bind_some] at *
  rw [e1]
  simp only [Option.bind_some]
  by_cases hodd : M % 2 = 1
  · obtain ⟨s2, e2, ok2, v2, f2⟩ := hput s1 (M - 1) (x (M / 2)) ok1 (by omega)
    refine ⟨s2, by rw [if_pos (by omega), e2], ok2, fun k hk => ?_, fun q => by rw [f2, f1]⟩
    rw [v2]
    by_cases h1 : k = M - 1
    · rw [if_pos h1, h1, swapSrc_last hodd]
    · rw [if_neg h1]
      exact c1 k (by omega)
  · exact ⟨s1, by rw [if_neg (by omega)], ok1, fun k hk => c1 k (by omega), f1⟩

/-- one line swapped in place -/
theorem swapLine_inplace {T σ ι : Type} (get : σ → Nat → Option T) (put : σ → Nat → T → Option σ) (M : Nat) (hM : 0 < M)
    (v : σ → Nat → T) (F : σ → ι → T) (Ok : σ → Prop)
    (hget : ∀ s i, Ok s → i < M → get s i = some (v s i))
    (hput : ∀ s i t, Ok s → i < M → ∃ s', put s i t = some s' ∧ Ok s' ∧ (∀ k, v s' k = if k = i then t else v s k) ∧
      (∀ q, F s' q = F s q)) (s : σ) (hs : Ok s) :
    ∃ s', swapLine get put M s = some s' ∧ Ok s' ∧ (∀ k < M, v s' k = v s (swapSrc M k)) ∧ (∀ q, F s' q = F s q) := by
  unfold swapLine
  obtain ⟨s1, e1, ok1, f1, c1, _⟩ := loop_inv (σ := σ) (fun j s' => Ok s' ∧ (∀ q, F s' q = F s q) ∧
      (∀ k, (k < j ∨ M / 2 ≤ k ∧ k < M / 2 + j) → v s' k = v s (swapSrc M k)) ∧
      ∀ k, ¬ (k < j ∨ M / 2 ≤ k ∧ k < M / 2 + j) → v s' k = v s k) (M / 2) s
    (fun s i => do
      let ii := M / 2 + i
      let tmp ← get s (ii + M % 2)
      let s ← put s ii (← get s i)
      put s i tmp)
    ⟨hs, fun _ => rfl, fun k hk => by omega, fun _ _ => rfl⟩ (by
      intro j s' hj ⟨ok, fr, cov, unt⟩
      obtain ⟨s1, e1, ok1, v1, f1⟩ := hput s' (M / 2 + j) (v s' j) ok (by omega)
      obtain ⟨s2, e2, ok2, v2, f2⟩ := hput s1 j (v s' (M / 2 + j + M % 2)) ok1 (by omega)
      refine ⟨s2, ?_, ok2, fun q => by rw [f2, f1, fr], fun k hk => ?_, fun k hk => ?_⟩
      · simp [hget s' j ok (by omega), hget s' (M / 2 + j + M % 2) ok (by omega), e1, e2]
      · rw [v2, v1]
        by_cases h1 : k = j
        · rw [if_pos h1, h1, swapSrc_lo hj, unt _ (by omega)]
        · rw [if_neg h1]
          by_cases h2 : k = M / 2 + j
          · rw [if_pos h2, h2, swapSrc_hi hj, unt _ (by omega)]
          · rw [if_neg h2]
            exact cov k (by omega)
      · rw [v2, v1, if_neg (by omega), if_neg (by omega)]
        exact unt k (by omega))
  simp only [hget s (M / 2) hs (by omega), Option.bind_eq_bind, Option.bind_some] at *
  rw [e1]
  simp only [Option.bind_some]
  by_cases hodd : M % 2 = 1
  · obtain ⟨s2, e2, ok2, v2, f2⟩ := hput s1 (M - 1) (v s (M / 2)) ok1 (by omega)
    refine ⟨s2, by rw [if_pos (by omega), e2], ok2, fun k hk => ?_, fun q => by rw [f2, f1]⟩
    rw [v2]
    by_cases h1 : k = M - 1
    · rw [if_pos h1, h1, swapSrc_last hodd]
    · rw [if_neg h1]
      exact c1 k (by omega)
  · exact ⟨s1, by rw [if_neg (by omega)], ok1, fun k hk => c1 k (by omega), f1⟩

variable {T : Type}

theorem vec_put {M : Nat} (s : Vec T) (i : Nat) (t : T) (ok : s.n = M) (hi : i < M) :
    ∃ s', Vec.put s i t = some s' ∧ s'.n = M ∧ (∀ k, s'.f k = if k = i then t else s.f k) ∧ ∀ q : Empty, q.elim = (q.elim : T) := by
  refine ⟨⟨s.n, fun k => if k = i then t else s.f k⟩, by simp [Vec.put, ok, hi], ok, fun _ => rfl, fun q => q.elim⟩

/-- C40: one dimension, distinct arrays -/
theorem C40_vector (out inp : Vec T) (hM : 0 < inp.n) (hs : out.n = inp.n) :
    ∃ s', freqswap1 out inp = some s' ∧ s'.n = inp.n ∧ ∀ i < inp.n, s'.f i = inp.f ((i + (inp.n + 1) / 2) % inp.n) := by
  obtain ⟨s', e, ok, h, _⟩ := swapLine_out (ι := Empty) inp.f (fun (_ : Vec T) i => inp.get i) Vec.put inp.n hM Vec.f
    (fun _ q => q.elim) (fun s => s.n = inp.n) (by intro s i hi; simp [Vec.get, hi]) (fun s i t ok hi => vec_put s i t ok hi) out hs
  exact ⟨s', e, ok, h⟩

/-- C40: one dimension, source and destination the same array -/
theorem C40_vector_inplace (x : Vec T) (hM : 0 < x.n) :
    ∃ s', freqswap1InPlace x = some s' ∧ s'.n = x.n ∧ ∀ i < x.n, s'.f i = x.f ((i + (x.n + 1) / 2) % x.n) := by
  obtain ⟨s', e, ok, h, _⟩ := swapLine_inplace (ι := Empty) Vec.get Vec.put x.n hM Vec.f
    (fun _ q => q.elim) (fun s => s.n = x.n) (by intro s i ok hi; simp [Vec.get, ok, hi]) (fun s i t ok hi => vec_put s i t ok hi) x rfl
  exact ⟨s', e, ok, h⟩

example : ∃ s', freqswap1InPlace (⟨5, id⟩ : Vec Nat) = some s' ∧ (List.range 5).map s'.f = [3, 4, 0, 1, 2] :=
  ⟨_, rfl, by decide⟩

/-- C40: an empty vector makes the code read element 0 -/
theorem C40_empty_false (x : Vec T) (h : x.n = 0) : freqswap1InPlace x = none ∧ freqswap1 x x = none := by
  constructor <;> simp [freqswap1InPlace, freqswap1, swapLine, Vec.get, h]

theorem mat_put {M N : Nat} (s : Mat T) (i j : Nat) (t : T) (ok : s.rows = M ∧ s.cols = N) (hi : i < M) (hj : j < N) :
    ∃ s', s.put i j t = some s' ∧ (s'.rows = M ∧ s'.cols = N) ∧ ∀ r c, s'.f r c = if r = i ∧ c = j then t else s.f r c := by
  refine ⟨⟨s.rows, s.cols, fun r c => if r = i ∧ c = j then t else s.f r c⟩, by simp [Mat.put, ok.1, ok.2, hi, hj], ok, fun _ _ => rfl⟩

/-- a put in row `i` as a put in a line -/
theorem row_put {M N : Nat} {i : Nat} (hi : i < M) (s : Mat T) (j : Nat) (t : T) (ok : s.rows = M ∧ s.cols = N) (hj : j < N) :
    ∃ s', s.put i j t = some s' ∧ (s'.rows = M ∧ s'.cols = N) ∧ (∀ k, s'.f i k = if k = j then t else s.f i k) ∧
      ∀ q : { p : Nat × Nat // p.1 ≠ i }, s'.f q.1.1 q.1.2 = s.f q.1.1 q.1.2 := by
  obtain ⟨s', e, ok', f⟩ := mat_put s i j t ok hi hj
  refine ⟨s', e, ok', fun k => by rw [f]; simp, fun q => ?_⟩
  rw [f, if_neg (fun h => q.2 h.1)]

theorem col_put {M N : Nat} {j : Nat} (hj : j < N) (s : Mat T) (i : Nat) (t : T) (ok : s.rows = M ∧ s.cols = N) (hi : i < M) :
    ∃ s', s.put i j t = some s' ∧ (s'.rows = M ∧ s'.cols = N) ∧ (∀ k, s'.f k j = if k = i then t else s.f k j) ∧
      ∀ q : { p : Nat × Nat // p.2 ≠ j }, s'.f q.1.1 q.1.2 = s.f q.1.1 q.1.2 := by
  obtain ⟨s', e, ok', f⟩ := mat_put s i j t ok hi hj
  refine ⟨s', e, ok', fun k => by rw [f]; simp, fun q => ?_⟩
  rw [f, if_neg (fun h => q.2 h.2)]

/-- C40: two dimensions, source and destination the same array -/
theorem C40_matrix_inplace (x : Mat T) (hM : 0 < x.rows) (hN : 0 < x.cols) :
    ∃ s', freqswap2InPlace x = some s' ∧ s'.rows = x.rows ∧ s'.cols = x.cols ∧ ∀ i < x.rows, ∀ j < x.cols,
      s'.f i j = x.f ((i + (x.rows + 1) / 2) % x.rows) ((j + (x.cols + 1) / 2) % x.cols) := by
  unfold freqswap2InPlace
  obtain ⟨s1, e1, ok1, v1⟩ := loop_inv (σ := Mat T) (fun k s => (s.rows = x.rows ∧ s.cols = x.cols) ∧
      ∀ r c, c < x.cols → s.f r c = if r < k then x.f r (swapSrc x.cols c) else x.f r c) x.rows x
    (fun s i => swapLine (fun s j => s.get i j) (fun s j t => s.put i j t) x.cols s)
    ⟨⟨rfl, rfl⟩, by simp⟩ (by
      intro i s hi ⟨ok, h⟩
      obtain ⟨s', e, ok', v', f'⟩ := swapLine_inplace (fun (s : Mat T) j => s.get i j) (fun s j t => s.put i j t) x.cols hN
        (fun s => s.f i) (fun s (q : { p : Nat × Nat // p.1 ≠ i }) => s.f q.1.1 q.1.2) (fun s => s.rows = x.rows ∧ s.cols = x.cols)
        (by intro s j ok hj; simp [Mat.get, ok.1, ok.2, hi, hj]) (fun s j t ok hj => row_put hi s j t ok hj) s ok
      refine ⟨s', e, ok', fun r c hc => ?_⟩
      by_cases hr : r = i
      · rw [hr, v' c hc, if_pos (by omega), h i _ (swapSrc_lt hN), if_neg (by omega)]
      · have := f' ⟨(r, c), hr⟩
        simp only at this
        rw [this, h r c hc]
        by_cases hlt : r < i
        · rw [if_pos hlt, if_pos (by omega)]
        · rw [if_neg hlt, if_neg (by omega)])
  obtain ⟨s2, e2, ok2, v2⟩ := loop_inv (σ := Mat T) (fun k s => (s.rows = x.rows ∧ s.cols = x.cols) ∧
      ∀ r c, r < x.rows → s.f r c = if c < k then s1.f (swapSrc x.rows r) c else s1.f r c) x.cols s1
    (fun s j => swapLine (fun s i => s.get i j) (fun s i t => s.put i j t) x.rows s)
    ⟨ok1, by simp⟩ (by
      intro j s hj ⟨ok, h⟩
      obtain ⟨s', e, ok', v', f'⟩ := swapLine_inplace (fun (s : Mat T) i => s.get i j) (fun s i t => s.put i j t) x.rows hM
        (fun s i => s.f i j) (fun s (q : { p : Nat × Nat // p.2 ≠ j }) => s.f q.1.1 q.1.2) (fun s => s.rows = x.rows ∧ s.cols = x.cols)
        (by intro s i ok hi; simp [Mat.get, ok.1, ok.2, hi, hj]) (fun s i t ok hi => col_put hj s i t ok hi) s ok
      refine ⟨s', e, ok', fun r c hr => ?_⟩
      by_cases hc : c = j
      · rw [hc, v' r hr, if_pos (by omega), h _ j (swapSrc_lt hM), if_neg (by omega)]
      · have := f' ⟨(r, c), hc⟩
        simp only at this
        rw [this, h r c hr]
        by_cases hlt : c < j
        · rw [if_pos hlt, if_pos (by omega)]
        · rw [if_neg hlt, if_neg (by omega)])
  refine ⟨s2, by simp [e1, e2], ok2.1, ok2.2, fun i hi j hj => ?_⟩
  rw [v2 i j hi, if_pos hj, v1 _ j hj, if_pos (swapSrc_lt hM)]
  rfl

/-- a put of the right value keeps what is right and adds its position -/
theorem good_put {M N : Nat} {t : Nat → Nat → T} {S S' : Nat → Nat → Prop} (s : Mat T) (i j : Nat)
    (ok : s.rows = M ∧ s.cols = N) (hi : i < M) (hj : j < N) (hS : ∀ r c, S r c → s.f r c = t r c)
    (hS' : ∀ r c, S' r c → S r c ∨ (r = i ∧ c = j)) {y : T} (hy : y = t i j) :
    ∃ s', s.put i j y = some s' ∧ (s'.rows = M ∧ s'.cols = N) ∧ ∀ r c, S' r c → s'.f r c = t r c := by
  obtain ⟨s', e, ok', f⟩ := mat_put s i j y ok hi hj
  refine ⟨s', e, ok', fun r c h => ?_⟩
  rw [f]
  by_cases hp : r = i ∧ c = j
  · rw [if_pos hp, hy, hp.1, hp.2]
  · rw [if_neg hp]
    exact hS r c ((hS' r c h).resolve_right hp)

/-- C40: two dimensions, distinct arrays -/
theorem C40_matrix (out inp : Mat T) (hr : out.rows = inp.rows) (hc : out.cols = inp.cols) :
    ∃ s', freqswap2 out inp = some s' ∧ s'.rows = inp.rows ∧ s'.cols = inp.cols ∧ ∀ i < inp.rows, ∀ j < inp.cols,
      s'.f i j = inp.f ((i + (inp.rows + 1) / 2) % inp.rows) ((j + (inp.cols + 1) / 2) % inp.cols) := by
  obtain ⟨M, N, x⟩ := inp
  simp only at hr hc ⊢
  have hg : ∀ i j, i < M → j < N → Mat.get ⟨M, N, x⟩ i j = some (x i j) := by intro i j hi hj; simp [Mat.get, hi, hj]
  set t : Nat → Nat → T := fun r c => x (swapSrc M r) (swapSrc N c) with ht
  unfold freqswap2 swapQuads
  simp only
  -- the four quadrants
  have quad := loop_inv (σ := Mat T) (fun k s => (s.rows = M ∧ s.cols = N) ∧
      ∀ r c, (r < k ∨ M / 2 ≤ r ∧ r < M / 2 + k) ∧ (c < N / 2 + N / 2) → s.f r c = t r c) (M / 2) out
    (fun s i => loop (N / 2) s fun s j => do
      let tmp ← Mat.get ⟨M, N, x⟩ (M / 2 + i + M % 2) (N / 2 + j + N % 2)
      let s ← s.put (M / 2 + i) (N / 2 + j) (← Mat.get ⟨M, N, x⟩ i j)
      let s ← s.put i j tmp
      let tmp ← Mat.get ⟨M, N, x⟩ (M / 2 + i + M % 2) j
      let s ← s.put (M / 2 + i) j (← Mat.get ⟨M, N, x⟩ i (N / 2 + j + N % 2))
      s.put i (N / 2 + j) tmp)
    ⟨⟨hr, hc⟩, fun r c h => by omega⟩ (by
      intro i s hi ⟨ok, h⟩
      obtain ⟨s', e, ok', h'⟩ := loop_inv (σ := Mat T) (fun k s => (s.rows = M ∧ s.cols = N) ∧
          ∀ r c, ((r < i ∨ M / 2 ≤ r ∧ r < M / 2 + i) ∧ (c < N / 2 + N / 2)) ∨
            (r = i ∨ r = M / 2 + i) ∧ (c < k ∨ N / 2 ≤ c ∧ c < N / 2 + k) → s.f r c = t r c) (N / 2) s
        (fun s j => do
          let tmp ← Mat.get ⟨M, N, x⟩ (M / 2 + i + M % 2) (N / 2 + j + N % 2)
          let s ← s.put (M / 2 + i) (N / 2 + j) (← Mat.get ⟨M, N, x⟩ i j)
          let s ← s.put i j tmp
          let tmp ← Mat.get ⟨M, N, x⟩ (M / 2 + i + M % 2) j
          let s ← s.put (M / 2 + i) j (← Mat.get ⟨M, N, x⟩ i (N / 2 + j + N % 2))
          s.put i (N / 2 + j) tmp)
        ⟨ok, fun r c hp => h r c (by omega)⟩ (by
          intro j s hj ⟨ok, h⟩
          obtain ⟨s1, e1, ok1, h1⟩ := good_put (M := M) (N := N) (t := t)
            (S' := fun r c => (((r < i ∨ M / 2 ≤ r ∧ r < M / 2 + i) ∧ (c < N / 2 + N / 2)) ∨
              (r = i ∨ r = M / 2 + i) ∧ (c < j ∨ N / 2 ≤ c ∧ c < N / 2 + j)) ∨ r = M / 2 + i ∧ c = N / 2 + j)
            s (M / 2 + i) (N / 2 + j) ok (by omega) (by omega) h (fun _ _ q => q) (y := x i j)
            (by simp only [ht, swapSrc_hi hi, swapSrc_hi hj])
          obtain ⟨s2, e2, ok2, h2⟩ := good_put (M := M) (N := N) (t := t)
            (S' := fun r c => ((((r < i ∨ M / 2 ≤ r ∧ r < M / 2 + i) ∧ (c < N / 2 + N / 2)) ∨
              (r = i ∨ r = M / 2 + i) ∧ (c < j ∨ N / 2 ≤ c ∧ c < N / 2 + j)) ∨ r = M / 2 + i ∧ c = N / 2 + j) ∨ r = i ∧ c = j)
            s1 i j ok1 (by omega) (by omega) h1 (fun _ _ q => q) (y := x (M / 2 + i + M % 2) (N / 2 + j + N % 2))
            (by simp only [ht, swapSrc_lo hi, swapSrc_lo hj])
          obtain ⟨s3, e3, ok3, h3⟩ := good_put (M := M) (N := N) (t := t)
            (S' := fun r c => (((((r < i ∨ M / 2 ≤ r ∧ r < M / 2 + i) ∧ (c < N / 2 + N / 2)) ∨
              (r = i ∨ r = M / 2 + i) ∧ (c < j ∨ N / 2 ≤ c ∧ c < N / 2 + j)) ∨ r = M / 2 + i ∧ c = N / 2 + j) ∨ r = i ∧ c = j) ∨
              r = M / 2 + i ∧ c = j)
            s2 (M / 2 + i) j ok2 (by omega) (by omega) h2 (fun _ _ q => q) (y := x i (N / 2 + j + N % 2))
            (by simp only [ht, swapSrc_hi hi, swapSrc_lo hj])
          obtain ⟨s4, e4, ok4, h4⟩ := good_put (M := M) (N := N) (t := t)
            (S' := fun r c => ((r < i ∨ M / 2 ≤ r ∧ r < M / 2 + i) ∧ (c < N / 2 + N / 2)) ∨
              (r = i ∨ r = M / 2 + i) ∧ (c < j + 1 ∨ N / 2 ≤ c ∧ c < N / 2 + (j + 1)))
            s3 i (N / 2 + j) ok3 (by omega) (by omega) h3 (fun r c q => by omega) (y := x (M / 2 + i + M % 2) j)
            (by simp only [ht, swapSrc_lo hi, swapSrc_hi hj])
          refine ⟨s4, ?_, ok4, h4⟩
          simp [hg (M / 2 + i + M % 2) (N / 2 + j + N % 2) (by omega) (by omega), hg i j (by omega) (by omega),
            hg (M / 2 + i + M % 2) j (by omega) (by omega), hg i (N / 2 + j + N % 2) (by omega) (by omega), e1, e2, e3, e4])
      exact ⟨s', e, ok', fun r c q => h' r c (by omega)⟩)
  obtain ⟨s1, e1, ok1, h1⟩ := quad
  simp only [Option.bind_eq_bind] at e1 ⊢
  rw [e1]
  simp only [Option.bind_some]
  -- the last row
  obtain ⟨s2, e2, ok2, h2⟩ : ∃ s2, (if M % 2 ≠ 0 then swapLastRow ⟨M, N, x⟩ s1 else some s1) = some s2 ∧ (s2.rows = M ∧ s2.cols = N) ∧
        ∀ r c, r < M ∧ c < N / 2 + N / 2 → s2.f r c = t r c := by
    by_cases hodd : M % 2 = 1
    · rw [if_pos (by omega)]
      obtain ⟨s', e, ok', h'⟩ := loop_inv (σ := Mat T) (fun k s => (s.rows = M ∧ s.cols = N) ∧
          ∀ r c, (r < M / 2 + M / 2 ∧ c < N / 2 + N / 2) ∨ (r = M - 1 ∧ (c < k ∨ N / 2 ≤ c ∧ c < N / 2 + k)) → s.f r c = t r c)
        (N / 2) s1 (fun s j => (Mat.get ⟨M, N, x⟩ (M / 2) j).bind fun a => (s.put (M - 1) (N / 2 + j) a).bind fun s =>
          (Mat.get ⟨M, N, x⟩ (M / 2) (N / 2 + j + N % 2)).bind fun a => s.put (M - 1) j a)
        ⟨ok1, fun r c q => h1 r c (by omega)⟩ (by
          intro j s hj ⟨ok, h⟩
          obtain ⟨s1, e1, ok1, h1⟩ := good_put (M := M) (N := N) (t := t)
            (S' := fun r c => ((r < M / 2 + M / 2 ∧ c < N / 2 + N / 2) ∨ (r = M - 1 ∧ (c < j ∨ N / 2 ≤ c ∧ c < N / 2 + j))) ∨
              r = M - 1 ∧ c = N / 2 + j)
            s (M - 1) (N / 2 + j) ok (by omega) (by omega) h (fun _ _ q => q) (y := x (M / 2) j)
            (by simp only [ht, swapSrc_last hodd, swapSrc_hi hj])
          obtain ⟨s2, e2, ok2, h2⟩ := good_put (M := M) (N := N) (t := t)
            (S' := fun r c => (r < M / 2 + M / 2 ∧ c < N / 2 + N / 2) ∨
              (r = M - 1 ∧ (c < j + 1 ∨ N / 2 ≤ c ∧ c < N / 2 + (j + 1))))
            s1 (M - 1) j ok1 (by omega) (by omega) h1 (fun r c q => by omega) (y := x (M / 2) (N / 2 + j + N % 2))
            (by simp only [ht, swapSrc_last hodd, swapSrc_lo hj])
          refine ⟨s2, ?_, ok2, h2⟩
          rw [hg (M / 2) j (by omega) (by omega), hg (M / 2) (N / 2 + j + N % 2) (by omega) (by omega)]
          simp [e1, e2])
      exact ⟨s', e, ok', fun r c q => h' r c (by omega)⟩
    · rw [if_neg (by omega)]
      exact ⟨s1, rfl, ok1, fun r c q => h1 r c (by omega)⟩
  rw [e2]
  simp only [Option.bind_some]
  -- the last column
  obtain ⟨s3, e3, ok3, h3⟩ : ∃ s3, (if N % 2 ≠ 0 then swapLastCol ⟨M, N, x⟩ s2 else some s2) = some s3 ∧ (s3.rows = M ∧ s3.cols = N) ∧
        ∀ r c, (r < M ∧ c < N) ∧ ¬ (r = M / 2 + M / 2 ∧ c = N / 2 + N / 2) → s3.f r c = t r c := by
    by_cases hodd : N % 2 = 1
    · rw [if_pos (by omega)]
      obtain ⟨s', e, ok', h'⟩ := loop_inv (σ := Mat T) (fun k s => (s.rows = M ∧ s.cols = N) ∧
          ∀ r c, (r < M ∧ c < N / 2 + N / 2) ∨ ((r < k ∨ M / 2 ≤ r ∧ r < M / 2 + k) ∧ c = N - 1) → s.f r c = t r c)
        (M / 2) s2 (fun s i => (Mat.get ⟨M, N, x⟩ i (N / 2)).bind fun a => (s.put (M / 2 + i) (N - 1) a).bind fun s =>
          (Mat.get ⟨M, N, x⟩ (M / 2 + i + M % 2) (N / 2)).bind fun a => s.put i (N - 1) a)
        ⟨ok2, fun r c q => h2 r c (by omega)⟩ (by
          intro i s hi ⟨ok, h⟩
          obtain ⟨s1, e1, ok1, h1⟩ := good_put (M := M) (N := N) (t := t)
            (S' := fun r c => ((r < M ∧ c < N / 2 + N / 2) ∨ ((r < i ∨ M / 2 ≤ r ∧ r < M / 2 + i) ∧ c = N - 1)) ∨
              r = M / 2 + i ∧ c = N - 1)
            s (M / 2 + i) (N - 1) ok (by omega) (by omega) h (fun _ _ q => q) (y := x i (N / 2))
            (by simp only [ht, swapSrc_last hodd, swapSrc_hi hi])
          obtain ⟨s2, e2, ok2, h2⟩ := good_put (M := M) (N := N) (t := t)
            (S' := fun r c => (r < M ∧ c < N / 2 + N / 2) ∨
              ((r < i + 1 ∨ M / 2 ≤ r ∧ r < M / 2 + (i + 1)) ∧ c = N - 1))
            s1 i (N - 1) ok1 (by omega) (by omega) h1 (fun r c q => by omega) (y := x (M / 2 + i + M % 2) (N / 2))
            (by simp only [ht, swapSrc_last hodd, swapSrc_lo hi])
          refine ⟨s2, ?_, ok2, h2⟩
          rw [hg i (N / 2) (by omega) (by omega), hg (M / 2 + i + M % 2) (N / 2) (by omega) (by omega)]
          simp [e1, e2])
      exact ⟨s', e, ok', fun r c q => h' r c (by omega)⟩
    · rw [if_neg (by omega)]
      exact ⟨s2, rfl, ok2, fun r c q => h2 r c (by omega)⟩
  rw [e3]
  simp only [Option.bind_some]
  -- the corner
  by_cases hodd : M % 2 ≠ 0 ∧ N % 2 ≠ 0
  · rw [if_pos hodd, hg (M / 2) (N / 2) (by omega) (by omega)]
    simp only [Option.bind_some]
    obtain ⟨s4, e4, ok4, h4⟩ := good_put (M := M) (N := N) (t := t) (S' := fun r c => r < M ∧ c < N) s3 (M - 1) (N - 1) ok3
      (by omega) (by omega) h3 (fun r c q => by omega) (y := x (M / 2) (N / 2))
      (by simp only [ht]; rw [swapSrc_last (by omega), swapSrc_last (by omega)])
    exact ⟨s4, e4, ok4.1, ok4.2, fun i hi j hj => h4 i j ⟨hi, hj⟩⟩
  · rw [if_neg hodd]
    exact ⟨s3, rfl, ok3.1, ok3.2, fun i hi j hj => h3 i j ⟨⟨hi, hj⟩, by omega⟩⟩

example : ∃ s', freqswap2 (⟨3, 2, fun _ _ => 0⟩ : Mat Nat) ⟨3, 2, fun i j => 10 * i + j⟩ = some s' ∧
    (List.range 3).map (fun i => (List.range 2).map (s'.f i)) = [[21, 20], [1, 0], [11, 10]] := ⟨_, rfl, by decide⟩

/-- C40: twice is the identity on data of even size -/
theorem C40_involution (x : Vec T) (hM : 0 < x.n) (he : x.n % 2 = 0) :
    ∃ s', (freqswap1InPlace x).bind freqswap1InPlace = some s' ∧ s'.n = x.n ∧ ∀ i < x.n, s'.f i = x.f i := by
  obtain ⟨s1, e1, n1, v1⟩ := C40_vector_inplace x hM
  obtain ⟨s2, e2, n2, v2⟩ := C40_vector_inplace s1 (by omega)
  refine ⟨s2, by simp [e1, e2], by omega, fun i hi => ?_⟩
  rw [v2 i (by omega), n1, v1 _ (Nat.mod_lt _ hM)]
  congr 1
  rw [Nat.mod_add_mod]
  have : i + (x.n + 1) / 2 + (x.n + 1) / 2 = i + x.n := by omega
  rw [this, Nat.add_mod_right, Nat.mod_eq_of_lt hi]

/-- C40: twice is the identity on matrices of even sizes -/
theorem C40_involution_matrix (x : Mat T) (hM : 0 < x.rows) (hN : 0 < x.cols) (he : x.rows % 2 = 0) (he' : x.cols % 2 = 0) :
    ∃ s', (freqswap2InPlace x).bind freqswap2InPlace = some s' ∧ s'.rows = x.rows ∧ s'.cols = x.cols ∧
      ∀ i < x.rows, ∀ j < x.cols, s'.f i j = x.f i j := by
  obtain ⟨s1, e1, r1, c1, v1⟩ := C40_matrix_inplace x hM hN
  obtain ⟨s2, e2, r2, c2, v2⟩ := C40_matrix_inplace s1 (by omega) (by omega)
  refine ⟨s2, by simp [e1, e2], by omega, by omega, fun i hi j hj => ?_⟩
  rw [v2 i (by omega) j (by omega), r1, c1, v1 _ (Nat.mod_lt _ hM) _ (Nat.mod_lt _ hN)]
  have key : ∀ n k : Nat, n % 2 = 0 → k < n → ((k + (n + 1) / 2) % n + (n + 1) / 2) % n = k := by
    intro n k hn hk
    rw [Nat.mod_add_mod]
    have : k + (n + 1) / 2 + (n + 1) / 2 = k + n := by omega
    rw [this, Nat.add_mod_right, Nat.mod_eq_of_lt hk]
  rw [key _ _ he hi, key _ _ he' hj]

/-- C40: the swap along rows only -/
theorem C40_axis_rows (out inp : Mat T) (hN : 0 < inp.cols) (hr : out.rows = inp.rows) (hc : out.cols = inp.cols) :
    ∃ s', freqswapAxis .row out inp = some s' ∧ s'.rows = inp.rows ∧ s'.cols = inp.cols ∧ ∀ i < inp.rows, ∀ j < inp.cols,
      s'.f i j = inp.f i ((j + (inp.cols + 1) / 2) % inp.cols) := by
  unfold freqswapAxis
  simp only
  obtain ⟨s1, e1, ok1, v1⟩ := loop_inv (σ := Mat T) (fun k s => (s.rows = inp.rows ∧ s.cols = inp.cols) ∧
      ∀ r c, r < k → c < inp.cols → s.f r c = inp.f r (swapSrc inp.cols c)) inp.rows out
    (fun s r => if r < inp.rows then swapLine (fun _ j => inp.get r j) (fun s j t => s.put r j t) inp.cols s else none)
    ⟨⟨hr, hc⟩, by intro r c h; omega⟩ (by
      intro i s hi ⟨ok, h⟩
      obtain ⟨s', e, ok', v', f'⟩ := swapLine_out (inp.f i) (fun (_ : Mat T) j => inp.get i j) (fun s j t => s.put i j t) inp.cols hN
        (fun s => s.f i) (fun s (q : { p : Nat × Nat // p.1 ≠ i }) => s.f q.1.1 q.1.2)
        (fun s => s.rows = inp.rows ∧ s.cols = inp.cols)
        (by intro s j hj; simp [Mat.get, hi, hj]) (fun s j t ok hj => row_put hi s j t ok hj) s ok
      refine ⟨s', by rw [if_pos hi, e], ok', fun r c hr hc => ?_⟩
      by_cases hr' : r = i
      · rw [hr', v' c hc]
      · have := f' ⟨(r, c), hr'⟩
        simp only at this
        rw [this, h r c (by omega) hc])
  exact ⟨s1, e1, ok1.1, ok1.2, fun i hi j hj => v1 i j hi hj⟩

/-- C40 is false of the swap along columns: the loop runs over the number of rows, so with fewer rows than columns the last column is
not written, and with more rows than columns columns outside the matrix are accessed -/
theorem C40_axis_cols_false :
    (∃ s' : Mat Nat, freqswapAxis .col ⟨1, 2, fun _ _ => 0⟩ ⟨1, 2, fun _ _ => 1⟩ = some s' ∧
      s'.f 0 1 ≠ (fun _ _ => 1 : Nat → Nat → Nat) ((0 + (1 + 1) / 2) % 1) 1) ∧
    freqswapAxis .col (⟨2, 1, fun _ _ => 0⟩ : Mat Nat) ⟨2, 1, fun _ _ => 1⟩ = none := by
  refine ⟨⟨_, rfl, by decide⟩, rfl⟩

/-- C40 for the swap along the columns of square matrices (missing: other shapes, see `C40_axis_cols_false`) -/
theorem C40_axis_cols_partial (out inp : Mat T) (hM : 0 < inp.rows) (hsq : inp.rows = inp.cols)
    (hr : out.rows = inp.rows) (hc : out.cols = inp.cols) :
    ∃ s', freqswapAxis .col out inp = some s' ∧ s'.rows = inp.rows ∧ s'.cols = inp.cols ∧ ∀ i < inp.rows, ∀ j < inp.cols,
      s'.f i j = inp.f ((i + (inp.rows + 1) / 2) % inp.rows) j := by
  unfold freqswapAxis
  simp only
  obtain ⟨s1, e1, ok1, v1⟩ := loop_inv (σ := Mat T) (fun k s => (s.rows = inp.rows ∧ s.cols = inp.cols) ∧
      ∀ r c, c < k → r < inp.rows → s.f r c = inp.f (swapSrc inp.rows r) c) inp.rows out
    (fun s c => if c < inp.cols then swapLine (fun _ i => inp.get i c) (fun s i t => s.put i c t) inp.rows s else none)
    ⟨⟨hr, hc⟩, by intro r c h; omega⟩ (by
      intro j s hj ⟨ok, h⟩
      obtain ⟨s', e, ok', v', f'⟩ := swapLine_out (fun i => inp.f i j) (fun (_ : Mat T) i => inp.get i j) (fun s i t => s.put i j t)
        inp.rows hM (fun s i => s.f i j) (fun s (q : { p : Nat × Nat // p.2 ≠ j }) => s.f q.1.1 q.1.2)
        (fun s => s.rows = inp.rows ∧ s.cols = inp.cols)
        (by intro s i hi; simp [Mat.get, hi]; omega) (fun s i t ok hi => col_put (by omega) s i t ok hi) s ok
      refine ⟨s', by rw [if_pos (by omega), e], ok', fun r c hc hr => ?_⟩
      by_cases hc' : c = j
      · rw [hc', v' r hr]
      · have := f' ⟨(r, c), hc'⟩
        simp only at this
        rw [this, h r c (by omega) hr])
  exact ⟨s1, e1, ok1.1, ok1.2, fun i hi j hj => v1 i j (by omega) hi⟩

example : ∃ s', freqswapAxis .col (⟨3, 3, fun _ _ => 0⟩ : Mat Nat) ⟨3, 3, fun i j => 10 * i + j⟩ = some s' ∧
    (List.range 3).map (fun i => (List.range 3).map (s'.f i)) = [[20, 21, 22], [0, 1, 2], [10, 11, 12]] := ⟨_, rfl, by decide⟩

end Verif.Props
