import Verif.BenchOps.Model
import Verif.Filter.Props
import Mathlib.Tactic.Ring
import Mathlib.Tactic.Linarith
import Mathlib.Tactic.NormNum
import Mathlib.Tactic.Positivity
import Mathlib.Tactic.FieldSimp

/-! # C97: the benchmarks measure and check what they name -/

namespace Verif.Props

open Verif.Bops Verif.Filt

/-! ## Maps -/

theorem bo_putRange (len : ℕ) : ∀ cnt ≤ len, putRange len cnt = some ((List.range len).map fun i => if i < cnt then i + 1 else 0)
  | 0, _ => by
    simp only [putRange, List.range_zero, List.foldlM_nil]
    congr 1
    apply List.ext_getElem <;> simp
  | cnt + 1, h => by
    have ih := bo_putRange len cnt (by omega)
    unfold putRange at ih ⊢
    rw [List.range_succ, List.foldlM_append, ih]
    simp only [Option.bind_eq_bind, Option.bind_some, List.foldlM_cons, List.foldlM_nil]
    rw [if_pos (by simp; omega)]
    simp only [Option.bind_some, Option.pure_def, Option.some.injEq]
    apply List.ext_getElem
    · simp
    · intro i h1 h2
      simp only [List.getElem_set, List.getElem_map, List.getElem_range]
      by_cases hi : cnt = i
      · subst hi; simp
      · simp only [hi, if_false]
        by_cases h3 : i < cnt
        · rw [if_pos h3, if_pos (by omega)]
        · rw [if_neg h3, if_neg (by omega)]

theorem bo_putRange_over (len : ℕ) : putRange len (len + 1) = none := by
  have ih := bo_putRange len len le_rfl
  unfold putRange at ih ⊢
  rw [List.range_succ, List.foldlM_append, ih]
  simp

theorem bo_nonroot (n : ℕ) : (List.range (n + 1)).filter (fun p => decide (p ≠ 0)) = (List.range n).map (· + 1) := by
  rw [List.range_succ_eq_map, List.filter_cons]
  simp only [ne_eq, not_true_eq_false, decide_false, Bool.false_eq_true, if_false]
  rw [List.filter_eq_self.2]
  intro a ha
  obtain ⟨b, _, rfl⟩ := List.mem_map.1 ha
  simp

/-- **C97, partial (maps of the distributed product).** With two processors or more every letter gives the processors it stands for.  Missing: one processor, see `C97_maps_false`. -/
theorem C97_maps_partial (np : ℕ) (c : Char) (h : 2 ≤ np) : distMap np c = some (wanted np c) := by
  obtain ⟨n, rfl⟩ : ∃ n, np = n + 2 := ⟨np - 2, by omega⟩
  unfold distMap wanted
  split_ifs with h1 h2 h3 h4
  · rfl
  · rfl
  · rw [bo_putRange _ _ le_rfl]
    have := bo_nonroot (n + 1)
    simp only [show n + 2 - 1 = n + 1 by omega, show n + 2 = n + 1 + 1 by omega]
    rw [this]
    congr 1
    apply List.map_congr_left
    intro i hi
    rw [if_pos (List.mem_range.1 hi)]
  · omega
  · rw [bo_putRange _ _ le_rfl]
    simp only [show n + 2 - 2 = n by omega, show n + 2 - 1 = n + 1 by omega, Option.some.injEq]
    have hs : (List.range (n + 2)).filter (fun p => decide (p ≠ 0 ∧ p ≠ n + 1)) =
        ((List.range (n + 2)).filter (fun p => decide (p ≠ 0))).filter (fun p => decide (p ≠ n + 1)) := by
      rw [List.filter_filter]
      apply List.filter_congr
      intro p _
      by_cases h1 : p = 0 <;> by_cases h2 : p = n + 1 <;> simp [h1, h2]
    rw [hs, show n + 2 = n + 1 + 1 by omega, bo_nonroot, List.range_succ, List.map_append, List.filter_append]
    simp only [List.map_cons, List.map_nil, List.filter_cons, ne_eq, not_true_eq_false, decide_false, Bool.false_eq_true, if_false, List.filter_nil, List.append_nil]
    rw [List.filter_eq_self.2]
    · apply List.map_congr_left
      intro i hi
      rw [if_pos (List.mem_range.1 hi)]
    · intro a ha
      obtain ⟨b, hb, rfl⟩ := List.mem_map.1 ha
      have := List.mem_range.1 hb
      simp
      omega
  · rfl

example : distMap 5 'w' = some [1, 2, 3] := by decide

/-- **C97 is false (pipeline on one processor).** The map of the processors that are neither first nor last is asked for a vector of `2^64 - 1` processors when there is only one. -/
theorem C97_maps_false : distMap 1 'w' = none ∧ wanted 1 'w' = [] := by decide

/-- **C97, partial (maps for copies).** All processors, the first and the last are right.  Missing: all but the first, see `C97_create_map_false`. -/
theorem C97_create_map_partial (np : ℕ) (c : Char) (h : c ≠ 'b') (hw : c ≠ 'w') : createMap np c = some (wanted np c) := by
  unfold createMap wanted
  split_ifs <;> simp_all

example : createMap 4 '2' = some [3] := by decide

/-- **C97 is false (all processors but the first).** The loop that lists them runs over all processors: it always puts an element after the end of the vector. -/
theorem C97_create_map_false (np : ℕ) (h : 1 ≤ np) : createMap np 'b' = none := by
  obtain ⟨n, rfl⟩ : ∃ n, np = n + 1 := ⟨np - 1, by omega⟩
  have := bo_putRange_over n
  simpa [createMap] using this

/-! ## FIR filters -/

theorem bo_same (l : List ℚ) : TRef.diffBelow 10 (l.map some) (l.map some) = true := by
  have h1 : ∀ l : List ℚ, (l.map some).any Option.isNone = false := by
    intro l; induction l with
    | nil => rfl
    | cons a l ih => simp
  have h2 : ∀ l : List ℚ, (l.map some).reduceOption = l := by
    intro l; induction l with
    | nil => rfl
    | cons a l ih => exact congrArg (List.cons a) ih
  unfold TRef.diffBelow
  rw [h1, h2]
  simp only [Bool.or_self, Bool.false_eq_true, if_false, List.all_eq_true]
  intro p hp
  have hq : p.1 = p.2 := by
    have hz : l.zip l = l.map fun a => (a, a) := by
      clear hp
      induction l with
      | nil => rfl
      | cons a l ih => simp [ih]
    rw [hz] at hp
    obtain ⟨a, _, rfl⟩ := List.mem_map.1 hp
    rfl
  have hr : TRef.ratio (TRef.refmax l l) p.1 p.2 = none := by
    unfold TRef.ratio
    rw [hq, if_pos]
    norm_num
  rw [hr]
  rfl

/-- the state and the output vector after some calls -/
theorem bo_loop (F : Fir ℚ) (ok : FirOk F) (hs : F.save = true) (out : List ℚ) : ∀ n,
    ∃ q, FirInv F (fun j => rampIn F.inputSize j) n q (firLoop F (rampIn F.inputSize) out n).2
  | 0 => ⟨0, by
      refine ⟨?_, ?_, Or.inl ⟨rfl, rfl⟩⟩
      · exact ok.dec_pos
      · simp [firLoop, FirState.initial]⟩
  | n + 1 => by
    obtain ⟨q, inv⟩ := bo_loop F ok hs out n
    obtain ⟨m, -, h2⟩ := apply_frame F ok hs _ n q _ inv
    have hx : (fun k => rampIn F.inputSize (n * F.inputSize + k)) = rampIn F.inputSize := by
      funext k
      unfold rampIn
      rw [Nat.mul_add_mod_self_right]
    rw [hx] at h2
    exact ⟨q + m, h2⟩

/-- **C97, partial (the check of the FIR benchmark).** The check passes, however often the filter has been called and whatever the output vector held before, if the samples of the
calls before the last are a multiple of the decimation.  Missing: other decimations, see `C97_fir_false`. -/
theorem C97_fir_partial (k size dec loop : ℕ) (g : ℚ) (hd : 0 < dec) (hk : dec < k) (hk2 : 2 ≤ k) (hs : 0 < size) (hks : k ≤ size + 1) (hdiv : dec ∣ loop * size) :
    fir1 k size dec (loop + 1) g = some true := by
  have ho : order .nonsym k - 1 = k - 1 := by simp [order]
  unfold fir1
  rw [if_neg (by omega)]
  obtain ⟨F, hF⟩ : ∃ F, Fir.make .nonsym true (fun j => if j = 1 then (1 : ℚ) else 0) k size dec = some F := by
    unfold Fir.make
    rw [if_pos]
    · exact ⟨_, rfl⟩
    · simp only [ho, if_true]
      omega
  rw [hF, Option.bind_some]
  obtain ⟨hFe, -⟩ := make_some _ _ _ _ _ _ _ hF
  rw [ho] at hFe
  have e1 : F.inputSize = size := by rw [hFe]
  have e2 : F.M = k - 1 := by rw [hFe]
  have e3 : F.dec = dec := by rw [hFe]
  have e4 : F.save = true := by rw [hFe]
  have e5 : F.kernel = unpack .nonsym k (fun j => if j = 1 then (1 : ℚ) else 0) := by rw [hFe]
  have ok : FirOk F := ⟨by omega, by omega, by omega⟩
  obtain ⟨q, inv⟩ := bo_loop F ok e4 (List.replicate ((size + dec - 1) / dec) g) loop
  obtain ⟨m, h1, h2⟩ := apply_frame F ok e4 _ loop q _ inv
  have hx : (fun k => rampIn F.inputSize (loop * F.inputSize + k)) = rampIn F.inputSize := by
    funext k
    unfold rampIn
    rw [Nat.mul_add_mod_self_right]
  rw [hx] at h1 h2
  have hskip : (firLoop F (rampIn F.inputSize) (List.replicate ((size + dec - 1) / dec) g) loop).2.skip = 0 := by
    have hp := inv.pos
    have hl := inv.skip_lt
    rw [e1, e3] at hp
    rw [e3] at hl
    rw [e1] at hl ⊢
    have h6 : dec ∣ q * dec := Dvd.intro_left _ rfl
    rw [← hp] at h6
    exact Nat.eq_zero_of_dvd_of_lt ((Nat.dvd_add_right hdiv).1 h6) hl
  have hq : loop * size = q * dec := by
    have hp := inv.pos
    rw [hskip, e1, e3] at hp
    simpa using hp
  have hm : (size - 1) / dec < m := by
    have hp := h2.pos
    rw [e1, e3, Nat.add_mul, Nat.one_mul, Nat.add_mul, hq] at hp
    have hd1 := Nat.div_mul_le_self (size - 1) dec
    by_contra hcon
    have : m * dec ≤ (size - 1) / dec * dec := Nat.mul_le_mul_right _ (by omega)
    omega
  have hval : ∀ i < (size - 1) / dec,
      (firLoop F (rampIn size) (List.replicate ((size + dec - 1) / dec) g) (loop + 1)).1[1 + i]? = some (rampIn size (dec - 1 + i * dec)) := by
    intro i hi
    show ((F.apply (firLoop F (rampIn size) _ loop).2 (rampIn size)).1 ++ _)[1 + i]? = _
    rw [e1] at h1
    rw [h1, List.getElem?_append_left (by simp; omega), List.getElem?_map, List.getElem?_range (by omega)]
    simp only [Option.map_some, Option.some.injEq]
    unfold decimated
    rw [Finset.sum_eq_single 1]
    · rw [e5, e2, e3]
      have hun := unpack_eq .nonsym k (by omega) (fun j => if j = 1 then (1 : ℚ) else 0) (k - 1 - 1) 1 (by simp only [fullLength]; omega)
      beta_reduce
      rw [hun]
      have hmul : (q + (1 + i)) * dec = loop * size + (dec + i * dec) := by rw [Nat.add_mul, hq]; ring
      rw [hmul, if_pos (by omega), show loop * size + (dec + i * dec) - 1 = loop * size + (dec - 1 + i * dec) by omega]
      simp only [fullKernel, if_true, one_mul]
      unfold rampIn
      rw [Nat.mul_add_mod_self_right]
    · intro j hj hj1
      rw [Finset.mem_range] at hj
      have hun := unpack_eq .nonsym k (by omega) (fun j => if j = 1 then (1 : ℚ) else 0) (F.M - j) j (by simp only [fullLength]; omega)
      beta_reduce
      rw [e5, hun]
      simp [fullKernel, hj1]
    · intro hn
      exact absurd (Finset.mem_range.2 (by omega)) hn
  have hl : ((List.range ((size - 1) / dec)).map fun i =>
        (firLoop F (rampIn size) (List.replicate ((size + dec - 1) / dec) g) (loop + 1)).1[1 + i]?) =
      ((List.range ((size - 1) / dec)).map fun i => rampIn size (dec - 1 + i * dec)).map some := by
    rw [List.map_map]
    apply List.map_congr_left
    intro i hi
    exact hval i (List.mem_range.1 hi)
  rw [hl]
  have hr : ((List.range ((size - 1) / dec)).map fun i => some (rampIn size (dec - 1 + i * dec))) =
      ((List.range ((size - 1) / dec)).map fun i => rampIn size (dec - 1 + i * dec)).map some := by
    rw [List.map_map]; rfl
  rw [hr, bo_same]

example : fir1 16 32 4 3 (-7) = some true := C97_fir_partial 16 32 4 2 (-7) (by decide) (by decide) (by decide) (by decide) (by decide) (by decide)

/-- **C97 is false (the check of the FIR benchmark).** With `-p:d 3` the first call leaves a fraction of the decimation to the next one, whose outputs belong to other inputs: the
check fails from the second call on, for the smallest size already. -/
theorem C97_fir_false : fir1 16 16 3 1 0 = some true ∧ fir1 16 16 3 2 0 = some false ∧ fir1 1 16 1 1 0 = none := by decide +kernel

/-- **C97 (the output of the FIR benchmark).** The output vector keeps its size, as long as no call computes more elements than it has. -/
theorem C97_fir_output (F : Fir ℚ) (x : ℕ → ℚ) (out : List ℚ) (n : ℕ) (h : ∀ m < n, (F.apply (firLoop F x out m).2 x).1.length ≤ out.length) :
    (firLoop F x out n).1.length = out.length := by
  induction n with
  | zero => rfl
  | succ n ih =>
    have h1 := ih fun m hm => h m (by omega)
    have h2 := h n (by omega)
    simp only [firLoop, List.length_append, List.length_drop]
    omega

example : ∃ F, Fir.make .nonsym true (fun j => if j = 1 then (1 : ℚ) else 0) 2 4 1 = some F ∧
    ∀ m < 2, (F.apply (firLoop F (rampIn 4) [0, 0, 0, 0] m).2 (rampIn 4)).1.length ≤ [(0 : ℚ), 0, 0, 0].length :=
  ⟨_, rfl, by decide +kernel⟩

/-- **C97 is false (blocks of a fixed problem).** The blocks of `t_fir2` have stride 0: each is one element, repeated.  The elements met are the multiples of the block size, so
that of any problem of at least two elements element 1 is neither read nor written. -/
theorem C97_fir_blocks_false (total block : ℕ) (hb : 2 ≤ block) : (∀ a ∈ fir2Elems total block, block ∣ a) ∧ 1 ∉ fir2Elems total block := by
  have h : ∀ a ∈ fir2Elems total block, block ∣ a := by
    intro a ha
    simp only [fir2Elems, List.mem_flatMap, List.mem_map] at ha
    obtain ⟨b, -, i, -, rfl⟩ := ha
    simp
  refine ⟨h, fun h1 => ?_⟩
  have := Nat.le_of_dvd (by decide) (h 1 h1)
  omega

example : fir2Elems 8 4 = [0, 0, 0, 0, 4, 4, 4, 4] := by decide

/-- **C97, partial (blocks of a fixed problem).** Blocks of one element meet all elements, once and in order.  Missing: all longer ones, see `C97_fir_blocks_false`. -/
theorem C97_fir_blocks_partial (total : ℕ) : fir2Elems total 1 = List.range total := by
  have : ∀ l : List ℕ, (l.flatMap fun b => [b]) = l := by
    intro l; induction l with
    | nil => rfl
    | cons a l ih => simp
  simpa [fir2Elems] using this (List.range total)

/-! ## STREAM -/

theorem bo_add (M p q : ℚ) (hp : 0 ≤ p) (hq : 0 ≤ q) : Fl.add M (rnd M p) (rnd M q) = rnd M (p + q) := by
  unfold rnd
  by_cases h1 : p < M <;> by_cases h2 : q < M
  · rw [if_pos h1, if_pos h2]; rfl
  · rw [if_pos h1, if_neg h2, if_neg (by linarith)]; rfl
  · rw [if_neg h1, if_pos h2, if_neg (by linarith)]; rfl
  · rw [if_neg h1, if_neg h2, if_neg (by linarith)]; rfl

theorem bo_mul (M q : ℚ) (hq : 0 < q) : Fl.mul M (.fin 3) (rnd M q) = rnd M (3 * q) := by
  unfold rnd
  by_cases h1 : q < M
  · rw [if_pos h1]; rfl
  · rw [if_neg h1, if_neg (by linarith)]
    simp [Fl.mul]

theorem bo_step (M q : ℚ) (hq : 0 < q) (x y : Fl) : streamStep M (rnd M q, x, y) = (rnd M (15 * q), rnd M (3 * q), rnd M (4 * q)) := by
  unfold streamStep
  simp only [bo_mul M q hq, bo_add M q (3 * q) hq.le (by linarith)]
  rw [bo_mul M _ (by linarith), bo_add M _ _ (by linarith) (by linarith)]
  congr 2 <;> ring_nf

theorem bo_run (M : ℚ) (hM : 2 < M) (x y : Fl) : ∀ n, ∃ x' y', streamRun M (.fin 2, x, y) n = (rnd M (2 * 15 ^ n), x', y')
  | 0 => ⟨x, y, by simp [streamRun, rnd, hM]⟩
  | n + 1 => by
    obtain ⟨x', y', h⟩ := bo_run M hM x y n
    refine ⟨rnd M (3 * (2 * 15 ^ n)), rnd M (4 * (2 * 15 ^ n)), ?_⟩
    rw [streamRun, h, bo_step M _ (by positivity)]
    congr 2
    ring

theorem bo_run_succ (M : ℚ) (hM : 2 < M) (x y : Fl) (n : ℕ) :
    streamRun M (.fin 2, x, y) (n + 1) = (rnd M (2 * 15 ^ (n + 1)), rnd M (6 * 15 ^ n), rnd M (8 * 15 ^ n)) := by
  obtain ⟨x', y', h⟩ := bo_run M hM x y n
  rw [streamRun, h, bo_step M _ (by positivity)]
  refine Prod.ext ?_ (Prod.ext ?_ ?_) <;> simp only <;> congr 1 <;> ring

/-- **C97 (STREAM).** `n + 1` rounds of copy, scale, add and triad multiply `A` by 15 each, and leave 3 and 4 times the value before in `B` and `C`, as long as the numbers do not
overflow; what the vectors held does not matter. -/
theorem C97_stream (M : ℚ) (x y : Fl) (n : ℕ) (h : 2 * 15 ^ (n + 1) < M) :
    streamRun M (.fin 2, x, y) (n + 1) = (.fin (2 * 15 ^ (n + 1)), .fin (3 * (2 * 15 ^ n)), .fin (4 * (2 * 15 ^ n))) := by
  have h15 : (15 : ℚ) ^ (n + 1) = 15 * 15 ^ n := by ring
  have hpos : (1 : ℚ) ≤ 15 ^ n := one_le_pow₀ (by norm_num)
  rw [bo_run_succ M (by linarith)]
  unfold rnd
  rw [if_pos h, if_pos (by linarith), if_pos (by linarith)]
  refine Prod.ext rfl (Prod.ext ?_ ?_) <;> simp only <;> congr 1 <;> ring

example : streamRun 1000 (.fin 2, .nan, .inf) 2 = (.fin 450, .fin 90, .fin 120) := by
  have := C97_stream 1000 .nan .inf 1 (by norm_num)
  norm_num at this
  exact this

theorem bo_sum_fin (M' q : ℚ) (hM : 0 < M') (hq : 0 ≤ q) : ∀ n, sumTo M' (.fin q) n = rnd M' (n * q)
  | 0 => by simp [sumTo, rnd, hM]
  | n + 1 => by
    rw [sumTo, bo_sum_fin M' q hM hq n]
    show Fl.add M' _ (rnd M' q) = _
    rw [bo_add _ _ _ (by positivity) hq]
    congr 1
    push_cast
    ring

theorem bo_sum_inf (M' : ℚ) : ∀ n, sumTo M' .inf (n + 1) = .inf
  | 0 => rfl
  | n + 1 => by
    rw [sumTo, bo_sum_inf M' n]
    rfl

theorem bo_mul_size (M' q : ℚ) (hq : 0 < q) (size : ℕ) (hs : 0 < size) : Fl.mul M' (rnd M' q) (.fin size) = rnd M' (size * q) := by
  have h1 : (1 : ℚ) ≤ size := by exact_mod_cast hs
  unfold rnd
  by_cases h : q < M'
  · rw [if_pos h]
    show rnd M' (q * size) = _
    unfold rnd
    rw [mul_comm]
  · have : q ≤ size * q := by nlinarith
    rw [if_neg h, if_neg (by linarith)]
    show (if (size : ℚ) = 0 then Fl.nan else .inf) = _
    rw [if_neg (by linarith)]

theorem bo_close (M M' eps q : ℚ) (hMM : M ≤ M') (hM : 0 < M) (he : 0 ≤ eps) (hq : 0 < q) (size : ℕ) :
    Fl.close eps (Fl.mul M' (rnd M' q) (.fin size)) (sumTo M' (rnd M q) size) = true ↔ 0 < size ∧ q < M ∧ size * q < M' := by
  rcases Nat.eq_zero_or_pos size with rfl | hs
  · simp only [lt_irrefl, false_and, iff_false, sumTo]
    generalize Fl.mul M' (rnd M' q) (.fin (0 : ℕ)) = v
    cases v <;> simp [Fl.close]
  · rw [bo_mul_size M' q hq size hs]
    obtain ⟨n, rfl⟩ : ∃ n, size = n + 1 := ⟨size - 1, by omega⟩
    by_cases h : q < M
    · have hr : rnd M q = .fin q := by unfold rnd; rw [if_pos h]
      rw [hr, bo_sum_fin M' q (by linarith) hq.le]
      by_cases h2 : ((n + 1 : ℕ) : ℚ) * q < M'
      · have hr : rnd M' (((n + 1 : ℕ) : ℚ) * q) = .fin (((n + 1 : ℕ) : ℚ) * q) := by unfold rnd; rw [if_pos h2]
        have hn : ((n + 1 : ℕ) : ℚ) * q ≠ 0 := by positivity
        rw [hr]
        simp only [Fl.close]
        rw [if_neg hn]
        simp only [sub_self, abs_zero, zero_div, decide_eq_true_eq]
        exact ⟨fun _ => ⟨hs, h, h2⟩, fun _ => he⟩
      · have hr : rnd M' (((n + 1 : ℕ) : ℚ) * q) = .inf := by unfold rnd; rw [if_neg h2]
        rw [hr]
        constructor
        · intro hc
          simp [Fl.close] at hc
        · intro hc
          exact absurd hc.2.2 h2
    · have hr : rnd M q = .inf := by unfold rnd; rw [if_neg h]
      rw [hr, bo_sum_inf]
      constructor
      · intro hc
        generalize rnd M' (((n + 1 : ℕ) : ℚ) * q) = v at hc
        cases v <;> simp [Fl.close] at hc
      · intro hc
        exact absurd hc.2.1 h

/-- **C97 (the check of STREAM).** The check passes exactly if there are elements, the elements do not overflow and the sum over all elements does not. -/
theorem C97_stream_check (M M' eps : ℚ) (hMM : M ≤ M') (hM : 2 < M) (he : 0 ≤ eps) (size n : ℕ) (gb gc : Fl) :
    streamCheck M M' eps size (n + 1) gb gc = true ↔ 0 < size ∧ 2 * 15 ^ (n + 1) < M ∧ size * (2 * 15 ^ (n + 1)) < M' := by
  have h15 : (15 : ℚ) ^ (n + 1) = 15 * 15 ^ n := by ring
  have hpos : (1 : ℚ) ≤ 15 ^ n := one_le_pow₀ (by norm_num)
  unfold streamCheck
  simp only [bo_run_succ M hM, bo_run_succ M' (by linarith)]
  rw [Bool.and_eq_true, Bool.and_eq_true, bo_close M M' eps _ hMM (by linarith) he (by positivity), bo_close M M' eps _ hMM (by linarith) he (by positivity),
    bo_close M M' eps _ hMM (by linarith) he (by positivity)]
  constructor
  · intro h
    exact h.1.1
  · intro h
    have hs : (0 : ℚ) ≤ size := by positivity
    refine ⟨⟨h, h.1, by linarith, ?_⟩, h.1, by linarith, ?_⟩
    · refine lt_of_le_of_lt ?_ h.2.2
      apply mul_le_mul_of_nonneg_left _ hs
      linarith
    · refine lt_of_le_of_lt ?_ h.2.2
      apply mul_le_mul_of_nonneg_left _ hs
      linarith

example : streamCheck (2 ^ 128) (2 ^ 1024) (1 / 100000) 2097152 10 .nan .inf = true :=
  (C97_stream_check (2 ^ 128) (2 ^ 1024) (1 / 100000) (pow_le_pow_right₀ (by norm_num) (by norm_num)) (by norm_num) (by norm_num) 2097152 9 .nan .inf).2
    ⟨by norm_num, by norm_num, lt_of_lt_of_le (show _ < (2 : ℚ) ^ 128 by norm_num) (pow_le_pow_right₀ (by norm_num) (by norm_num))⟩

/-- **C97 is false (STREAM with many loops).** From 33 loops on, the numbers of `A` are no `float`s any more and the check of the benchmark fails, whatever the size: with
`-loop_start 33` or more, the program stops. -/
theorem C97_stream_false (size n : ℕ) (gb gc : Fl) (hn : 33 ≤ n) : streamCheck (2 ^ 128) (2 ^ 1024) (1 / 100000) size n gb gc = false := by
  obtain ⟨m, rfl⟩ : ∃ m, n = m + 1 := ⟨n - 1, by omega⟩
  rw [Bool.eq_false_iff]
  intro h
  have h2 := ((C97_stream_check (2 ^ 128) (2 ^ 1024) (1 / 100000) (pow_le_pow_right₀ (by norm_num) (by norm_num)) (by norm_num) (by norm_num) size m gb gc).1 h).2.1
  have h3 : (15 : ℚ) ^ 33 ≤ 15 ^ (m + 1) := pow_le_pow_right₀ (by norm_num) hn
  have h4 : (2 : ℚ) ^ 128 ≤ 2 * 15 ^ 33 := by norm_num
  linarith

/-- **C97 is false (STREAM with `int`).** After eight loops the elements are no `int`s; ten loops are the default. -/
theorem C97_stream_int_false (n : ℕ) : streamInt n = if n < 8 then some (2 * 15 ^ n) else none := by
  induction n with
  | zero => rfl
  | succ n ih =>
    rw [streamInt, ih]
    by_cases h : n < 7
    · have hn : n = 0 ∨ n = 1 ∨ n = 2 ∨ n = 3 ∨ n = 4 ∨ n = 5 ∨ n = 6 := by omega
      rcases hn with rfl | rfl | rfl | rfl | rfl | rfl | rfl <;> decide
    · by_cases h7 : n = 7
      · subst h7; decide
      · rw [if_neg (by omega), if_neg (by omega)]; rfl

example : streamInt 3 = some 6750 ∧ streamInt 10 = none := by
  constructor
  · rw [C97_stream_int_false]; decide
  · rw [C97_stream_int_false]; decide

/-- **C97 is false (checks with `int`).** The relative error is computed by an integer division: any sum is accepted that is more than half of what it should be. -/
theorem C97_stream_int_check_false (a s : ℤ) (ha : 0 < a) (hs : 0 < s) : intClose a s = true ↔ a < 2 * s := by
  unfold intClose
  rw [decide_eq_true_eq, Int.tdiv_eq_ediv_of_nonneg (abs_nonneg _)]
  have h0 : 0 ≤ |a - s| / s := Int.ediv_nonneg (abs_nonneg _) hs.le
  constructor
  · intro h
    have h1 : |a - s| < s := by
      by_contra hc
      have : 1 ≤ |a - s| / s := by rw [Int.le_ediv_iff_mul_le hs]; omega
      omega
    have := (abs_lt.1 h1).2
    omega
  · intro h
    rw [Int.ediv_eq_zero_of_lt (abs_nonneg _) (abs_lt.2 ⟨by omega, by omega⟩)]

example : intClose 30 16 = true ∧ intClose 30 1000000 = true ∧ intClose 30 15 = false := by decide

/-! ## Products of vector and matrix -/

/-- **C97, partial (operations of a product).** The number of operations per column is right, if that of all is an `int`.  Missing: larger ones, see `C97_vmmul_ops_false`. -/
theorem C97_vmmul_ops_partial (rows cols mul : ℕ) (hc : 0 < cols) (h : rows * cols * mul < 2 ^ 31) : vmmulOps rows cols mul = rows * mul := by
  unfold vmmulOps toInt
  rw [Nat.mod_eq_of_lt (by omega), if_pos h]
  have : (((rows * cols * mul : ℕ) : ℤ) % 2 ^ 64).toNat = rows * cols * mul := by
    generalize rows * cols * mul = x at *
    omega
  rw [this, show rows * cols * mul = rows * mul * cols by ring, Nat.mul_div_cancel _ hc]

example : vmmulOps 64 65536 6 = 384 := C97_vmmul_ops_partial 64 65536 6 (by decide) (by decide)

/-- **C97 is false (operations of a large product).** With 8192 rows, the operations of 65536 columns, the largest of the sweep, do not fit in an `int`: 281 million million operations per
point are reported in place of 49152. -/
theorem C97_vmmul_ops_false : vmmulOps 8192 65536 6 = 281474976694272 ∧ 8192 * 6 = 49152 := by decide +kernel

/-- **C97, partial (elements of a product).** The elements read per column are right if the vector is as long as the rows, or if its length is a multiple of the number of columns.  Missing: other vectors, and all
elements written, see `C97_vmmul_elems_false`. -/
theorem C97_vmmul_elems_partial (byRow : Bool) (rows cols : ℕ) (h : byRow = true ∨ cols ∣ rows) : vmmulElems byRow rows cols * cols = readElems byRow rows cols := by
  cases byRow
  · obtain h | ⟨m, rfl⟩ := h
    · cases h
    · rcases Nat.eq_zero_or_pos cols with rfl | hc
      · simp [vmmulElems, readElems]
      · simp only [vmmulElems, readElems, Bool.false_eq_true, if_false, Nat.mul_div_cancel_left _ hc]
        ring
  · simp only [vmmulElems, readElems, if_true]
    ring

example : vmmulElems false 64 16 * 16 = 64 * 16 + 64 := C97_vmmul_elems_partial false 64 16 (.inr (by decide))

/-- **C97 is false (elements written by a product).** The elements written are counted like those read: the vector, which is not written, is among them; and a vector that is shorter than
the number of columns is not counted at all. -/
theorem C97_vmmul_elems_false (rows cols : ℕ) (hc : 0 < cols) :
    vmmulElems true rows cols * cols ≠ rows * cols ∧ (0 < rows → rows < cols → vmmulElems false rows cols * cols ≠ readElems false rows cols) := by
  constructor
  · simp only [vmmulElems, if_true, Nat.add_mul, Nat.one_mul]
    omega
  · intro h1 h2
    simp only [vmmulElems, readElems, Bool.false_eq_true, if_false, Nat.div_eq_of_lt h2, Nat.add_zero]
    omega

/-- **C97, partial (the check of a product).** A right product passes the check, if the vector has the length of the rows or the processor has all rows.  Missing: products with a vector
along the columns on several processors, see `C97_vmmul_check_false`. -/
theorem C97_vmmul_check_partial (byRow : Bool) (rows cols off lr : ℕ) (w : ℕ → ℚ) (a z : ℕ → ℕ → ℚ) (h : byRow = true ∨ (off = 0 ∧ lr = rows))
    (hz : ∀ r c, z r c = w (if byRow then c else r) * a r c) : vmmulCheck byRow rows cols off lr w a z = some true := by
  cases byRow
  · obtain h | ⟨rfl, rfl⟩ := h
    · cases h
    · simp [vmmulCheck, hz]
  · simp [vmmulCheck, hz]

example : vmmulCheck false 4 3 0 4 (fun r => r + 1) (fun r c => r * c) (fun r c => ((r : ℚ) + 1) * (r * c)) = some true :=
  C97_vmmul_check_partial false 4 3 0 4 _ _ _ (.inr ⟨rfl, rfl⟩) (fun _ _ => rfl)

/-- a wrong element fails the check -/
theorem C97_vmmul_check_fails (rows cols off lr r c : ℕ) (w : ℕ → ℚ) (a z : ℕ → ℕ → ℚ) (hr : r < lr) (hc : c < cols) (hz : z (off + r) c ≠ w c * a (off + r) c) :
    vmmulCheck true rows cols off lr w a z = some false := by
  simp only [vmmulCheck, if_true, Option.some.injEq]
  rw [Bool.eq_false_iff]
  intro h
  rw [List.all_eq_true] at h
  have h1 := h r (List.mem_range.2 hr)
  rw [List.all_eq_true] at h1
  exact hz (by simpa using h1 c (List.mem_range.2 hc))

/-- **C97 is false (the check of a product on several processors).** With a vector along the columns the check goes through all rows of the matrix on every processor: on a processor that
has not all of them it reads outside of its part. -/
theorem C97_vmmul_check_false (rows cols off lr : ℕ) (w : ℕ → ℚ) (a z : ℕ → ℕ → ℚ) (hc : 0 < cols) (hl : lr < rows) : vmmulCheck false rows cols off lr w a z = none := by
  simp [vmmulCheck, hc, hl]

/-! ## SIMD stores -/

theorem bo_simd {V : Type} (vs size : ℕ) (val : V) (hv : 0 < vs) : ∀ (fuel i : ℕ) (m : ℕ → V) (a : ℕ), size ≤ i + fuel →
    ∃ e, size ≤ e ∧ i ≤ e ∧ (e < size + vs ∨ e = i) ∧ vs ∣ e - i ∧ simdWrite vs size val fuel i m a = if i ≤ a ∧ a < e then val else m a
  | 0, i, m, a, h => ⟨i, by omega, le_rfl, .inr rfl, by simp, by rw [simdWrite, if_neg (by omega)]⟩
  | fuel + 1, i, m, a, h => by
    by_cases hi : i < size
    · obtain ⟨e, h1, h2, h3, h4, h5⟩ := bo_simd vs size val hv fuel (i + vs) (store vs i val m) a (by omega)
      refine ⟨e, h1, by omega, by omega, ?_, ?_⟩
      · have : e - i = e - (i + vs) + vs := by omega
        rw [this]
        exact Dvd.dvd.add h4 (dvd_refl vs)
      · rw [simdWrite, if_pos hi, h5]
        unfold store
        by_cases c1 : i + vs ≤ a ∧ a < e
        · rw [if_pos c1, if_pos (by omega)]
        · rw [if_neg c1]
          by_cases c2 : i ≤ a ∧ a < i + vs
          · rw [if_pos c2, if_pos (by omega)]
          · rw [if_neg c2, if_neg (by omega)]
    · exact ⟨i, by omega, le_rfl, .inr rfl, by simp, by rw [simdWrite, if_neg hi, if_neg (by omega)]⟩

theorem bo_ones {V : Type} (vs : ℕ) (val : V) (hv : 0 < vs) : ∀ (fuel n p : ℕ) (m : ℕ → V) (a : ℕ), n ≤ fuel →
    simdOnes vs val fuel n p m a = if p ≤ a ∧ a < p + n / vs * vs then val else m a
  | 0, n, p, m, a, h => by
    have : n = 0 := by omega
    subst this
    rw [simdOnes, if_neg (by simp)]
  | fuel + 1, n, p, m, a, h => by
    by_cases hn : vs ≤ n
    · rw [simdOnes, if_pos hn, bo_ones vs val hv fuel (n - vs) (p + vs) _ a (by omega)]
      have : n / vs * vs = (n - vs) / vs * vs + vs := by
        rw [Nat.div_eq_sub_div hv hn, Nat.add_mul, Nat.one_mul]
      rw [this]
      unfold store
      generalize (n - vs) / vs * vs = x
      by_cases c1 : p + vs ≤ a ∧ a < p + vs + x
      · rw [if_pos c1, if_pos (by omega)]
      · rw [if_neg c1]
        by_cases c2 : p ≤ a ∧ a < p + vs
        · rw [if_pos c2, if_pos (by omega)]
        · rw [if_neg c2, if_neg (by omega)]
    · rw [simdOnes, if_neg hn, Nat.div_eq_of_lt (by omega), if_neg (by omega)]

theorem bo_fours {V : Type} (vs : ℕ) (val : V) (hv : 0 < vs) : ∀ (fuel n p : ℕ) (m : ℕ → V) (a : ℕ),
    simdFours vs val fuel n p m a = if p ≤ a ∧ a < p + n / vs * vs then val else m a
  | 0, n, p, m, a => by rw [simdFours, bo_ones vs val hv n n p m a le_rfl]
  | fuel + 1, n, p, m, a => by
    by_cases hn : 4 * vs ≤ n
    · rw [simdFours, if_pos hn, bo_fours vs val hv fuel (n - 4 * vs) (p + 4 * vs) _ a]
      have : n / vs * vs = (n - 4 * vs) / vs * vs + 4 * vs := by
        have hx : n = (n - 4 * vs) + vs * 4 := by omega
        conv_lhs => rw [hx, Nat.add_mul_div_left _ _ hv]
        ring
      rw [this]
      unfold store
      generalize (n - 4 * vs) / vs * vs = x
      by_cases c1 : p + 4 * vs ≤ a ∧ a < p + 4 * vs + x
      · rw [if_pos c1, if_pos (by omega)]
      · rw [if_neg c1]
        by_cases c2 : p ≤ a ∧ a < p + 4 * vs
        · rw [if_pos (show p ≤ a ∧ a < p + (x + 4 * vs) by omega)]
          split_ifs <;> first | rfl | omega
        · rw [if_neg (show ¬ (p ≤ a ∧ a < p + (x + 4 * vs)) by omega)]
          rw [if_neg (by omega), if_neg (by omega), if_neg (by omega), if_neg (by omega)]
    · rw [simdFours, if_neg hn, bo_ones vs val hv n n p m a le_rfl]

/-- **C97, partial (SIMD stores).** Both loops fill a view whose size is a multiple of the vector size, and nothing else; the unrolled one writes nothing outside for any size.  Missing: other
sizes, see `C97_simd_false`. -/
theorem C97_simd_partial {V : Type} (vs size : ℕ) (val : V) (m : ℕ → V) (hv : 0 < vs) :
    (vs ∣ size → Filled size val m (simdWrite vs size val size 0 m)) ∧ (vs ∣ size → Filled size val m (simdFours vs val size size 0 m)) ∧
    ∀ a, size ≤ a → simdFours vs val size size 0 m a = m a := by
  have hle := Nat.div_mul_le_self size vs
  refine ⟨fun hd => ?_, fun hd => ?_, fun a ha => ?_⟩
  · have key : ∀ a, simdWrite vs size val size 0 m a = if a < size then val else m a := by
      intro a
      obtain ⟨e, h1, -, h3, h4, h5⟩ := bo_simd vs size val hv size 0 m a (by omega)
      have he : e = size := by
        rw [Nat.sub_zero] at h4
        have hd2 := (Nat.dvd_sub h4 hd)
        rcases h3 with h3 | h3
        · have := Nat.eq_zero_of_dvd_of_lt hd2 (by omega)
          omega
        · omega
      rw [h5, he]
      simp
    exact ⟨fun a ha => by rw [key, if_pos ha], fun a ha => by rw [key, if_neg (by omega)]⟩
  · rw [Nat.dvd_iff_div_mul_eq] at hd
    constructor
    · intro a ha
      rw [bo_fours vs val hv, hd, if_pos (by omega)]
    · intro a ha
      rw [bo_fours vs val hv, hd, if_neg (by omega)]
  · rw [bo_fours vs val hv, if_neg (by omega)]

example : Filled 12 (3 : ℕ) (fun _ => 2) (simdWrite 4 12 3 12 0 fun _ => 2) := (C97_simd_partial 4 12 3 _ (by decide)).1 (by decide)

/-- **C97 is false (SIMD stores).** If the size is no multiple of the vector size, the simple loop writes after the end of the view, and the unrolled one leaves the last element as it is, so that
the check fails. -/
theorem C97_simd_false {V : Type} (vs size : ℕ) (val : V) (m : ℕ → V) (hv : 0 < vs) (hd : ¬ vs ∣ size) :
    simdWrite vs size val size 0 m size = val ∧ simdFours vs val size size 0 m (size - 1) = m (size - 1) := by
  constructor
  · obtain ⟨e, h1, -, -, h4, h5⟩ := bo_simd vs size val hv size 0 m size (by omega)
    have : e ≠ size := by
      rintro rfl
      exact hd (by simpa using h4)
    rw [h5, if_pos (by omega)]
  · have hle := Nat.div_mul_le_self size vs
    have hne : size / vs * vs ≠ size := fun h => hd (Nat.dvd_iff_div_mul_eq _ _ |>.2 h)
    rw [bo_fours vs val hv, if_neg (by omega)]

/-! ## Maxima -/

theorem bo_firstMax (f : ℕ → ℤ) : ∀ n, (0 < n → firstMax f n < n) ∧ (∀ j < n, f j ≤ f (firstMax f n)) ∧ ∀ j < firstMax f n, f j < f (firstMax f n)
  | 0 => ⟨by simp, by simp, by simp [firstMax]⟩
  | n + 1 => by
    obtain ⟨h1, h2, h3⟩ := bo_firstMax f n
    rw [firstMax]
    by_cases h : f n > f (firstMax f n)
    · rw [if_pos h]
      refine ⟨fun _ => by omega, fun j hj => ?_, fun j hj => ?_⟩
      · rcases Nat.lt_succ_iff_lt_or_eq.1 hj with hj | rfl
        · exact (h2 j hj).trans h.le
        · exact le_rfl
      · exact (h2 j hj).trans_lt h
    · rw [if_neg h]
      refine ⟨fun _ => ?_, fun j hj => ?_, h3⟩
      · rcases Nat.eq_zero_or_pos n with rfl | hn
        · simp [firstMax]
        · have := h1 hn; omega
      · rcases Nat.lt_succ_iff_lt_or_eq.1 hj with hj | rfl
        · exact h2 j hj
        · exact not_lt.1 h

/-- **C97, partial (the checks of `maxval`).** Up to `2^24` elements the checks of both ramps pass.  Missing: more, see `C97_maxval_false`. -/
theorem C97_maxval_partial (size : ℕ) (h0 : 0 < size) (h : size ≤ 2 ^ 24) : maxvalRamp size = true ∧ maxvalReverse size = true := by
  have hf : ∀ j < size, fl24 j = j := by
    intro j hj
    unfold fl24
    rw [if_pos (by omega)]
  constructor
  · obtain ⟨h1, h2, -⟩ := bo_firstMax (fun i => (fl24 i : ℤ)) size
    have h3 := h1 h0
    have h4 := h2 (size - 1) (by omega)
    rw [hf _ (by omega), hf _ h3] at h4
    have h5 : firstMax (fun i => (fl24 i : ℤ)) size = size - 1 := by omega
    simp [maxvalRamp, h5]
  · obtain ⟨h1, h2, -⟩ := bo_firstMax (fun i => (fl24 (size - 1) : ℤ) - fl24 i) size
    have h3 := h1 h0
    have h4 := h2 0 h0
    rw [hf 0 h0, hf _ h3] at h4
    have h5 : firstMax (fun i => (fl24 (size - 1) : ℤ) - fl24 i) size = 0 := by omega
    simp [maxvalReverse, h5, hf 0 h0]

example : maxvalRamp 4096 = true := (C97_maxval_partial 4096 (by decide) (by decide)).1

/-- **C97 is false (the check of `maxval` for a long ramp).** The last two of `2^26` elements are the same `float`, so that the maximum is found before the last one and the check fails. -/
theorem C97_maxval_false : maxvalRamp (2 ^ 26) = false := by
  have h : fl24 (2 ^ 26 - 2) = fl24 (2 ^ 26 - 1) := by decide +kernel
  obtain ⟨-, -, h3⟩ := bo_firstMax (fun i => (fl24 i : ℤ)) (2 ^ 26)
  unfold maxvalRamp
  rw [Bool.and_eq_false_iff]
  right
  rw [Bool.eq_false_iff]
  intro hc
  have hc : firstMax (fun i => (fl24 i : ℤ)) (2 ^ 26) = 2 ^ 26 - 1 := by simpa using hc
  rw [hc] at h3
  have := h3 (2 ^ 26 - 2) (by norm_num)
  simp only [h] at this
  exact lt_irrefl _ this

#print axioms Verif.Props.C97_maps_partial
#print axioms Verif.Props.C97_maps_false
#print axioms Verif.Props.C97_create_map_partial
#print axioms Verif.Props.C97_create_map_false
#print axioms Verif.Props.C97_fir_partial
#print axioms Verif.Props.C97_fir_false
#print axioms Verif.Props.C97_fir_blocks_false
#print axioms Verif.Props.C97_fir_blocks_partial
#print axioms Verif.Props.C97_stream
#print axioms Verif.Props.C97_stream_check
#print axioms Verif.Props.C97_stream_false
#print axioms Verif.Props.C97_stream_int_false
#print axioms Verif.Props.C97_stream_int_check_false
#print axioms Verif.Props.C97_vmmul_ops_partial
#print axioms Verif.Props.C97_vmmul_ops_false
#print axioms Verif.Props.C97_vmmul_elems_partial
#print axioms Verif.Props.C97_vmmul_elems_false
#print axioms Verif.Props.C97_vmmul_check_partial
#print axioms Verif.Props.C97_vmmul_check_fails
#print axioms Verif.Props.C97_vmmul_check_false
#print axioms Verif.Props.C97_simd_partial
#print axioms Verif.Props.C97_simd_false
#print axioms Verif.Props.C97_maxval_partial
#print axioms Verif.Props.C97_maxval_false

end Verif.Props
#print axioms Verif.Props.C97_fir_output
